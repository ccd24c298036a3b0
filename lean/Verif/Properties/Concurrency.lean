import Verif.Lemmas.ConcurrencyWait
import Verif.Lemmas.ConcurrencyScript
import Verif.Lemmas.ConcurrencyReport

/-!
# Properties of the planner's threads: C41, C43, C44, C45, C60, C61, C63, C87

Quantified over every interleaving of the worker, the computations and any number of user threads
that make any calls (`Reach anyUsers`); or of which only one evaluates (`Reach oneConsumer`).
-/
namespace Verif.Conc

/-! ### C43: one computation, and its input is not touched -/

/-- **C43.** At most one computation runs, it is the latest one started, and the status call says
so. -/
theorem C43_one_computation {σ : State} (h : Reach anyUsers σ) {n : Nat} (hn : Busy σ (.comp n)) :
    (∀ m, Busy σ (.comp m) → m = n) ∧ σ.launched = n + 1 ∧ σ.flag .computing = true := by
  obtain ⟨al, st, hi⟩ := reach_any h
  have key : ∀ m, Busy σ (.comp m) → st = .pending m := by
    intro m hm
    have hp : (al (.comp m)).phase ≠ .idle := fun e => hm (hi.idle m e)
    rcases stage_busy hi.stage hp with ⟨_, e, _⟩ | ⟨m', e1, e2, _⟩ | ⟨_, _, _, e, _⟩
    · cases e
    · cases e2; exact e1
    · cases e
  have hst := key n hn
  subst hst
  refine ⟨fun m hm => ?_, hi.stage.2.2.2.2.1.1, hi.stage.1⟩
  have := key m hm
  cases this
  rfl

/-- **C43.** While a computation runs, no other thread is about to read or write the waypoints being
planned, their start time or their time offset. -/
theorem C43_input_private {σ : State} (h : Reach anyUsers σ) {n : Nat} (hn : Busy σ (.comp n))
    {i : Tid} {a : Act} (ha : Next σ i a) {s : Site} {v : Var} {w : Bool}
    (hv : a.access = some (s, v, w)) (hp : v = .nextWps ∨ v = .nStart ∨ v = .nOffset) :
    i = .comp n := by
  obtain ⟨al, st, hi⟩ := reach_any h
  have hph : (al (.comp n)).phase ≠ .idle := fun e => hn (hi.idle n e)
  have hst : st = .pending n := by
    rcases stage_busy hi.stage hph with ⟨_, e, _⟩ | ⟨m', e1, e2, _⟩ | ⟨_, _, _, e, _⟩
    · cases e
    · cases e2; exact e1
    · cases e
  rcases access_plan hi ha hv hp with ⟨_, e | e⟩ | ⟨m, e, e'⟩ | ⟨_, _, e, _⟩
  · rw [hst] at e; cases e
  · rw [hst] at e; cases e
  · rw [hst] at e; cases e; exact e'
  · rw [hst] at e; cases e

/-- **C43.** From the end of the computation until the plan is taken over the planned waypoints and
their start time are those the computation used: while the result is ready, and whenever a user
thread is about to read them. -/
theorem C43_until_taken_over {σ : State} (h : Reach anyUsers σ)
    (hr : (∃ n, σ.fut = .ready n) ∨ ∃ u a s v w, Next σ (.user u) a ∧ a.access = some (s, v, w) ∧
      (v = .nextWps ∨ v = .nStart)) : σ.planVer = σ.doneVer := by
  obtain ⟨al, st, hi⟩ := reach_any h
  have hs := hi.stage
  rcases hr with ⟨n, hf⟩ | ⟨u, a, s, v, w, ha, hv, hp⟩
  · cases st with
    | off => rw [hs.2.1] at hf; cases hf
    | prep => rw [hs.2.1] at hf; cases hf
    | pending m => rw [hs.2.1] at hf; cases hf
    | ready m => exact hs.2.2.2.2.2
    | taken u m => rw [hs.2.1] at hf; cases hf
  · rcases access_plan hi ha hv (hp.imp_right .inl) with ⟨e, _⟩ | ⟨m, _, e⟩ | ⟨_, _, e, _⟩
    · cases e
    · cases e
    · subst e
      exact hs.2.2.2.2.2.1

/-- A running computation, with the worker and a user also inside calls. -/
example : ∃ σ, Reach anyUsers σ ∧ Busy σ (.comp 0) ∧ Busy σ .worker ∧ Busy σ (.user 0) := by
  obtain ⟨σ, h, hp⟩ := script_any
    [.call 0 .setWaypoints, .finish (.user 0), .before .worker .launch, .one .worker false,
      .before .worker (.load .cond (.flag .stop)), .call 0 .evaluateTrajectory,
      .before (.user 0) .futWait, .before (.comp 0) .complete]
    (fun σ => !(σ.code (.comp 0)).isEmpty && !(σ.code .worker).isEmpty &&
      !(σ.code (.user 0)).isEmpty) (by decide +kernel)
  simp only [Bool.and_eq_true, Bool.not_eq_true', List.isEmpty_eq_false_iff] at hp
  exact ⟨σ, h, hp.1.1, hp.1.2, hp.2⟩

/-- A user about to copy the planned waypoints, after a computation that changed them. -/
example : ∃ σ, Reach oneConsumer σ ∧ Next σ (.user 0) (.read .plain .nextWps) ∧ 0 < σ.planVer := by
  obtain ⟨σ, h, hp⟩ := script_one
    (firstPlan ++ [.call 0 .evaluateTrajectory, .before (.user 0) (.read .plain .nextWps)])
    (fun σ => nextIs σ (.user 0) (.read .plain .nextWps) && decide (0 < σ.planVer)) (by decide)
    (by decide +kernel)
  simp only [Bool.and_eq_true, decide_eq_true_eq] at hp
  exact ⟨σ, h, nextIs_next hp.1, hp.2⟩

/-! ### C44: no deadlock -/

/-- **C44.** As long as no undefined behaviour has happened, whoever is inside a call (or is the
worker or a computation) can go on, or following who waits for whom leads to a thread that can: no
set of threads waits for each other. -/
theorem C44_no_deadlock {σ : State} (h : Reach anyUsers σ) (hu : σ.ub = false) {i : Tid}
    (hb : Busy σ i) : ∃ j, Relation.ReflTransGen (Waits σ) i j ∧ CanStep σ j := by
  obtain ⟨al, st, hi⟩ := reach_any h
  exact wait_ends hi hu 10 i hb fun l _ => Nat.le_add_left 10 l

/-- **C44.** With one evaluating thread the proviso is always met. -/
theorem C44_no_deadlock_one_consumer {σ : State} (h : Reach oneConsumer σ) {i : Tid}
    (hb : Busy σ i) : ∃ j, Relation.ReflTransGen (Waits σ) i j ∧ CanStep σ j := by
  obtain ⟨⟨al, st, hi⟩, hu⟩ := reach_one h
  exact wait_ends hi hu 10 i hb fun l _ => Nat.le_add_left 10 l

/-- Waiting happens: a user waits for the computation while another waits for the mutex that the
first one holds. -/
example : ∃ σ, Reach anyUsers σ ∧ Waits σ (.user 0) (.comp 0) ∧ Waits σ (.user 1) (.user 0) := by
  obtain ⟨σ, h, hp⟩ := script_any
    [.call 0 .setWaypoints, .finish (.user 0), .before .worker .launch, .one .worker false,
      .before .worker (.load .cond (.flag .stop)), .call 0 .evaluateTrajectory,
      .before (.user 0) .futWait, .call 1 .evaluateTrajectory, .before (.user 1) (.lock .future)]
    (fun σ => nextIs σ (.user 0) .futWait && decide (σ.fut = .pending 0) &&
      nextIs σ (.user 1) (.lock .future) && decide (σ.owner .future = some (.user 0)))
    (by decide +kernel)
  simp only [Bool.and_eq_true, decide_eq_true_eq] at hp
  obtain ⟨⟨⟨h1, h2⟩, h3⟩, h4⟩ := hp
  exact ⟨σ, h, .inr (.inl ⟨0, .inl (nextIs_next h1), h2, rfl⟩),
    .inl ⟨.future, nextIs_next h3, h4⟩⟩

/-! ### C45: each computed trajectory is taken over once -/

/-- **C45.** Computations are started one after the other, finish in that order, and are taken over in
that order, each once; the next one starts only when the last one was taken over. -/
theorem C45_once_in_order {σ : State} (h : Reach anyUsers σ) :
    ∃ s f t, startedPlans σ.log = List.range s ∧ finishedPlans σ.log = List.range f ∧
      takenPlans σ.log = List.range t ∧ t ≤ f ∧ f ≤ s ∧ s ≤ t + 1 := by
  obtain ⟨al, st, hi⟩ := reach_any h
  have hs := hi.stage
  cases st with
  | off => exact ⟨_, _, _, hs.2.2.2.1.2.1, hs.2.2.2.1.2.2.1, hs.2.2.2.1.2.2.2, by omega⟩
  | prep => exact ⟨_, _, _, hs.2.2.2.2.1.2.1, hs.2.2.2.2.1.2.2.1, hs.2.2.2.2.1.2.2.2, by omega⟩
  | pending n => exact ⟨_, _, _, hs.2.2.2.2.1.2.1, hs.2.2.2.2.1.2.2.1, hs.2.2.2.2.1.2.2.2, by omega⟩
  | ready n => exact ⟨_, _, _, hs.2.2.2.1.2.1, hs.2.2.2.1.2.2.1, hs.2.2.2.1.2.2.2, by omega⟩
  | taken u n => exact ⟨_, _, _, hs.2.2.2.1.2.1, hs.2.2.2.1.2.2.1, hs.2.2.2.1.2.2.2, by omega⟩

/-- **C45.** With one evaluating thread nothing undefined happens: no `get` or `wait` on an empty
future, no missing trajectory used, no mutex unlocked by another thread. -/
theorem C45_one_consumer_partial {σ : State} (h : Reach oneConsumer σ) : σ.ub = false ∧
    ∀ i, (Next σ i .futGet ∨ Next σ i .futWait → σ.fut ≠ .empty) := by
  refine ⟨(reach_one h).2, fun i hn e => ?_⟩
  have hu := (reach_one h).2
  have bad : step σ i (.go true) = some { σ with ub := true } := by
    rcases hn with ⟨k, hk⟩ | ⟨k, hk⟩ <;>
      simp [step, hu, hk, stepProg, stepAct, e]
  have := (reach_one (.step (ch := .go true) h trivial bad)).2
  cases this

/-- **C45 refuted** for two evaluating threads: both see the trajectory ready, and the second one
calls `get` on a future that is already empty. -/
theorem C45_refuted : ∃ σ, Reach anyUsers σ ∧ Next σ (.user 0) .futGet ∧ σ.fut = .empty ∧
    takenPlans σ.log = [0] := by
  obtain ⟨σ, h, hp⟩ := script_any
    (firstPlan ++ [.call 0 .evaluateTrajectory, .before (.user 0) (.load .ready .futReady),
      .one (.user 0) false, .one (.user 0) false, .call 1 .evaluateTrajectory,
      .before (.user 1) .futGet, .one (.user 1) false, .one (.user 1) false,
      .before (.user 0) .futGet])
    (fun σ => nextIs σ (.user 0) .futGet && decide (σ.fut = .empty) &&
      decide (takenPlans σ.log = [0])) (by decide +kernel)
  simp only [Bool.and_eq_true, decide_eq_true_eq] at hp
  exact ⟨σ, h, nextIs_next hp.1.1, hp.1.2, hp.2⟩

/-- Two plans taken over, with one evaluating thread. -/
example : ∃ σ, Reach oneConsumer σ ∧ takenPlans σ.log = [0, 1] ∧ σ.traj = some 1 := by
  obtain ⟨σ, h, hp⟩ := script_one
    (firstUse ++ [.call 1 .setWaypoints, .finish (.user 1), .before .worker .launch,
      .one .worker false, .before .worker (.load .cond (.flag .stop)), .finish (.comp 1),
      .call 0 .evaluateTrajectory, .finish (.user 0)])
    (fun σ => decide (takenPlans σ.log = [0, 1]) && decide (σ.traj = some 1)) (by decide)
    (by decide +kernel)
  simp only [Bool.and_eq_true, decide_eq_true_eq] at hp
  exact ⟨σ, h, hp.1, hp.2⟩

/-! ### C61: no missing trajectory is used -/

/-- **C61.** With one evaluating thread, whoever is about to use the trajectory finds one. -/
theorem C61_never_missing {σ : State} (h : Reach oneConsumer σ) {i : Tid} (hn : Next σ i .deref) :
    σ.traj ≠ none := by
  intro e
  obtain ⟨k, hk⟩ := hn
  have hu := (reach_one h).2
  have bad : step σ i (.go true) = some { σ with ub := true } := by
    simp [step, hu, hk, stepProg, stepAct, e]
  have := (reach_one (.step (ch := .go true) h trivial bad)).2
  cases this

/-- With two evaluating threads it does happen: one thread waits for the result, the other one takes
it, and before it is put in place the first one uses the missing trajectory. -/
theorem C61_two_consumers_refuted : ∃ σ, Reach anyUsers σ ∧ Next σ (.user 0) .deref ∧
    σ.traj = none := by
  obtain ⟨σ, h, hp⟩ := script_any
    (firstPlan ++ [.call 0 .evaluateTrajectory, .before (.user 0) .futWait, .one (.user 0) false,
      .before (.user 0) (.lock .future), .call 1 .evaluateTrajectory, .before (.user 1) .futGet,
      .one (.user 1) false, .before (.user 1) (.lock .vehicle), .before (.user 0) .deref])
    (fun σ => nextIs σ (.user 0) .deref && decide (σ.traj = none)) (by decide +kernel)
  simp only [Bool.and_eq_true, decide_eq_true_eq] at hp
  exact ⟨σ, h, nextIs_next hp.1, hp.2⟩

/-- The trajectory is used. -/
example : ∃ σ, Reach oneConsumer σ ∧ Next σ (.user 0) .deref := by
  obtain ⟨σ, h, hp⟩ := script_one
    (firstPlan ++ [.call 0 .evaluateTrajectory, .before (.user 0) .deref])
    (fun σ => nextIs σ (.user 0) .deref) (by decide) (by decide +kernel)
  exact ⟨σ, h, nextIs_next hp⟩

/-! ### C41: the speed -/

/-- **C41.** Every `getSpeed` returns the speed set last, whatever else the threads do. -/
theorem C41_speed_interleaved {σ : State} (h : Reach anyUsers σ) : SpeedsRight σ.log := by
  obtain ⟨al, st, hi⟩ := reach_any h
  exact hi.speeds.2.1

/-- A speed set while a plan is prepared and read after it is taken over. -/
example : ∃ σ, Reach oneConsumer σ ∧ .speedRead 7 ∈ σ.log ∧ takenPlans σ.log = [0] := by
  obtain ⟨σ, h, hp⟩ := script_one
    ([.call 0 .setWaypoints, .finish (.user 0), .before .worker .launch, .call 1 (.setSpeed 7),
      .finish (.user 1), .one .worker false, .before .worker (.load .cond (.flag .stop)),
      .finish (.comp 0), .call 0 .evaluateTrajectory, .finish (.user 0), .call 1 .getSpeed,
      .finish (.user 1)])
    (fun σ => decide (Event.speedRead 7 ∈ σ.log) && decide (takenPlans σ.log = [0])) (by decide)
    (by decide +kernel)
  simp only [Bool.and_eq_true, decide_eq_true_eq] at hp
  exact ⟨σ, h, hp.1, hp.2⟩

/-! ### C60: the regenerated flag -/

/-- **C60 refuted** for interleavings: a plan is taken over between the read and the reset of the
flag, the call reports no change, and the flag is down. -/
theorem C60_interleaved_refuted : ∃ σ l, Reach oneConsumer σ ∧
    σ.log = .reported false :: .changed :: .takenOver 0 :: l ∧ σ.flag .regenerated = false := by
  obtain ⟨σ, h, hp⟩ := script_one
    (firstPlan ++ [.call 1 .getWasTrajectoryRegenerated,
      .before (.user 1) (.setFlag .regenerated false), .call 0 .evaluateTrajectory,
      .finish (.user 0), .finish (.user 1)])
    (fun σ => decide (σ.log.take 3 = [.reported false, .changed, .takenOver 0]) &&
      !σ.flag .regenerated) (by decide) (by decide +kernel)
  simp only [Bool.and_eq_true, decide_eq_true_eq, Bool.not_eq_true'] at hp
  refine ⟨σ, σ.log.drop 3, h, ?_, hp.2⟩
  have := List.take_append_drop 3 σ.log
  rw [hp.1] at this
  exact this.symm

/-- C60 for interleavings, as far as it holds: if calls of `getWasTrajectoryRegenerated` overlap neither each other nor a step that changes the plan, every report says exactly
whether there was a change since the report before it, whatever else the other threads do before, between and during the calls. (Missing: a change during such a call, which
`C60_interleaved_refuted` shows can be lost.) -/
theorem C60_interleaved_partial {σ : State} (h : ReachApart σ) : ReportsRight σ.log := by
  obtain ⟨_, inv, _⟩ := reachApart_rinv h
  exact inv.right

/-- A first plan is taken into use by user 0; user 1 asks and, in the middle of the call, user 0 asks for the speed; then user 1 asks again: the reports are true and false. -/
example : ∃ σ, ReachApart σ ∧ (σ.log.filterMap fun | .reported b => some b | _ => none) = [false, true] ∧ Event.changed ∈ σ.log := by
  obtain ⟨σ, h, hp⟩ := apart_script
    ([(.user 0, .call .setWaypoints)] ++ List.replicate 13 (.user 0, .go false) ++ List.replicate 99 (.worker, .go false) ++ List.replicate 19 (.comp 0, .go false) ++
      [(.user 0, .call .evaluateTrajectory)] ++ List.replicate 167 (.user 0, .go false) ++
      [(.user 1, .call .getWasTrajectoryRegenerated), (.user 1, .go false), (.user 1, .go false), (.user 0, .call .getSpeed)] ++ List.replicate 5 (.user 0, .go false) ++
      List.replicate 3 (.user 1, .go false) ++ [(.user 1, .call .getWasTrajectoryRegenerated)] ++ List.replicate 5 (.user 1, .go false))
    (fun σ => decide ((σ.log.filterMap fun | .reported b => some b | _ => none) = [false, true]) && decide (Event.changed ∈ σ.log)) (by decide +kernel)
  simp only [Bool.and_eq_true, decide_eq_true_eq] at hp
  exact ⟨σ, h, hp⟩

/-! ### C63: batches of modifications -/

/-- **C63 refuted.** A single call `modifyWaypoints` for the names 1 and 2 is taken by the worker in
two parts: first 1 alone, then 2. -/
theorem C63_refuted : ∃ sched τ, (∀ x ∈ sched, ∃ c, x.2 = Choice.go c) ∧
    exec .init ((.user 0, .call (.modifyWaypoints [1, 2])) :: sched) = some τ ∧
    τ.log = [.batch [2], .pushed 2, .batch [1], .pushed 1] := by
  let sched : List (Tid × Choice) := List.replicate 10 (.user 0, .go false) ++
    List.replicate 28 (.worker, .go false) ++ List.replicate 7 (.user 0, .go false) ++
    List.replicate 38 (.worker, .go false)
  have h : (exec .init ((.user 0, .call (.modifyWaypoints [1, 2])) :: sched)).any
      (fun τ => decide (τ.log = [.batch [2], .pushed 2, .batch [1], .pushed 1])) = true := by
    decide +kernel
  rw [Option.any_eq_true] at h
  obtain ⟨τ, h1, h2⟩ := h
  refine ⟨sched, τ, ?_, h1, of_decide_eq_true h2⟩
  intro x hx
  simp only [sched, List.mem_append, List.mem_replicate] at hx
  rcases hx with ((hx | hx) | hx) | hx <;> exact ⟨false, by rw [hx.2]⟩

/-- **C63, what holds.** The worker always takes all requests that are pending and no other: the
names requested since it last took some and since `setWaypoints` dropped them, each once.  Missing
for C63: that the names of one call are taken together. -/
theorem C63_batches_partial {σ : State} (h : Reach anyUsers σ) :
    BatchesRight σ.log ∧ σ.mods = pendingMods σ.log :=
  ⟨(mods_reach h).2, (mods_reach h).1⟩

/-- Two requests taken together. -/
example : ∃ σ, Reach oneConsumer σ ∧ .batch [1, 2] ∈ σ.log := by
  obtain ⟨σ, h, hp⟩ := script_one
    [.call 0 (.modifyWaypoints [1, 2]), .before (.user 0) (.setFlag .generate true),
      .before .worker .takeMods, .one .worker false]
    (fun σ => decide (Event.batch [1, 2] ∈ σ.log)) (by decide) (by decide +kernel)
  exact ⟨σ, h, of_decide_eq_true hp⟩

/-! ### C87: data races -/

/-- **C87, what holds.** Every data race involves one of five unprotected reads: of the number of
requested modifications (`modifiedSize`), of the last evaluation time (`lastTime`), and of the
trajectory pointer by the worker (`zoneNull`) or an evaluating thread (`userNull`), or of the time
offset by an evaluating thread (`userOffset`); on everything else all threads exclude each other.
Missing for C87: these five. -/
theorem C87_races_partial {σ : State} (h : Reach anyUsers σ) {v : Var} {s s' : Site}
    (hr : RaceAt σ v s s') :
    (v = .modList ∧ (s = .modifiedSize ∨ s' = .modifiedSize)) ∨
    (v = .pLast ∧ (s = .lastTime ∨ s' = .lastTime)) ∨
    (v = .trajPtr ∧ (s = .zoneNull ∨ s' = .zoneNull)) ∨
    (v = .trajPtr ∧ (s = .userNull ∨ s' = .userNull)) ∨
    (v = .pOffset ∧ (s = .userOffset ∨ s' = .userOffset)) := by
  obtain ⟨al, st, hi⟩ := reach_any h
  rcases race_cases hi hr with e | e | e | e | e
  · exact .inl e
  · exact .inr (.inl e)
  · exact .inr (.inr (.inl e))
  · exact .inr (.inr (.inr (.inl e.2)))
  · exact .inr (.inr (.inr (.inr e.2)))

/-- **C87, what holds.** With one evaluating thread, only the three of the worker remain. -/
theorem C87_races_one_consumer_partial {σ : State} (h : Reach oneConsumer σ) {v : Var} {s s' : Site}
    (hr : RaceAt σ v s s') :
    (v = .modList ∧ (s = .modifiedSize ∨ s' = .modifiedSize)) ∨
    (v = .pLast ∧ (s = .lastTime ∨ s' = .lastTime)) ∨
    (v = .trajPtr ∧ (s = .zoneNull ∨ s' = .zoneNull)) := by
  obtain ⟨⟨al, st, hi⟩, _⟩ := reach_one h
  rcases race_cases hi hr with e | e | e | e | e
  · exact .inl e
  · exact .inr (.inl e)
  · exact .inr (.inr e)
  · cases e.1
  · cases e.1

/-- **C87 refuted.** The worker looks at the number of requested modifications without the mutex,
while a user adds one. -/
theorem C87_refuted_modifications : ∃ σ, Reach oneConsumer σ ∧
    RaceAt σ .modList .plain .modifiedSize := by
  obtain ⟨σ, h, hp⟩ := script_one
    [.call 1 (.modifyWaypoint 7 false), .before (.user 1) (.pushMod 7),
      .before .worker (.load .cond (.modsPending .modifiedSize))]
    (fun σ => nextIs σ (.user 1) (.pushMod 7) &&
      nextIs σ .worker (.load .cond (.modsPending .modifiedSize))) (by decide) (by decide +kernel)
  simp only [Bool.and_eq_true] at hp
  exact ⟨σ, h, .user 1, .worker, _, _, true, false, by decide, nextIs_next hp.1, nextIs_next hp.2,
    rfl, rfl, .inl rfl⟩

/-- **C87 refuted.** The worker stitches with the last evaluation time read without the mutex, while
a user evaluates. -/
theorem C87_refuted_last_time : ∃ σ, Reach oneConsumer σ ∧ RaceAt σ .pLast .plain .lastTime := by
  obtain ⟨σ, h, hp⟩ := script_one
    (firstUse ++ [.call 1 .setWaypoints, .finish (.user 1), .before .worker (.load .stitch .any),
      .one .worker true, .before .worker (.read .lastTime .pLast), .call 0 .evaluateTrajectory,
      .before (.user 0) (.load .cond .any), .one (.user 0) true,
      .before (.user 0) (.write .pLast)])
    (fun σ => nextIs σ (.user 0) (.write .pLast) && nextIs σ .worker (.read .lastTime .pLast))
    (by decide) (by decide +kernel)
  simp only [Bool.and_eq_true] at hp
  exact ⟨σ, h, .user 0, .worker, _, _, true, false, by decide, nextIs_next hp.1, nextIs_next hp.2,
    rfl, rfl, .inl rfl⟩

/-- **C87 refuted.** The worker tests the trajectory pointer without a mutex, while a user puts the
new trajectory in place. -/
theorem C87_refuted_trajectory : ∃ σ, Reach oneConsumer σ ∧ RaceAt σ .trajPtr .plain .zoneNull := by
  obtain ⟨σ, h, hp⟩ := script_one
    (firstPlan ++ [.call 1 .setWaypoints, .finish (.user 1),
      .before .worker (.load .cond (.trajNull .zoneNull)), .call 0 .evaluateTrajectory,
      .before (.user 0) .setTraj])
    (fun σ => nextIs σ (.user 0) .setTraj && nextIs σ .worker (.load .cond (.trajNull .zoneNull)))
    (by decide) (by decide +kernel)
  simp only [Bool.and_eq_true] at hp
  exact ⟨σ, h, .user 0, .worker, _, _, true, false, by decide, nextIs_next hp.1, nextIs_next hp.2,
    rfl, rfl, .inl rfl⟩

/-- **C87 refuted.** With two evaluating threads: one tests the trajectory pointer without a mutex,
while the other puts the new trajectory in place. -/
theorem C87_refuted_two_consumers_trajectory : ∃ σ, Reach anyUsers σ ∧
    RaceAt σ .trajPtr .plain .userNull := by
  obtain ⟨σ, h, hp⟩ := script_any
    (firstPlan ++ [.call 0 .evaluateTrajectory, .before (.user 0) .setTraj,
      .call 1 .evaluateTrajectory, .before (.user 1) (.load .cond (.trajNull .userNull))])
    (fun σ => nextIs σ (.user 0) .setTraj &&
      nextIs σ (.user 1) (.load .cond (.trajNull .userNull))) (by decide +kernel)
  simp only [Bool.and_eq_true] at hp
  exact ⟨σ, h, .user 0, .user 1, _, _, true, false, by decide, nextIs_next hp.1, nextIs_next hp.2,
    rfl, rfl, .inl rfl⟩

/-- **C87 refuted.** With two evaluating threads: one reads the time offset without the mutex, while
the other takes over a new plan. -/
theorem C87_refuted_two_consumers_offset : ∃ σ, Reach anyUsers σ ∧
    RaceAt σ .pOffset .plain .userOffset := by
  obtain ⟨σ, h, hp⟩ := script_any
    (firstUse ++ [.call 1 .setWaypoints, .finish (.user 1), .before .worker .launch,
      .one .worker false, .before .worker (.load .cond (.flag .stop)), .finish (.comp 1),
      .call 0 .evaluateTrajectory, .before (.user 0) .futGet, .one (.user 0) false,
      .one (.user 0) false, .call 1 .evaluateTrajectory,
      .before (.user 1) (.read .userOffset .pOffset), .before (.user 0) (.write .pOffset)])
    (fun σ => nextIs σ (.user 0) (.write .pOffset) &&
      nextIs σ (.user 1) (.read .userOffset .pOffset)) (by decide +kernel)
  simp only [Bool.and_eq_true] at hp
  exact ⟨σ, h, .user 0, .user 1, _, _, true, false, by decide, nextIs_next hp.1, nextIs_next hp.2,
    rfl, rfl, .inl rfl⟩

end Verif.Conc
