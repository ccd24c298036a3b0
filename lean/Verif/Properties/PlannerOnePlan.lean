import Verif.Lemmas.PlannerOnePlan
import Verif.Lemmas.PlannerThreadsSample

/-!
# Property C137: no plan without a request

Nothing plans or replaces the trajectory by itself: in every interleaving of all threads there are at most as many new trajectories as requests for a plan.
-/

set_option linter.unusedSectionVars false

namespace Verif.Properties
open Verif Verif.Spec Verif.Lemmas

section
variable {K : Type*} [Field K] [LinearOrder K] [IsStrictOrderedRing K] [FloorSemiring K]

/-- C137: whatever the threads do, the trajectory has changed at most as often as the worker has taken requests for a plan, and it has taken requests at
most as often as a plan was asked for. -/
theorem C137_counts (env : Env K) (asked taken changed : ℕ) (s : Whole K) (h : Counted env asked taken changed s) : changed ≤ taken ∧ taken ≤ asked :=
  ⟨(counted_owed h).1, (counted_spent h).elim le_of_lt fun h => h.1.le⟩

/-- C137: once the worker has taken the requests for a plan it takes none again before a further one is made. -/
theorem C137_after_taking (env : Env K) (l l' : Label K) (s0 s1 s s' : Whole K) (ss : List (Whole K)) (_h0 : ThreadStep env l s0 s1)
    (ht : TakesRequests s0 l s1) (h : Stretch env (fun _ l _ => ¬ AsksForPlan l) s1 ss s) (_hs : ThreadStep env l' s s') : ¬ TakesRequests s l' s' := by
  intro hn
  have h1 : Spent s1 := by unfold Spent; rw [ht.2.2]; trivial
  have := spent_stretch h h1
  unfold Spent at this
  rw [hn.2.1] at this
  exact this

/-- C137: the same once a plan is under way; requests made before that moment do not lead to another plan by themselves. -/
theorem C137_after_planning (env : Env K) (l l' : Label K) (s0 s1 s s' : Whole K) (ss : List (Whole K)) (h0 : ThreadStep env l s0 s1)
    (hf : FinishesPlanning s0 l s1) (h : Stretch env (fun _ l _ => ¬ AsksForPlan l) s1 ss s) (_hs : ThreadStep env l' s s') : ¬ TakesRequests s l' s' := by
  intro hn
  obtain ⟨rfl, f1, f2, f3⟩ := hf
  have h1 : Spent s1 := by
    cases h0 with
    | worker h0 =>
      unfold Spent
      rw [f3]
      rcases work_moves h0 with ⟨a, _⟩ | ⟨a, _⟩ | ⟨a, _⟩ | ⟨a, b⟩ | ⟨a, _⟩ | ⟨a, b⟩
      · exact absurd a f1
      · exact absurd a f1
      · exact absurd a f1
      · rcases b with b | b <;> rw [f3] at b <;> cases b
      · exact absurd a f2
      · rcases b with b | b | b | b | b
        · rw [f3] at b; cases b
        · rw [f3] at b; cases b
        · rw [f3] at b; cases b
        · rw [f3] at b; cases b
        · exact ⟨b.2.2, .inl b.2.1⟩
  have := spent_stretch h h1
  unfold Spent at this
  rw [hn.2.1] at this
  exact this

end

/-! ## A concrete interleaving: two requests, two trajectories -/

section
/-- Whether a move asks for a plan. -/
def asks? : Move → Bool
  | .user (.setWaypoints _) => true
  | .user (.appendWaypoint _) => true
  | .user (.modifyWaypoint _ _ g) => g
  | .request => true
  | _ => false

theorem asks?_iff (m : Move) (h : NotCall m) : AsksForPlan m.label ↔ asks? m = true := by
  cases m with
  | call k => exact h.elim
  | user e => cases e <;> simp [Move.label, AsksForPlan, asks?]
  | _ => simp [Move.label, AsksForPlan, asks?]

def isWork : Move → Bool
  | .work => true
  | _ => false

/-- The counters after a move. -/
def tally (x : Whole ℚ × ℕ × ℕ × ℕ) (m : Move) (s' : Whole ℚ) : ℕ × ℕ × ℕ :=
  ((if asks? m = true then x.2.1 + 1 else x.2.1),
    (if (isWork m && decide (x.1.p.pc = .collect ∧ s'.p.pc = .collected)) = true then x.2.2.1 + 1 else x.2.2.1),
    (if decide (s'.p.traj ≠ x.1.p.traj) = true then x.2.2.2 + 1 else x.2.2.2))

/-- Execute, counting. -/
def countAll (x : Whole ℚ × ℕ × ℕ × ℕ) : List Move → Option (Whole ℚ × ℕ × ℕ × ℕ)
  | [] => some x
  | m :: ms => match move x.1 m with
    | none => none
    | some s' => countAll (s', tally x m s') ms

theorem countAll_counted (ms : List Move) (hm : ∀ m ∈ ms, MoveOk m) (x y : Whole ℚ × ℕ × ℕ × ℕ) (h : countAll x ms = some y)
    (hx : Counted hermiteEnv x.2.1 x.2.2.1 x.2.2.2 x.1) : Counted hermiteEnv y.2.1 y.2.2.1 y.2.2.2 y.1 := by
  induction ms generalizing x with
  | nil => rw [← Option.some.inj h]; exact hx
  | cons m ms ih =>
    have tick : ∀ (P : Prop) (b : Bool) (n : ℕ), (P ↔ b = true) → Tick P n (if b = true then n + 1 else n) := by
      intro P b n hb
      cases b with
      | true => exact .inl ⟨hb.mpr rfl, rfl⟩
      | false => exact .inr ⟨fun hp => (by cases hb.mp hp), rfl⟩
    simp only [countAll] at h
    split at h
    · cases h
    · rename_i s' hs
      have hrest := fun m' hm' => hm m' (List.mem_cons_of_mem _ hm')
      by_cases hc : NotCall m
      · have hst := move_step _ _ m hc (hm m List.mem_cons_self) hs
        refine ih hrest _ h ?_
        refine .step hx hst (tick _ _ _ (asks?_iff m hc)) (tick _ _ _ ?_) (tick _ _ _ (by simp))
        unfold TakesRequests
        cases m <;> simp [Move.label, isWork]
      · cases m with
        | call k =>
          simp only [move] at hs
          split at hs
          · rename_i hf
            rw [← Option.some.inj hs] at h
            refine ih hrest _ h ?_
            simp only [tally, asks?, isWork, Bool.false_and, Bool.false_eq_true, if_false, ne_eq, not_true_eq_false, decide_false]
            exact .call k hx hf
          · cases hs
        | _ => exact absurd trivial hc

/-- A route is planned and flown; another waypoint is appended, planned and flown. -/
def flownTwice : List Move :=
  flying2 ++ [.user (.appendWaypoint (wp "c" 3 3 3))] ++ times 45 .work ++
    [.task .asyncStart, .task (.asyncFinish (1 / 100)), .call (.evaluate (1 / 10) false false)] ++ times 26 .own

theorem flownTwice_ok : ∀ m ∈ flownTwice, MoveOk m := by
  unfold flownTwice
  refine append_ok (append_ok (append_ok (append_ok flying2_ok ?_) (times_ok _ _ trivial)) ?_) (times_ok _ _ trivial)
  · simp [MoveOk, ByUsers, ValidEvent, wp_bookkept]
  · simp [MoveOk, ByTask, ValidEvent]

/-- Two requests, two collections, two changes: the bounds of C137 are attained. -/
example : ∃ s : Whole ℚ, Counted hermiteEnv 2 2 2 s ∧ s.p.dyn.map (·.name) = ["stitching_point", "stitching_point", "", "a", "b", "c"] := by
  have h : (countAll (start.s, 0, 0, 0) flownTwice).map (fun y => (y.2, y.1.p.dyn.map (·.name))) =
      some ((2, 2, 2), ["stitching_point", "stitching_point", "", "a", "b", "c"]) := by decide +kernel
  obtain ⟨y, hy, hq⟩ := Option.map_eq_some_iff.mp h
  have hc := countAll_counted _ flownTwice_ok _ y hy (.init ⟨0, 0, 0⟩)
  obtain ⟨q1, q2⟩ := Prod.mk.inj hq
  rw [q1] at hc
  exact ⟨y.1, hc, q2⟩

/-- Moves none of which asks for a plan. -/
theorem moveAll_quiet (s0 : Whole ℚ) (ms : List Move) (t t' : Trace) (hm : ∀ m ∈ ms, MoveOk m ∧ asks? m = false) (h : moveAll t ms = some t')
    (hs : Stretch hermiteEnv (fun _ l _ => ¬ AsksForPlan l) s0 t.ss t.s) : Stretch hermiteEnv (fun _ l _ => ¬ AsksForPlan l) s0 t'.ss t'.s := by
  induction ms generalizing t with
  | nil => rw [← Option.some.inj h]; exact hs
  | cons m ms ih =>
    simp only [moveAll] at h
    split at h
    · cases h
    · rename_i s' hm'
      refine ih _ (fun b hb => hm b (List.mem_cons_of_mem _ hb)) h ?_
      obtain ⟨m1, m2⟩ := hm m List.mem_cons_self
      by_cases hc : NotCall m
      · exact .step hs (move_step _ _ m hc m1 hm') fun ha => by rw [asks?_iff m hc, m2] at ha; cases ha
      · cases m with
        | call k =>
          simp only [move] at hm'
          split at hm'
          · rename_i hf
            rw [← Option.some.inj hm']
            exact .call k hs hf
          · cases hm'
        | _ => exact absurd trivial hc

/-- A step of the worker, then a stretch without requests. -/
def quietAfter (as bs : List Move) : Option (Trace × Whole ℚ × Trace) :=
  match moveAll start as with
  | none => none
  | some t => match move t.s .work with
    | none => none
    | some s1 => match moveAll ⟨[s1], s1, t.g⟩ bs with
      | none => none
      | some t' => some (t, s1, t')

theorem quietAfter_map {α : Type*} (as bs : List Move) (hb : ∀ m ∈ bs, MoveOk m ∧ asks? m = false)
    (q : Trace × Whole ℚ × Trace → α) (x : α) (h : (quietAfter as bs).map q = some x) :
    ∃ t s1 t', ThreadStep hermiteEnv .worker t.s s1 ∧ Stretch hermiteEnv (fun _ l _ => ¬ AsksForPlan l) s1 t'.ss t'.s ∧ q (t, s1, t') = x := by
  obtain ⟨⟨t, s1, t'⟩, ht, hx⟩ := Option.map_eq_some_iff.mp h
  unfold quietAfter at ht
  split at ht
  · cases ht
  · split at ht
    · cases ht
    · rename_i h2
      split at ht
      · cases ht
      · rename_i h3
        obtain ⟨rfl, e⟩ := Prod.mk.inj (Option.some.inj ht)
        obtain ⟨rfl, rfl⟩ := Prod.mk.inj e
        exact ⟨_, _, _, move_step _ _ .work trivial trivial h2, moveAll_quiet _ bs _ _ hb h3 .start, hx⟩

/-- Up to the worker's taking the requests; a second request is made meanwhile. -/
def untilTaken : List Move :=
  [.user (.setSpeed 2), .user (.updateVehiclePosition ⟨0, 0, 0⟩), .user (.setWaypoints [wp "a" 1 0 0, wp "b" 2 1 0]), .request] ++ times 4 .work

/-- From there to the end of the planning and far beyond. -/
def quietRest : List Move :=
  times 15 .work ++ [.task .asyncStart, .task (.asyncFinish (1 / 100)), .call (.evaluate 0 false false)] ++ times 26 .own ++ times 20 .work

theorem quietRest_ok : ∀ m ∈ quietRest, MoveOk m ∧ asks? m = false := by
  intro m hm
  simp only [quietRest, times, List.mem_append, List.mem_replicate, List.mem_cons, List.not_mem_nil, or_false] at hm
  rcases hm with ((⟨_, rfl⟩ | rfl | rfl | rfl) | ⟨_, rfl⟩) | ⟨_, rfl⟩ <;> simp [MoveOk, asks?, ByTask, ValidEvent]

/-- The hypotheses of `C137_after_taking` are met, and the worker goes round many times more. -/
example : ∃ (s0 s1 s : Whole ℚ) (ss : List (Whole ℚ)), ThreadStep hermiteEnv .worker s0 s1 ∧ TakesRequests s0 .worker s1 ∧
    Stretch hermiteEnv (fun _ l _ => ¬ AsksForPlan l) s1 ss s ∧ ss.length = 65 ∧ s.p.traj ≠ none := by
  have h : (quietAfter untilTaken quietRest).map (fun x => (x.1.s.p.pc, x.2.1.p.pc, x.2.2.ss.length, x.2.2.s.p.traj.isSome)) =
      some (.collect, .collected, 65, true) := by decide +kernel
  obtain ⟨t, s1, t', h1, h2, h3⟩ := quietAfter_map _ _ quietRest_ok _ _ h
  obtain ⟨a, h3⟩ := Prod.mk.inj h3
  obtain ⟨b, h3⟩ := Prod.mk.inj h3
  obtain ⟨c, d⟩ := Prod.mk.inj h3
  refine ⟨t.s, s1, t'.s, t'.ss, h1, ⟨rfl, a, b⟩, h2, c, ?_⟩
  intro hn
  rw [hn] at d
  cases d

/-- The hypotheses of `C137_after_planning` are met. -/
example : ∃ (s0 s1 s : Whole ℚ) (ss : List (Whole ℚ)), ThreadStep hermiteEnv .worker s0 s1 ∧ FinishesPlanning s0 .worker s1 ∧
    Stretch hermiteEnv (fun _ l _ => ¬ AsksForPlan l) s1 ss s ∧ ss.length = 65 := by
  have h : (quietAfter (untilTaken ++ times 7 .work) quietRest).map (fun x => (x.1.s.p.pc, x.2.1.p.pc, x.2.2.ss.length)) =
      some (.launched, .top, 65) := by decide +kernel
  obtain ⟨t, s1, t', h1, h2, h3⟩ := quietAfter_map _ _ quietRest_ok _ _ h
  obtain ⟨a, h3⟩ := Prod.mk.inj h3
  obtain ⟨b, c⟩ := Prod.mk.inj h3
  exact ⟨t.s, s1, t'.s, t'.ss, h1, ⟨rfl, by rw [a]; decide, by rw [a]; decide, b⟩, h2, c⟩

end

end Verif.Properties
