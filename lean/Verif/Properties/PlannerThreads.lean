import Verif.Lemmas.PlannerThreadsFail
import Verif.Lemmas.PlannerThreadsSample
import Verif.Properties.PlannerFine
import Verif.Properties.PlannerRequests
import Verif.Properties.PlannerStitch

/-!
# C112 to C116: all threads, step by step

The worker's loop is cut into its accesses to shared members (`Model/PlannerThreads.lean`); between any two of them the evaluating
thread, other user threads and the computation may make steps (`Spec/PlannerThreads.lean`).
-/

namespace Verif.Properties
open Verif Verif.Spec Verif.Lemmas

section
variable {K : Type*} [Field K] [LinearOrder K] [IsStrictOrderedRing K] [FloorSemiring K]

/-! ## C108 to C111 when the worker, too, proceeds step by step -/

/-- C108 in every interleaving of all threads: a returned derivative is the reference of that order in a state the planner was in during the
call, with the plan, start time and time compensation in force when the call returns. -/
theorem C108_threads_partial (env : Env K) (henv : Segmentwise env) (t : K) (onlyPositions forPlotting : Bool) (ss : List (Whole K)) (s : Whole K)
    (r : References K) (h : Calling env (.evaluate t onlyPositions forPlotting) ss s) (hr : s.c = .evaluated r) :
    (∀ (k : ℕ) (v : V3 K), refOrder r k = some v → ∃ m ∈ ss, ¬ TakingOver m.c ∧
      m.p.traj = s.p.traj ∧ m.p.params.gtlg = s.p.params.gtlg ∧ m.p.params.tOffset = s.p.params.tOffset ∧
      ∃ tr, s.p.traj = some tr ∧ IsReference env tr m.p.dyn (t - s.p.params.gtlg + s.p.params.tOffset) (t + s.p.params.tOffset) k v) ∧
    (∀ k ≤ 2, (refOrder r k).isSome ↔ (k = 0 ∨ onlyPositions = false)) := by
  obtain ⟨h1, h2⟩ := C108_partial env henv t onlyPositions forPlotting _ _ r (calling_during h).2 hr
  refine ⟨fun k v hv => ?_, h2⟩
  obtain ⟨f, hf, hh⟩ := h1 k v hv
  obtain ⟨m, hm, rfl⟩ := List.mem_map.mp hf
  exact ⟨m, hm, hh⟩

/-- C109 in every interleaving of all threads: while no new plan is being made, or the evaluating thread is not in the middle of taking one
over, trajectory, start time and waypoints belong together, also while the worker is in the middle of moving waypoints. -/
theorem C109_threads_partial (env : Env K) (henv : Segmentwise env) (s : Whole K) (h : Threads env s) (hc : s.p.computing = false ∨ ¬ TakingOver s.c)
    (tr : Trajectory K) (htr : s.p.traj = some tr) :
    Usable tr ∧ Timed tr s.p.params.gtlg s.p.dyn ∧ ∀ w ∈ s.p.dyn, Bookkept w :=
  C109_partial env henv ⟨s.p, s.c⟩ (threads_inv h).1 hc tr htr

/-- C111 in every interleaving of all threads: an evaluating call waits only for the very first plan. -/
theorem C111_threads_waits (env : Env K) (s : Whole K) (h : Threads env s) (hc : s.c.isFree = false) (hw : Fine.consume env ⟨s.p, s.c⟩ = .ok none) :
    s.p.traj = none ∧ s.p.future.isReady = false :=
  C111_waits env ⟨s.p, s.c⟩ (threads_inv h).1 hc hw

/-! ## C112 -/

/-- C112: complete list of the ways in which a step of any thread can fail, in any interleaving: the worker and an evaluating call meet a
compensation of width zero at its centre (0/0, a value that is not finite), an evaluating call rethrows the exception of a failed
computation, and the optimizer fails otherwise than by an exception. Nothing undefined happens; and the worker never waits for anything
but a mutex. -/
theorem C112_defined (env : Env K) (henv : Segmentwise env) (s : Whole K) (h : Threads env s) :
    (∀ e, s.work env = .error e → e = .nonfinite ∧ ¬ NoZeroWidth s.p.dyn) ∧
    (∀ e, Fine.consume env ⟨s.p, s.c⟩ = .error e → e = .nonfinite ∨ (e = .exc ∧ s.p.future = .failed)) ∧
    (∀ e x, ByUsers e → s.p.step env e ≠ .error x) ∧
    (∀ e x, ByTask e → s.p.step env e = .error x → x ≠ .exc ∧ ∃ dt speed vs, e = .asyncFinish dt ∧ s.p.future = .running speed ∧
      extractVertices s.p.next = .ok vs ∧ env.optimize vs speed = .error x) := by
  have hi := interleaved_inv (threads_inv h).1
  refine ⟨fun e he => ?_, fun e he => own_fail henv he hi.1 hi.2, ?_, ?_⟩
  · obtain ⟨h1, _, h3⟩ := work_fail henv h he
    exact ⟨h1, h3⟩
  · intro e x hu hx
    cases e <;> first | exact hu.elim | cases hx
  · intro e x ht hx
    cases e with
    | asyncStart => cases hx
    | asyncFinish dt =>
      simp only [Planner.step, Planner.asyncFinish] at hx
      cases hf : s.p.future with
      | running sp =>
        have hn : ¬ TakingOver s.c := fun htk => by
          have hh : Held s.p := by
            obtain ⟨p, c, w⟩ := s
            cases c <;> first | exact htk.elim | exact hi.2.1 | exact hi.2
          rw [hh.1] at hf; cases hf
        have hs : Serialised env s.p := by have hk := hi.1; rw [settled_eq (f := ⟨s.p, s.c⟩) hn] at hk; exact hk
        have hc := serialised_ctl hs
        have hw := serialised_wp hs
        rw [hf] at hx
        simp only at hx
        have hcomp : s.p.computing = true := by
          cases hcc : s.p.computing with
          | true => rfl
          | false => have := hc.idle hcc; rw [hf] at this; cases this
        cases hq : s.p.computeTrajectory env sp with
        | ok q => rw [hq] at hx; cases hx
        | error y =>
          rw [hq] at hx
          obtain ⟨vs, h1, h2, h3⟩ := computeTrajectory_fail env henv s.p hw (hc.next2 (Or.inr hcomp)) sp y hq
          cases y with
          | exc => cases hx
          | _ => cases hx; exact ⟨by simp, dt, sp, vs, rfl, rfl, h1, h3⟩
      | _ => rw [hf] at hx; cases hx
    | _ => exact ht.elim

-- The worker in the middle of attaching a plan while the evaluating thread is in the middle of an evaluation.
example : ∃ s : Whole ℚ, Threads hermiteEnv s ∧ s.p.pc = .snapshotted ∧ (∃ g t ps d b, s.w = .compensate g t ps d b) ∧ s.c.isFree = false := by
  obtain ⟨t, hp, hq⟩ := trace_map (flying2 ++ [.user (.appendWaypoint (wp "c" 3 3 3)), .call (.evaluate (1 / 10) false false)] ++
      times 6 .own ++ times 16 .work)
    (append_ok (append_ok (append_ok flying2_ok (by simp [MoveOk, ByUsers, ValidEvent, wp_bookkept])) (times_ok _ _ trivial)) (times_ok _ _ trivial))
    (fun t => (decide (t.s.p.pc = .snapshotted ∧ t.s.c.isFree = false), match t.s.w with | .compensate _ _ _ _ _ => true | _ => false)) (true, true)
    (by decide +kernel)
  obtain ⟨h1, h2⟩ := Prod.mk.inj hq
  obtain ⟨k1, k2⟩ := of_decide_eq_true h1
  refine ⟨t.s, (pending_tracks hp).1, k1, ?_, k2⟩
  split at h2
  · rename_i g t' ps d b hw; exact ⟨g, t', ps, d, b, hw⟩
  · cases h2

/-! ## C113 -/

/-- C113, the claim: when the worker begins to make a plan, the vehicle has been outside the security zone of the plan in force at some
moment since the worker began to look. -/
def C113Full (K : Type*) [Field K] [LinearOrder K] [IsStrictOrderedRing K] [FloorSemiring K] : Prop :=
  ∀ (env : Env K), Segmentwise env → ∀ (s0 s s' : Whole K) (ss : List (Whole K)) (l : Label K), Looking env s0 ss s → ThreadStep env l s s' →
    s'.p.pc = .collect → ∃ m ∈ ss, m.p.traj = s.p.traj ∧ ¬ TakingOver m.c ∧ ¬ InZone m.p

/-- C113, what holds: the worker begins to make a plan only when none is being made and it has seen a request; and it has either seen that
there was no plan, or found that no named waypoint of the plan of some moment lay in the security zone, as measured by the clock of that
moment and the computation time of a later one. -/
theorem C113_partial (env : Env K) (henv : Segmentwise env) (s0 s s' : Whole K) (ss : List (Whole K)) (l : Label K) (h : Looking env s0 ss s)
    (hs : ThreadStep env l s s') (hp : s'.p.pc = .collect) :
    l = .worker ∧ s.p.computing = false ∧ (∃ m ∈ ss, m.p.generateNew = true) ∧
    ((∃ m ∈ ss, m.p.traj = none) ∨
      ∃ before after, ss = before ++ after ∧ ∃ m ∈ before, ∃ m' ∈ after, ¬ ∃ w ∈ m.p.dyn, w.name ≠ "" ∧ m.p.params.lastGlobal < w.time ∧
        w.time ≤ m.p.params.lastGlobal + 10 * m'.p.timeConstant) := by
  obtain ⟨h0, hpc, hw, hst⟩ := h
  obtain ⟨k1, k2, _⟩ := looking henv h0 hpc hw hst
  obtain ⟨e1, e2, e3, _⟩ := look_ends hs (stretch_threads h0 hst) k1 hp
  unfold Looked at k2
  rw [e2] at k2
  exact ⟨e1, e3, k2.1, k2.2 rfl⟩

/-- C113 when no plan is taken over, and no computation ends, while the worker looks. -/
theorem C113_undisturbed (env : Env K) (henv : Segmentwise env) (s0 s s' : Whole K) (ss : List (Whole K)) (l : Label K) (h : Looking env s0 ss s)
    (hs : ThreadStep env l s s') (hp : s'.p.pc = .collect)
    (hu : ∀ m ∈ ss, m.p.traj = s.p.traj ∧ ¬ TakingOver m.c ∧ m.p.timeConstant = s.p.timeConstant) :
    ∃ m ∈ ss, m.p.traj = s.p.traj ∧ ¬ TakingOver m.c ∧ ¬ InZone m.p := by
  obtain ⟨_, _, _, h | ⟨before, after, rfl, m, hm, m', hm', hno⟩⟩ := C113_partial env henv s0 s s' ss l h hs hp
  · obtain ⟨m, hm, hn⟩ := h
    obtain ⟨h1, h2, _⟩ := hu m hm
    exact ⟨m, hm, h1, h2, fun hz => hz.1 hn⟩
  · obtain ⟨h1, h2, h3⟩ := hu m (List.mem_append_left _ hm)
    obtain ⟨_, _, h4⟩ := hu m' (List.mem_append_right _ hm')
    refine ⟨m, List.mem_append_left _ hm, h1, h2, ?_⟩
    rw [h4, ← h3] at hno
    exact fun hz => hno hz.2

/-- Decides the security zone. -/
def inZone? (p : Planner ℚ) : Bool :=
  p.traj.isSome && p.dyn.any fun w => decide (w.name ≠ "" ∧ p.params.lastGlobal < w.time ∧ w.time ≤ p.params.lastGlobal + 10 * p.timeConstant)

theorem inZone?_true {p : Planner ℚ} (h : inZone? p = true) : InZone p := by
  unfold inZone? at h
  rw [Bool.and_eq_true] at h
  obtain ⟨h1, h3⟩ := h
  obtain ⟨w, hw, h2⟩ := List.any_eq_true.mp h3
  exact ⟨fun hn => (by rw [hn] at h1; cases h1), w, hw, of_decide_eq_true h2⟩

/-- Decides `TakingOver`. -/
def takingOver? : Consumer ℚ → Bool
  | .target _ _ => true
  | .old _ _ _ _ => true
  | .fit0 _ _ _ _ => true
  | .fit _ _ _ _ _ _ _ _ => true
  | .offset _ _ _ _ _ => true
  | .fitted _ _ _ => true
  | .params _ _ => true
  | .traj _ _ => true
  | .mark _ => true
  | .swap _ => true
  | .clearComputing _ => true
  | _ => false

theorem takingOver?_iff (c : Consumer ℚ) : TakingOver c ↔ takingOver? c = true := by
  cases c <;> simp [TakingOver, takingOver?]

/-- A second plan is being computed and a further waypoint is requested. -/
def racing : List Move :=
  flying2 ++ [.user (.appendWaypoint (wp "c" 3 3 3))] ++ times 32 .work ++ [.user (.appendWaypoint (wp "d" 4 4 4))]

theorem racing_ok : ∀ m ∈ racing, MoveOk m :=
  append_ok (append_ok (append_ok flying2_ok (by simp [MoveOk, ByUsers, ValidEvent, wp_bookkept])) (times_ok _ _ trivial))
    (by simp [MoveOk, ByUsers, ValidEvent, wp_bookkept])

/-- The worker finds that the vehicle is outside the zone; then the computation ends and its plan is taken over; then the worker asks whether
a plan is being made. -/
def race : List Move :=
  times 4 .work ++ [.task .asyncStart, .task (.asyncFinish 1), .call (.evaluate 0 false false)] ++ times 47 .own

theorem race_ok : ∀ m ∈ race, MoveOk m :=
  append_ok (append_ok (times_ok _ _ trivial) (by simp [MoveOk, ByTask, ValidEvent])) (times_ok _ _ trivial)

/-- Beginning and end of the worker's look are as `C113Full` supposes, and whenever the last state's plan is in force the vehicle is in the
zone. -/
def raceCheck (x : Trace × Trace × Whole ℚ) : Bool :=
  decide (x.1.s.p.pc = .top ∧ x.1.s.w = .begin ∧ x.2.2.p.pc = .collect) &&
    x.2.1.ss.all fun m => decide (m.p.traj ≠ x.2.1.s.p.traj) || takingOver? m.c || inZone? m.p

/-- C113, the claim does not hold: the worker finds the vehicle outside the security zone of the old plan; a slow computation ends and an
evaluation takes its plan over; the zone of this plan is wider and the vehicle within it, but the worker does not look again. -/
theorem C113_refuted : ¬ C113Full ℚ := by
  intro hF
  obtain ⟨t, t', s', h1, h2, h3, h4, hq⟩ := phase_map (fun b => decide (b.p.pc = .top ∧ b.w ≠ .begin)) racing race racing_ok race_ok raceCheck true
    (by decide +kernel)
  unfold raceCheck at hq
  rw [Bool.and_eq_true] at hq
  obtain ⟨k1, k2⟩ := hq
  obtain ⟨k3, k4, k5⟩ := of_decide_eq_true k1
  obtain ⟨m, hm, e1, e2, e3⟩ := hF hermiteEnv hermite_segmentwise t.s t'.s s' t'.ss .worker
    ⟨(pending_tracks h1).1, k3, k4, stretch_weaken (fun _ _ _ h => of_decide_eq_true h) h2⟩ h4 k5
  have := List.all_eq_true.mp k2 m hm
  rw [Bool.or_eq_true, Bool.or_eq_true] at this
  rcases this with (h | h) | h
  · exact of_decide_eq_true h e1
  · exact e2 ((takingOver?_iff _).mpr h)
  · exact e3 (inZone?_true h)

-- C113_undisturbed: a waypoint is appended in flight; while the worker looks, an evaluation goes on.
example : ∃ (s0 s s' : Whole ℚ) (ss : List (Whole ℚ)), Looking hermiteEnv s0 ss s ∧ ThreadStep hermiteEnv .worker s s' ∧ s'.p.pc = .collect ∧
    s.p.traj ≠ none ∧ (∀ m ∈ ss, m.p.traj = s.p.traj ∧ ¬ TakingOver m.c ∧ m.p.timeConstant = s.p.timeConstant) ∧ ss.length = 9 := by
  obtain ⟨t, t', s', h1, h2, h3, h4, hq⟩ := phase_map (fun b => decide (b.p.pc = .top ∧ b.w ≠ .begin))
    (flying2 ++ [.user (.appendWaypoint (wp "c" 3 3 3))]) (times 2 .work ++ [.call (.evaluate (1 / 10) false false)] ++ times 3 .own ++ times 2 .work)
    (append_ok flying2_ok (by simp [MoveOk, ByUsers, ValidEvent, wp_bookkept]))
    (append_ok (append_ok (append_ok (times_ok _ _ trivial) (by simp [MoveOk])) (times_ok _ _ trivial)) (times_ok _ _ trivial))
    (fun x => decide (x.1.s.p.pc = .top ∧ x.1.s.w = .begin ∧ x.2.2.p.pc = .collect ∧ x.2.1.s.p.traj ≠ none ∧ x.2.1.ss.length = 9) &&
      x.2.1.ss.all fun m => decide (m.p.traj = x.2.1.s.p.traj ∧ m.p.timeConstant = x.2.1.s.p.timeConstant) && !takingOver? m.c) true
    (by decide +kernel)
  rw [Bool.and_eq_true] at hq
  obtain ⟨k1, k2⟩ := hq
  obtain ⟨k3, k4, k5, k6, k7⟩ := of_decide_eq_true k1
  refine ⟨t.s, t'.s, s', t'.ss, ⟨(pending_tracks h1).1, k3, k4, stretch_weaken (fun _ _ _ h => of_decide_eq_true h) h2⟩, h4, k5, k6, ?_, k7⟩
  intro m hm
  have := List.all_eq_true.mp k2 m hm
  rw [Bool.and_eq_true] at this
  obtain ⟨e1, e2⟩ := of_decide_eq_true this.1
  refine ⟨e1, fun hk => ?_, e2⟩
  rw [(takingOver?_iff _).mp hk] at this
  cases this.2

/-! ## C114 -/

/-- C114: in every interleaving of all threads, when the worker has collected the requests for a plan, the plan's waypoints are: the pending
route, or, if there is none, the waypoints of the current plan whose time had not passed at some moment of the collection; then the
appended waypoints in order; each at the position of the last pending update for its name (otherwise where it was), and with its other
constraints. Nothing stays queued, and no request that came in the meantime is lost: what is collected is what is pending at the end. -/
theorem C114_contents (env : Env K) (g : Requests K) (s0 s s' : Whole K) (ss : List (Whole K)) (l : Label K)
    (h : Within env .collect s0 ss s) (hg : Pending env g s) (hs : ThreadStep env l s s') (hpc : s'.p.pc = .collected) :
    ∃ m ∈ ss, List.Forall₂ (fun w w' => Becomes (updateFor g.updates w) w w')
        ((if g.route.isEmpty then s.p.dyn.filter (fun w => m.p.params.lastGlobal ≤ w.time) else g.route) ++ g.appended) s'.p.next ∧
      s'.p.toSet = [] ∧ s'.p.toAdd = [] ∧ s'.p.toModify = [] := by
  obtain ⟨h0, hpc0, hw0, hst⟩ := h
  have ht := stretch_threads h0 hst
  obtain ⟨h1, _, h3⟩ := collecting h0 hpc0 hw0 hst
  obtain ⟨base, all, e1, e2, e3⟩ := collect_ends hs ht h1 hpc
  obtain ⟨m, hm, hB⟩ := h3 base e1
  obtain ⟨q, hq⟩ := base_generate hB e2
  have htr := (pending_tracks hg).2
  have hwp := serialised_wp (threads_phase ht (by simp [h1])).1
  refine ⟨m, hm, ?_, by rw [e3], by rw [e3], by rw [e3]⟩
  rw [e3]
  exact generated_contents { s.p with params := { s.p.params with lastGlobal := m.p.params.lastGlobal } } q g
    ⟨htr.toSet, htr.toAdd, htr.nodup, htr.lookup⟩ ⟨hwp.dyn, hwp.next, hwp.toAdd, hwp.toSet⟩ all hq

-- An update comes before the worker locks the queues; an evaluation goes on, and the speed is set, while it collects.
example : ∃ (g : Requests ℚ) (s0 s s' : Whole ℚ) (ss : List (Whole ℚ)), Within hermiteEnv .collect s0 ss s ∧ Pending hermiteEnv g s ∧
    ThreadStep hermiteEnv .worker s s' ∧ s'.p.pc = .collected ∧ s'.p.next.map (fun w => (w.name, w.current)) =
      [("", ⟨0, 0, 0⟩), ("a", ⟨5, 5, 5⟩), ("b", ⟨2, 1, 0⟩), ("c", ⟨3, 3, 3⟩)] ∧ ss.length = 10 := by
  obtain ⟨t, t', s', h1, h2, h3, h4, hq⟩ := phase_map (fun b => decide (b.p.pc = .collect))
    (flying2 ++ [.user (.appendWaypoint (wp "c" 3 3 3))] ++ times 5 .work)
    ([.user (.modifyWaypoint "a" ⟨5, 5, 5⟩ true), .work, .call (.evaluate (1 / 10) false false)] ++ times 4 .own ++ [.user (.setSpeed 3), .work])
    (append_ok (append_ok flying2_ok (by simp [MoveOk, ByUsers, ValidEvent, wp_bookkept])) (times_ok _ _ trivial))
    (append_ok (append_ok (by simp [MoveOk, ByUsers, ValidEvent]) (times_ok _ _ trivial)) (by simp [MoveOk, ByUsers, ValidEvent]))
    (fun x => decide (x.1.s.p.pc = .collect ∧ x.1.s.w = .begin ∧ x.2.2.p.pc = .collected ∧ x.2.2.p.next.map (fun w => (w.name, w.current)) =
      [("", ⟨0, 0, 0⟩), ("a", ⟨5, 5, 5⟩), ("b", ⟨2, 1, 0⟩), ("c", ⟨3, 3, 3⟩)] ∧ x.2.1.ss.length = 10)) true (by decide +kernel)
  obtain ⟨k1, k2, k3, k4, k5⟩ := of_decide_eq_true hq
  exact ⟨t'.g, t.s, t'.s, s', t'.ss, ⟨(pending_tracks h1).1, k1, k2, stretch_weaken (fun _ _ _ h => of_decide_eq_true h) h2⟩, h3, h4, k3, k4, k5⟩

/-! ## C115 -/

/-- C115: in every interleaving of all threads. When the worker notes the parameters (from `a` to `s0`) and prepares the plan (from `s0` to
`s'`), there is a moment at which it decides: if enough of the plan in force is left, the new plan continues it at the instant of the last
evaluation before the parameters were noted; otherwise it starts at the vehicle's last known position, at rest. -/
theorem C115_start (env : Env K) (henv : Segmentwise env) (a s0 s s' : Whole K) (ss : List (Whole K)) (l0 l : Label K) (ha : Threads env a)
    (hpa : a.p.pc = .collected) (hs0 : ThreadStep env l0 a s0) (hp0 : s0.p.pc = .snapshotted)
    (hst : Stretch env (fun _ _ b => b.p.pc = .snapshotted) s0 ss s) (hs : ThreadStep env l s s') (hpc : s'.p.pc = .planned) :
    ∃ m ∈ ss, (EnoughLeft m.p ∧ Continues env s.p (a.p.params.lastLocal + s.p.params.tOffset) a.p.next s'.p.next) ∨
      (¬ EnoughLeft m.p ∧ StartsAt s.p.vehicle a.p.next s'.p.next) := by
  obtain ⟨hnew, hnext, hw0, ht0⟩ : s0.p.newParams.lastLocal = a.p.params.lastLocal ∧ s0.p.next = a.p.next ∧ s0.w = .begin ∧ Threads env s0 := by
    have ht0 := Threads.step ha hs0
    cases hs0 with
    | evaluator w h => have := own_pc h; simp only at hpa hp0; rw [hpa, hp0] at this; cases this
    | user e hu _ hq h => have := (user_beside hu hq h).pc; simp only at hpa hp0; rw [hpa, hp0] at this; cases this
    | request => simp only at hpa hp0; rw [hpa] at hp0; cases hp0
    | task e hk _ h => have := (task_pc hk h).1; simp only at hpa hp0; rw [hpa, hp0] at this; cases this
    | worker h =>
      obtain ⟨p, c, w⟩ := a
      replace hpa : p.pc = .collected := hpa
      have hloc := (threads_inv ha).2
      unfold Local at hloc
      simp only [hpa] at hloc
      cases w <;> simp only at hloc
      simp only [Whole.work, hpa, Planner.workerStep, bind, Except.bind] at h
      split at h
      · cases h
      · rename_i q hq
        have h' := Except.ok.inj h
        split at hq
        · rw [← Except.ok.inj hq] at h'; rw [← h'] at hp0; cases hp0
        · rw [← Except.ok.inj hq] at h'
          rw [← h']
          exact ⟨rfl, rfl, rfl, by rw [h']; exact ht0⟩
  have ht := stretch_threads ht0 hst
  obtain ⟨h1, h2, h3⟩ := attaching ht0 hp0 hw0 hst
  have h0 := h2 s0 (stretch_first hst)
  rw [← hnew, h0.2.2.2.2.2.2, ← hnext, h0.2.2.1]
  unfold Decided at h3
  rcases attach_ends hs ht h1 hpc with ⟨t, points, e1, _, e2, _⟩ | ⟨e1, _, e2, _⟩
  · rw [e1] at h3
    obtain ⟨m, hm, hE⟩ := h3
    refine ⟨m, hm, Or.inl ⟨hE, ?_⟩⟩
    obtain ⟨tr, w0, w1, htr, k0, k1, hr⟩ := stitch_form env s.p _ _ e2
    obtain ⟨r0, f0, hb0, _, hn0, hc0, hd0⟩ := stitchPoint_spec env s.p tr _ _ w0 k0
    obtain ⟨r1, f1, hb1, _, hn1, hc1, _⟩ := stitchPoint_spec env s.p tr _ _ w1 k1
    obtain ⟨v0, a0, hv0, ha0, p0, q0, z0⟩ := getReferences_full env s.p tr _ _ r0 f0
    obtain ⟨_, _, _, _, p1, _⟩ := getReferences_full env s.p tr _ _ r1 f1
    have hu := (C109_threads_partial env henv s ht (Or.inl (threads_phase ht (by simp [h1])).2.1) tr htr).1
    obtain ⟨d1, d2⟩ := hd0 rfl
    refine ⟨tr, w0, w1, _, htr, hr, hn0, hn1, ?_, ?_, ?_⟩
    · intro k hk
      match k, hk with
      | 0, _ => exact ⟨_, evaluateModified_ok env s.p tr hu _ _ 0 _ p0, by rw [← hc0]; exact hb0.2.2.1⟩
      | 1, _ => exact ⟨_, evaluateModified_ok env s.p tr hu _ _ 1 _ q0, by have := d1; rw [hv0] at this; exact this⟩
      | 2, _ => exact ⟨_, evaluateModified_ok env s.p tr hu _ _ 2 _ z0, by have := d2; rw [ha0] at this; exact this⟩
    · refine ⟨r1.position, ?_, by rw [← hc1]; exact hb1.2.2.1⟩
      have := evaluateModified_ok env s.p tr hu _ _ 0 _ p1
      rw [show 10 * s.p.timeConstant = 5 * s.p.computationTime by unfold Planner.computationTime; ring]
      exact this
    · rw [filter_drop_eq, show s.p.newParams.lastLocal + s.p.params.tOffset + 5 * s.p.computationTime + 5 * s.p.computationTime + s.p.params.gtlg =
        s.p.newParams.lastLocal + s.p.params.tOffset + s.p.params.gtlg + 20 * s.p.timeConstant by unfold Planner.computationTime; ring]
      exact forall2_same_copy _
  · rw [e1] at h3
    obtain ⟨m, hm, hE⟩ := h3
    refine ⟨m, hm, Or.inr ⟨hE, ?_⟩⟩
    obtain ⟨w, hr, hb, _, hn, hc, hv, ha2⟩ := appendDrone_spec s.p _ _ e2
    exact ⟨w, hr, hn, by rw [← hc]; exact hb.2.2.1, hv, ha2⟩

-- An evaluation begins and moves the clock while the worker attaches a plan.
example : ∃ (a s0 s s' : Whole ℚ) (ss : List (Whole ℚ)), Threads hermiteEnv a ∧ a.p.pc = .collected ∧ ThreadStep hermiteEnv .worker a s0 ∧
    s0.p.pc = .snapshotted ∧ Stretch hermiteEnv (fun _ _ b => b.p.pc = .snapshotted) s0 ss s ∧ ThreadStep hermiteEnv .worker s s' ∧
    s'.p.pc = .planned ∧ s'.p.next.map (·.name) = ["stitching_point", "stitching_point", "", "a", "b", "c"] ∧ s.p.params.lastGlobal = 1 / 10 ∧
    s0.p.params.lastGlobal = 0 := by
  obtain ⟨t0, t, t', s', h1, h2, h3, h4, hq⟩ := phase2_map (fun b => decide (b.p.pc = .snapshotted))
    (flying2 ++ [.user (.appendWaypoint (wp "c" 3 3 3))] ++ times 8 .work)
    (times 4 .work ++ [.call (.evaluate (1 / 10) false false)] ++ times 6 .own ++ times 15 .work)
    (append_ok (append_ok flying2_ok (by simp [MoveOk, ByUsers, ValidEvent, wp_bookkept])) (times_ok _ _ trivial))
    (append_ok (append_ok (append_ok (times_ok _ _ trivial) (by simp [MoveOk])) (times_ok _ _ trivial)) (times_ok _ _ trivial))
    (fun x => decide (x.1.s.p.pc = .collected ∧ x.2.1.s.p.pc = .snapshotted ∧ x.2.2.2.p.pc = .planned ∧
      x.2.2.2.p.next.map (·.name) = ["stitching_point", "stitching_point", "", "a", "b", "c"] ∧ x.2.2.1.s.p.params.lastGlobal = 1 / 10 ∧
      x.2.1.s.p.params.lastGlobal = 0)) true (by decide +kernel)
  obtain ⟨k1, k2, k3, k4, k5, k6⟩ := of_decide_eq_true hq
  exact ⟨t0.s, t.s, t'.s, s', t'.ss, h1, k1, h2, k2, stretch_weaken (fun _ _ _ h => of_decide_eq_true h) h3, h4, k3, k4, k5, k6⟩

/-! ## C116 -/

/-- C116: in every interleaving of all threads, when the worker has applied the pending updates to the current plan, each waypoint for whose
name there is an update (the last one counts) has got that position, all the others are as they were, in particular those without a
name; nothing stays queued, and no update that came in the meantime is lost: what has been applied is what is pending at the end. -/
theorem C116_updates (env : Env K) (g : Requests K) (s0 s s' : Whole K) (ss : List (Whole K)) (l : Label K)
    (h : Within env .apply s0 ss s) (hg : Pending env g s) (hs : ThreadStep env l s s') (hpc : s'.p.pc ≠ .apply) :
    s'.p.next = s0.p.next ∧ s'.p.toModify = [] ∧ s'.p.toAdd = s.p.toAdd ∧ s'.p.toSet = s.p.toSet ∧
      List.Forall₂ (fun w w' => (updateFor g.updates w = none → w' = w) ∧
        ∀ p, updateFor g.updates w = some p → Becomes (some p) w w' ∧ w'.original = w.original ∧ w'.index = w.index ∧
          ∃ m, w'.modifiers = w.modifiers ++ [m] ∧ ∀ a, (comp m a).increment = comp p a - comp w.current a) s0.p.dyn s'.p.dyn := by
  obtain ⟨h0, hpc0, hw0, hst⟩ := h
  have hts := stretch_threads h0 hst
  obtain ⟨h1, h2, h3⟩ := applying h0 hpc0 hw0 hst
  obtain ⟨e1, e2⟩ := apply_ends hs hts h1 hpc
  unfold Applying at h3
  rw [e1] at h3
  obtain ⟨us, e3, hrel⟩ := h3
  rw [List.append_nil] at e3
  have ht := (pending_tracks hg).2
  have hw := serialised_wp (threads_phase h0 (by simp [hpc0])).1
  refine ⟨by rw [e2]; exact h2, by rw [e2], by rw [e2], by rw [e2], ?_⟩
  rw [e2]
  refine forall2_imp_mem hrel ?_
  rintro w hwm w' ⟨m, hm, hr⟩
  rw [← e3] at hr
  unfold updateFor
  rcases hr with ⟨h0, rfl⟩ | ⟨h0, ⟨hl, rfl⟩ | ⟨p, hl, hset⟩⟩
  · rw [if_pos h0]
    exact ⟨fun _ => rfl, fun p hp => by cases hp⟩
  · rw [if_neg h0, ← ht.lookup, hl]
    exact ⟨fun _ => rfl, fun p hp => by cases hp⟩
  · rw [if_neg h0, ← ht.lookup, hl]
    refine ⟨fun hh => (by cases hh), ?_⟩
    intro q hq
    obtain rfl := Option.some.inj hq
    have hb := hw.dyn w hwm
    obtain ⟨k1, k2, k3, k4, k5⟩ := setCurrentPosition_frame w w' p _ hset
    have hb' := step_bookkept (.update p _) w w' hset hb
    obtain ⟨v', m, hv', hm, hinc⟩ := setCurrentPosition_spec w w' p _ hset
    refine ⟨⟨k4, k1, k5, hb'.2.2.1, fun k hk => setCurrentPosition_constraints w w' p _ hb hset k hk⟩, k3, k2, m, by rw [hm], ?_⟩
    intro a
    rw [hinc a]

-- A second update comes before the worker locks the queues; an evaluation goes on while it applies them.
example : ∃ (g : Requests ℚ) (s0 s s' : Whole ℚ) (ss : List (Whole ℚ)), Within hermiteEnv .apply s0 ss s ∧ Pending hermiteEnv g s ∧
    ThreadStep hermiteEnv .worker s s' ∧ s'.p.pc ≠ .apply ∧ s'.p.dyn.map (fun w => (w.name, w.current)) =
      [("", ⟨0, 0, 0⟩), ("a", ⟨5, 5, 5⟩), ("b", ⟨2, 1, 0⟩)] ∧ ss.length = 13 := by
  obtain ⟨t, t', s', h1, h2, h3, h4, hq⟩ := phase_map (fun b => decide (b.p.pc = .apply))
    (flying2 ++ [.user (.modifyWaypoint "a" ⟨1, 1, 1⟩ false)] ++ times 3 .work)
    ([.user (.modifyWaypoint "a" ⟨5, 5, 5⟩ false)] ++ times 3 .work ++ [.call (.evaluate (1 / 10) false false)] ++ times 4 .own ++ times 3 .work)
    (append_ok (append_ok flying2_ok (by simp [MoveOk, ByUsers, ValidEvent])) (times_ok _ _ trivial))
    (append_ok (append_ok (append_ok (append_ok (by simp [MoveOk, ByUsers, ValidEvent]) (times_ok _ _ trivial)) (by simp [MoveOk]))
      (times_ok _ _ trivial)) (times_ok _ _ trivial))
    (fun x => decide (x.1.s.p.pc = .apply ∧ x.1.s.w = .begin ∧ x.2.2.p.pc ≠ .apply ∧ x.2.2.p.dyn.map (fun w => (w.name, w.current)) =
      [("", ⟨0, 0, 0⟩), ("a", ⟨5, 5, 5⟩), ("b", ⟨2, 1, 0⟩)] ∧ x.2.1.ss.length = 13)) true (by decide +kernel)
  obtain ⟨k1, k2, k3, k4, k5⟩ := of_decide_eq_true hq
  exact ⟨t'.g, t.s, t'.s, s', t'.ss, ⟨(pending_tracks h1).1, k1, k2, stretch_weaken (fun _ _ _ h => of_decide_eq_true h) h2⟩, h3, h4, k3, k4, k5⟩

end
end Verif.Properties
