import Verif.Properties.PlannerAppend

/-!
# C162: when the first flight begins
-/

set_option linter.unusedSectionVars false

namespace Verif.Properties

open Verif Verif.Spec Verif.Lemmas

variable {K : Type*} [Field K] [LinearOrder K] [IsStrictOrderedRing K] [FloorRing K]

/-- The full claim: when the first plan is ready, the first reference does not depend on what the clock of the caller reads. -/
def FirstFlightWaits (K : Type*) [Field K] [LinearOrder K] [IsStrictOrderedRing K] [FloorRing K] : Prop :=
  ∀ (env : Env K), Segmentwise env → MeetsVertices env → ∀ (v : V3 K) (es : List (Event K)) (s : Planner K), (∀ e ∈ es, FreshEvent e) →
    Run env (Planner.init v) es s → s.traj = none → ∀ t t' r r' s1 s1', s.evaluateTrajectory env t true false = .ok (some (r, s1)) →
      s.evaluateTrajectory env t' true false = .ok (some (r', s1')) → r'.position = r.position

theorem traj_stays (env : Env K) (e : Event K) (s s' : Planner K) (h : s.step env e = .ok (some s')) (hn : s'.traj = none) : s.traj = none := by
  have key : ∀ m m', Micro env e m m' → m'.traj = none → m.traj = none := by
    intro m m' hm hn
    cases hm with
    | takeOver _ _ new off hcomp hr _ hfit => cases hn
    | apply _ s2 hp ha =>
      obtain ⟨_, d, r, rfl, _⟩ := applyAll_rel (fun _ _ => True) (fun _ => trivial) (fun _ _ _ _ _ => trivial)
        (fun _ _ _ _ _ => trivial) _ m s2 ha
      exact hn
    | _ => exact hn
  rcases step_micro' env e s s' h with ⟨rfl, _⟩ | h | ⟨m, _, h1, h2⟩
  · exact hn
  · exact key _ _ h hn
  · exact key _ _ h1 (key _ _ h2 hn)

/-- As long as there is no plan the planner's clock reads zero. -/
theorem no_plan_clock (env : Env K) (v : V3 K) (es : List (Event K)) (s : Planner K) (h : Run env (Planner.init v) es s) (hn : s.traj = none) :
    s.params.lastGlobal = 0 ∧ s.newParams.gtlg = 0 := by
  have hon : RunOnTime env (Planner.init v) es s := by
    induction h with
    | nil => exact .nil
    | snoc e _ hs ih =>
      have h1 := traj_stays env e _ _ hs hn
      exact .snoc e (ih h1) hs fun _ => .inl h1
  have hc := clock_run env v es s hon
  obtain ⟨h1, _, _, _, h2⟩ := hc.fresh hn
  exact ⟨hc.global.trans h1, h2⟩

/-- The first answer, and the plan it is read from. -/
theorem first_answer (env : Env K) (henv : Segmentwise env) (v : V3 K) (es : List (Event K)) (s s1 : Planner K) (hv : ∀ e ∈ es, FreshEvent e)
    (h : Run env (Planner.init v) es s) (hn : s.traj = none) (t : K) (o f : Bool) (r : References K)
    (hr : s.evaluateTrajectory env t o f = .ok (some (r, s1))) :
    ∃ m, s.step env .getDynamicWaypoints = .ok (some m) ∧ TakesOver s m ∧ m.traj ≠ none ∧ ¬ PlanWaiting m ∧ (∀ w ∈ m.dyn, w.modifiers = []) ∧ m.params.gtlg = 0 ∧
      m.evaluateTrajectory env t o f = .ok (some (r, s1)) ∧ s1.traj = m.traj ∧ s1.dyn = m.dyn ∧ s1.params.gtlg = m.params.gtlg ∧ s1.params.tOffset = m.params.tOffset := by
  have hre : Reachable env s := reachable_of_fresh ⟨v, es, hv, h⟩
  obtain ⟨r', m, k1, k2, k3⟩ := step_evaluate env s s1 t o f (evaluate_step env s s1 t o f r hr)
  rw [hr] at k1
  obtain rfl : r = r' := (Prod.mk.inj (Option.some.inj (Except.ok.inj k1))).1
  have hm : m.traj ≠ none := by
    intro hm
    unfold Planner.evaluateNow at k3
    rw [hm] at k3
    cases k3
  have hs : s.step env .getDynamicWaypoints = .ok (some m) := by
    simp only [Planner.step, Planner.getDynamicWaypoints, k2, bind, Except.bind]; rfl
  have hmicro : Micro env .getDynamicWaypoints s m := by
    rcases step_micro' env _ s m hs with ⟨rfl, _⟩ | h | ⟨_, ⟨_, _, h⟩, _⟩
    · exact absurd hn hm
    · exact h
    · cases h
  have hfr := reachable_freshInv env henv s ⟨v, es, hv, h⟩
  obtain ⟨ht, hw, hg⟩ : TakesOver s m ∧ ¬ PlanWaiting m ∧ m.params.gtlg = 0 := by
    cases hmicro with
    | takeOver _ _ new off hcomp hr _ hfit =>
      refine ⟨⟨hcomp, rfl⟩, ?_, (no_plan_clock env v es s h hn).2⟩
      rintro (h | ⟨_, h⟩) <;> cases h
  refine ⟨m, hs, ht, hm, hw, (taken_over_micro env _ s m hfr hmicro ht).2, hg, ?_, ?_⟩
  · unfold Planner.evaluateTrajectory
    rw [check_idle env m hw hm]
    simp only [bind, Except.bind, k3]
    rfl
  · obtain ⟨_, rfl⟩ := evaluateNow_inv env m s1 t o f r k3
    cases f <;> exact ⟨rfl, rfl, rfl, rfl⟩

/-- C162. The first flight began at zero: the first plan ever begins at 0 on the caller's clock, and the first references, asked for at `t`, are those of the plan
a time `t + i / 10 + 1 / 10` after its beginning, or at its end if it is over by then, where `i / 10` is less than three computation times. -/
theorem C162_partial (env : Env K) (henv : Segmentwise env) (v : V3 K) (es : List (Event K)) (s s1 : Planner K) (hv : ∀ e ∈ es, FreshEvent e)
    (h : Run env (Planner.init v) es s) (hn : s.traj = none) (t : K) (o f : Bool) (r : References K)
    (hr : s.evaluateTrajectory env t o f = .ok (some (r, s1))) :
    s1.getMinTime env = .ok (some (0, s1)) ∧ ∃ (tr : Trajectory K) (i : ℕ), s1.traj = some tr ∧ OnGrid s.timeConstant i ∧
      ∀ (k : ℕ) (x : V3 K), refOrder r k = some x → tr.evaluate (max 0 (min (t + (i : K) / 10 + 1 / 10) tr.maxTime)) k = .ok [x.x, x.y, x.z] := by
  obtain ⟨m, hs, ht, hm, hw, hmod, hg, he, e1, e2, e3, _⟩ := first_answer env henv v es s s1 hv h hn t o f r hr
  have hre : Reachable env s := reachable_of_fresh ⟨v, es, hv, h⟩
  have hmin : m.getMinTime env = .ok (some (0, m)) := by rw [getMinTime_eq env m hm, hg]
  refine ⟨by rw [getMinTime_eq env s1 (by rw [e1]; exact hm), e3, hg], ?_⟩
  obtain ⟨tr, target, i, p, k1, k2, k3, _⟩ := C56_recorded env henv s m hre _ hs ht 0 hmin
  refine ⟨tr, i, e1.trans k1, k3, ?_⟩
  have hrm : Reachable env m := reachable_of_fresh ⟨v, es ++ [.getDynamicWaypoints], by
    intro e he
    rcases List.mem_append.mp he with he | he
    · exact hv e he
    · rw [List.mem_singleton.mp he]; trivial, .snoc _ h hs⟩
  intro k x hx
  obtain ⟨base, b1, b2, b3⟩ := (C40_references env henv m hrm tr k1 hw 0 hmin t o f r s1 he).1 k x hx
  have hk := k2 t
  rw [(no_plan_clock env v es s h hn).1, sub_zero] at hk
  rw [sub_zero, hk] at b1
  have hb : x = base := by
    rcases le_or_gt (t + m.getTimeCompensation) 0 with h | h
    · exact b2 h
    · obtain ⟨cs, c1, c2⟩ := b3 h
      apply comp_ext
      intro a
      rw [c2 a]
      have : (cs.map fun c => comp c a).sum = 0 := by
        apply List.sum_eq_zero
        intro y hy
        obtain ⟨c, hc, rfl⟩ := List.mem_map.mp hy
        obtain ⟨w, hw1, hw2⟩ := forall2_mem_right c1 hc
        have := hmod w (List.mem_filter.mp hw1).1
        unfold Waypoint.trajectoryCompensation at hw2
        rw [this] at hw2
        rw [← Except.ok.inj hw2]
        cases a <;> rfl
      rw [this, add_zero]
  rw [hb]
  exact b1

/-- C162. Someone whose clock reads more than the plan lasts is sent to its end at once: the first reference ever is the last waypoint, at rest. -/
theorem C162_sent_to_the_end (env : Env K) (henv : Segmentwise env) (hmeets : MeetsVertices env) (v : V3 K) (es : List (Event K)) (s s1 : Planner K)
    (hv : ∀ e ∈ es, FreshEvent e) (h : Run env (Planner.init v) es s) (hn : s.traj = none) (t : K) (f : Bool) (r : References K)
    (hr : s.evaluateTrajectory env t false f = .ok (some (r, s1))) (w : Waypoint K) (hw : s1.dyn.getLast? = some w) (ht : w.time ≤ t) :
    r.position = w.current ∧ r.velocity = some ⟨0, 0, 0⟩ ∧ r.acceleration = some ⟨0, 0, 0⟩ := by
  obtain ⟨m, hs, hto, hm, hwt, hmod, hg, he, e1, e2, e3, e4⟩ := first_answer env henv v es s s1 hv h hn t false f r hr
  have hre : Reachable env s := reachable_of_fresh ⟨v, es, hv, h⟩
  have hrm : ReachableBy FreshEvent env m := ⟨v, es ++ [.getDynamicWaypoints], by
    intro e he
    rcases List.mem_append.mp he with he | he
    · exact hv e he
    · rw [List.mem_singleton.mp he]; trivial, .snoc _ h hs⟩
  have hmin : m.getMinTime env = .ok (some (0, m)) := by rw [getMinTime_eq env m hm, hg]
  obtain ⟨tr, target, i, p, k1, k2, k3, _⟩ := C56_recorded env henv s m hre _ hs hto 0 hmin
  have hk := k2 0
  rw [(no_plan_clock env v es s h hn).1, sub_zero, zero_add, zero_add] at hk
  have hi : (0 : K) ≤ (i : K) / 10 := by positivity
  obtain ⟨r', s', g1, g2, g3, g4⟩ := (C129_flown env henv hmeets m hrm hm hwt hmod).2.2 w t (by rw [← e2]; exact hw) (by rw [hk]; linarith) f
  rw [he] at g1
  obtain rfl : r = r' := (Prod.mk.inj (Option.some.inj (Except.ok.inj g1))).1
  exact ⟨g2, g3, g4⟩

/-- Two waypoints are requested and planned; the plan is not taken over yet. -/
def historyPlanned : List (Event ℚ) :=
  [.setSpeed 2, .updateVehiclePosition ⟨0, 0, 0⟩, .setWaypoints [wp "a" 1 0 0, wp "b" 2 1 0]] ++ planEvents (1 / 100)

theorem historyPlanned_fresh : ∀ e ∈ historyPlanned, FreshEvent e := by
  simp [historyPlanned, planEvents, FreshEvent, wp_bookkept]

/-- The position read first, at an instant. -/
def firstRead (t : ℚ) (s : Planner ℚ) : Option (V3 ℚ) :=
  match s.evaluateTrajectory hermiteEnv t true false with
  | .ok (some (q, _)) => some q.position
  | _ => none

theorem firstRead_some {t : ℚ} {s : Planner ℚ} {p : V3 ℚ} (h : firstRead t s = some p) :
    ∃ q s1, s.evaluateTrajectory hermiteEnv t true false = .ok (some (q, s1)) ∧ q.position = p := by
  unfold firstRead at h
  split at h
  · rename_i q s1 he
    exact ⟨q, s1, he, Option.some.inj h⟩
  · cases h

theorem historyPlanned_reads : ∃ s, Run hermiteEnv (Planner.init ⟨0, 0, 0⟩) historyPlanned s ∧ s.traj = none ∧
    (∃ q s1, s.evaluateTrajectory hermiteEnv 2 true false = .ok (some (q, s1)) ∧ q.position = ⟨2, 1, 0⟩) ∧
    ∃ q s1, s.evaluateTrajectory hermiteEnv 0 true false = .ok (some (q, s1)) ∧ q.position ≠ ⟨2, 1, 0⟩ := by
  obtain ⟨s, h1, h2⟩ := run?_map historyPlanned (fun s => (s.traj.isNone, firstRead 2 s, decide (firstRead 0 s = some ⟨2, 1, 0⟩), (firstRead 0 s).isSome))
    (true, some ⟨2, 1, 0⟩, false, true) (by decide +kernel)
  simp only [Prod.mk.injEq] at h2
  obtain ⟨h3, h4, h5, h6⟩ := h2
  refine ⟨s, h1, by simpa using h3, firstRead_some h4, ?_⟩
  obtain ⟨p, hp⟩ := Option.isSome_iff_exists.mp h6
  obtain ⟨q, s1, h7, h8⟩ := firstRead_some hp
  refine ⟨q, s1, h7, fun hq => ?_⟩
  rw [← h8, hq] at hp
  rw [hp] at h5
  simp at h5

/-- C162. The full claim fails: the first reference depends on the clock of the caller. -/
theorem C162_refuted : ¬ FirstFlightWaits ℚ := by
  intro H
  obtain ⟨s, h1, h2, ⟨q, s1, h3, h4⟩, q', s1', h5, h6⟩ := historyPlanned_reads
  have := H hermiteEnv hermite_segmentwise hermite_meets _ _ s historyPlanned_fresh h1 h2 _ _ _ _ _ _ h3 h5
  exact h6 (this.trans h4)

/-- The hypotheses of `C162_partial` and `C162_sent_to_the_end` are met: the last of the waypoints is due at 2, and asked for at 5. -/
example : ∃ s, Run hermiteEnv (Planner.init ⟨0, 0, 0⟩) historyPlanned s ∧ s.traj = none ∧
    ∃ q s1, s.evaluateTrajectory hermiteEnv 5 false false = .ok (some (q, s1)) ∧ s1.dyn.getLast?.map (fun w => (w.time, w.current)) = some (2, ⟨2, 1, 0⟩) := by
  obtain ⟨s, h1, h2⟩ := run?_map historyPlanned (fun s => (s.traj.isNone, match s.evaluateTrajectory hermiteEnv 5 false false with
    | .ok (some (_, s1)) => decide (s1.dyn.getLast?.map (fun w => (w.time, w.current)) = some (2, ⟨2, 1, 0⟩))
    | _ => false)) (true, true) (by decide +kernel)
  simp only [Prod.mk.injEq] at h2
  refine ⟨s, h1, by simpa using h2.1, ?_⟩
  have h3 := h2.2
  split at h3
  · rename_i q s1 he
    exact ⟨q, s1, he, of_decide_eq_true h3⟩
  · cases h3

end Verif.Properties
