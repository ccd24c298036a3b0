import Verif.Lemmas.PlannerClock
import Verif.Properties.PlannerPlan
import Verif.Properties.PlannerRequests
import Verif.Properties.PlannerEval

/-!
# The last evaluated time and what depends on it (C51, C57, C58, C59, C60, C73)

For every history of calls, worker phases and computations.
-/

set_option linter.unusedSectionVars false
set_option linter.unusedSimpArgs false

namespace Verif.Properties
open Verif Verif.Spec Verif.Lemmas

section
variable {K : Type*} [Field K] [LinearOrder K] [IsStrictOrderedRing K] [FloorSemiring K]

/-! ## C57 -/

/-- C57, the claim: while evaluation times do not decrease, neither does the planner's record of the last evaluated time. -/
def C57Full (K : Type*) [Field K] [LinearOrder K] [IsStrictOrderedRing K] [FloorSemiring K] : Prop :=
  ∀ (env : Env K) (v : V3 K) (es : List (Event K)) (e : Event K) (s s' : Planner K), (∀ e' ∈ es ++ [e], ValidEvent e') →
    (evalTimes (es ++ [e])).Pairwise (· ≤ ·) → (∀ t ∈ evalTimes (es ++ [e]), 0 ≤ t) →
    Run env (Planner.init v) es s → s.step env e = .ok (some s') → s.params.lastGlobal ≤ s'.params.lastGlobal

/-- A plan is requested at time 1/2, the old one is followed until 3; the new one is ready. -/
def history9 : List (Event ℚ) :=
  history1 ++ [.evaluate (1 / 2) true false, .appendWaypoint (wp "c" 3 3 3)] ++
    [.worker, .worker, .worker, .worker, .worker, .worker, .worker, .asyncStart] ++
    [.evaluate 1 true false, .evaluate 3 true false, .asyncFinish (1 / 100)]

theorem history9_valid : ∀ e ∈ history9, ValidEvent e := by
  simp [history9, history1, planEvents, ValidEvent, wp_bookkept]

/-- C57 is false of the code: taking over a plan by `getDynamicWaypoints` restores the record as it was when planning started. -/
theorem C57_refuted : ¬ C57Full ℚ := by
  intro h
  obtain ⟨s, s', h1, h2, hf⟩ := run2?_map history9 .getDynamicWaypoints
    (fun s s' => decide (s.params.lastGlobal = 3 ∧ s'.params.lastGlobal = 1 / 2)) true (by decide +kernel)
  obtain ⟨k1, k2⟩ := of_decide_eq_true hf
  have := h hermiteEnv _ history9 .getDynamicWaypoints s s'
    (by
      intro e' he
      rcases List.mem_append.mp he with he | he
      · exact history9_valid e' he
      · rw [List.mem_singleton.mp he]; trivial)
    (by decide +kernel) (by decide +kernel) h1 h2
  rw [k1, k2] at this
  revert this
  decide +kernel

/-- Visible to a caller: `getNextTrajectoryWaypoints` returns waypoint "a", of time 5/2, although the last evaluation was at 3. -/
theorem C57_visible : (run2? history9 .getDynamicWaypoints).map
    (fun q => ((q.2.getNextTrajectoryWaypoints).map fun w => (w.name, w.time), lastEval (history9 ++ [.getDynamicWaypoints]))) =
    some ([("stitching_point", 3 / 2), ("a", 5 / 2), ("b", 7 / 2), ("c", 9 / 2)], 3) := by
  decide +kernel

/-- C57 where it holds: if all plans but the first are taken over by evaluations that are not for plotting, the record is, after every
history, the time of the last evaluation. -/
theorem C57_record_partial (env : Env K) (v : V3 K) (es : List (Event K)) (s : Planner K) (h : RunOnTime env (Planner.init v) es s) :
    s.params.lastGlobal = lastEval es := (clock_run env v es s h).global

theorem lastEval_mono (es : List (Event K)) (e : Event K) (hs : (evalTimes (es ++ [e])).Pairwise (· ≤ ·))
    (h0 : ∀ t ∈ evalTimes (es ++ [e]), 0 ≤ t) : lastEval es ≤ lastEval (es ++ [e]) := by
  by_cases he : ∃ t o, e = .evaluate t o false
  · obtain ⟨t, o, rfl⟩ := he
    rw [lastEval_eval]
    have hap : evalTimes (es ++ [.evaluate t o false]) = evalTimes es ++ [t] := by simp [evalTimes, List.filterMap_append]
    rw [hap] at hs h0
    unfold lastEval
    cases hl : (evalTimes es).getLast? with
    | none => exact h0 t (by simp)
    | some x => exact (List.pairwise_append.mp hs).2.2 x (List.mem_of_getLast? hl) t (by simp)
  · rw [lastEval_other es e (fun t o h => he ⟨t, o, h⟩)]

/-- C57 where it holds, in the words of the claim. -/
theorem C57_partial (env : Env K) (v : V3 K) (es : List (Event K)) (e : Event K) (s s' : Planner K)
    (hm : (evalTimes (es ++ [e])).Pairwise (· ≤ ·)) (h0 : ∀ t ∈ evalTimes (es ++ [e]), 0 ≤ t)
    (h : RunOnTime env (Planner.init v) es s) (hs : s.step env e = .ok (some s'))
    (hok : TakesOver s s' → s.traj = none ∨ ∃ t o, e = .evaluate t o false) : s.params.lastGlobal ≤ s'.params.lastGlobal := by
  rw [C57_record_partial env v es s h, C57_record_partial env v (es ++ [e]) s' (.snoc e h hs hok)]
  exact lastEval_mono es e hm h0

/-- Executable form of the condition of `RunOnTime`. -/
def onTime (s : Planner ℚ) (e : Event ℚ) (s' : Planner ℚ) : Bool :=
  !(s.computing && !s'.computing) || s.traj.isNone || (match e with | .evaluate _ _ false => true | _ => false)

theorem onTime_ok (s : Planner ℚ) (e : Event ℚ) (s' : Planner ℚ) (h : onTime s e s' = true) :
    TakesOver s s' → s.traj = none ∨ ∃ t o, e = .evaluate t o false := by
  rintro ⟨h1, h2⟩
  unfold onTime at h
  rw [h1, h2] at h
  simp only [Bool.not_false, Bool.and_true, Bool.not_true, Bool.false_or, Bool.or_eq_true] at h
  rcases h with h | h
  · exact Or.inl (Option.isNone_iff_eq_none.mp h)
  · right
    cases e with
    | evaluate t o f =>
      cases f with
      | false => exact ⟨t, o, rfl⟩
      | true => cases h
    | _ => cases h

-- The same history, the plan taken over by an evaluation: the hypotheses are met and the record advances to 7/2.
example : ∃ s, RunOnTime hermiteEnv (Planner.init ⟨0, 0, 0⟩) (history9 ++ [.evaluate (7 / 2) true false]) s ∧ s.params.lastGlobal = 7 / 2 ∧
    s.dyn.map (·.name) = ["stitching_point", "stitching_point", "a", "b", "c"] := by
  have h : ((execWhile onTime (Planner.init ⟨0, 0, 0⟩) (history9 ++ [.evaluate (7 / 2) true false])).map fun s =>
    decide (s.params.lastGlobal = 7 / 2 ∧ s.dyn.map (·.name) = ["stitching_point", "stitching_point", "a", "b", "c"])) = some true := by
    decide +kernel
  obtain ⟨s, hs, hx⟩ := Option.map_eq_some_iff.mp h
  exact ⟨s, execWhile_run onTime _ onTime_ok _ _ _ hs, of_decide_eq_true hx⟩

/-! ## C51 -/

/-- C51, the claim: a waypoint that gets into a plan (when the worker collects the requests) was set or appended by the user since the last
plan was started, or its time is not before the last evaluation. -/
def C51Full (K : Type*) [Field K] [LinearOrder K] [IsStrictOrderedRing K] [FloorSemiring K] : Prop :=
  ∀ (env : Env K) (v : V3 K) (es : List (Event K)) (g : Requests K) (s s' : Planner K), (∀ e ∈ es, ValidEvent e) →
    RunR env (Planner.init v) es g s → s.pc = .collect → s.step env .worker = .ok (some s') →
    ∀ w' ∈ s'.next, (∃ w ∈ g.route ++ g.appended, w.name = w'.name ∧ w.time = w'.time) ∨ lastEval es ≤ w'.time

/-- Waypoint "a" (time 5/2 in the new plan) lies before the last evaluation at 3, when the next plan is started. -/
def history10 : List (Event ℚ) :=
  history9 ++ [.getDynamicWaypoints, .appendWaypoint (wp "d" 4 4 4), .worker]

theorem history10_valid : ∀ e ∈ history10, ValidEvent e := by
  simp [history10, history9, history1, planEvents, ValidEvent, wp_bookkept]

/-- C51 is false of the code, for the reason of `C57_refuted`. -/
theorem C51_refuted : ¬ C51Full ℚ := by
  intro h
  obtain ⟨s, s', h1, h2, hf⟩ := run2?_map history10 .worker
    (fun s s' => decide (s.pc = .collect ∧ s.toSet = [] ∧ (s.toAdd.map (·.name)) = ["d"] ∧
      ((s'.next.map fun w => (w.name, w.time)).contains ("a", 5 / 2)))) true (by decide +kernel)
  obtain ⟨k1, k2, k3, k4⟩ := of_decide_eq_true hf
  obtain ⟨g, hg⟩ := run_runR _ _ _ _ h1
  have ht := runR_tracks _ _ _ _ _ hg
  have hroute : g.route = [] := by
    have := ht.toSet; rw [k2] at this; simpa using this.symm
  have happ : g.appended.map (·.name) = ["d"] := by
    have : s.toAdd.map (·.name) = g.appended.map (·.name) := by rw [ht.toAdd, List.map_map]; rfl
    rw [← this, k3]
  rw [List.contains_iff_mem, List.mem_map] at k4
  obtain ⟨w, hw, hwt⟩ := k4
  obtain ⟨hn, htm⟩ := Prod.mk.inj hwt
  rcases h hermiteEnv _ history10 g s s' history10_valid hg k1 h2 w hw with ⟨x, hx, hxn, _⟩ | hx
  · rw [hroute, List.nil_append] at hx
    have : x.name ∈ g.appended.map (·.name) := List.mem_map.mpr ⟨x, hx, rfl⟩
    rw [happ, hxn, hn] at this
    simp at this
  · rw [htm] at hx
    revert hx
    decide +kernel

/-- C51 relative to the planner's record of the last evaluated time (no condition on the history). -/
theorem C51_recorded (env : Env K) (v : V3 K) (es : List (Event K)) (g : Requests K) (s s' : Planner K) (hv : ∀ e ∈ es, ValidEvent e)
    (h : RunR env (Planner.init v) es g s) (hpc : s.pc = .collect) (hs : s.step env .worker = .ok (some s')) :
    ∀ w' ∈ s'.next, (∃ w ∈ g.route ++ g.appended, w.name = w'.name ∧ w.time = w'.time) ∨ s.params.lastGlobal ≤ w'.time := by
  obtain ⟨s1, h1, _, hf, _⟩ := C47_contents env v es hv g s h hpc
  rw [h1] at hs
  have : s1 = s' := Option.some.inj (Except.ok.inj hs)
  subst this
  intro w' hw'
  obtain ⟨w, hw, hb⟩ := forall2_mem_right hf hw'
  rcases List.mem_append.mp hw with hw | hw
  · split at hw
    · right
      have := (List.mem_filter.mp hw).2
      rw [hb.2.1]
      simpa using this
    · left
      exact ⟨w, by simp [hw], hb.1.symm, hb.2.1.symm⟩
  · left
    exact ⟨w, by simp [hw], hb.1.symm, hb.2.1.symm⟩

/-- C51 where it holds: if plans are taken over by evaluations. -/
theorem C51_partial (env : Env K) (v : V3 K) (es : List (Event K)) (g : Requests K) (s s' : Planner K) (hv : ∀ e ∈ es, ValidEvent e)
    (h : RunR env (Planner.init v) es g s) (hok : RunOnTime env (Planner.init v) es s) (hpc : s.pc = .collect)
    (hs : s.step env .worker = .ok (some s')) :
    ∀ w' ∈ s'.next, (∃ w ∈ g.route ++ g.appended, w.name = w'.name ∧ w.time = w'.time) ∨ lastEval es ≤ w'.time := by
  rw [← C57_record_partial env v es s hok]
  exact C51_recorded env v es g s s' hv h hpc hs

/-- C51, the effect: a plan taken over later has no waypoint with the name of a passed one, unless that name also belongs to a waypoint
of the old plan that is still to come, or was requested. -/
theorem C51_taken_over_partial (env : Env K) (v : V3 K) (es : List (Event K)) (g : Requests K) (s s1 s2 s3 : Planner K)
    (hv : ∀ e ∈ es, ValidEvent e) (h : RunR env (Planner.init v) es g s) (hok : RunOnTime env (Planner.init v) es s) (hpc : s.pc = .collect)
    (hs : s.step env .worker = .ok (some s1)) (hne : s1.next ≠ []) (es' : List (Event K)) (hrun : RunBefore env s1 es' s2) (e : Event K)
    (he : s2.step env e = .ok (some s3)) (ht : TakesOver s2 s3) (n : String) (hn : n ≠ "") (hn' : n ≠ "stitching_point")
    (hreq : ∀ w ∈ g.route ++ g.appended, w.name ≠ n) (hold : ∀ w ∈ s.dyn, w.name = n → w.time < lastEval es) :
    ∀ w ∈ s3.dyn, w.name ≠ n := by
  obtain ⟨s1', h1, hpc1, hf, _⟩ := C47_contents env v es hv g s h hpc
  rw [h1] at hs
  have : s1' = s1 := Option.some.inj (Except.ok.inj hs)
  subst this
  have hreach : Reachable env s1' := ⟨v, es ++ [.worker], by
    intro e he
    rcases List.mem_append.mp he with he | he
    · exact hv e he
    · rw [List.mem_singleton.mp he]; trivial, .snoc _ (runR_run _ _ _ _ _ h) h1⟩
  have hnext : ∀ w' ∈ s1'.next, w'.name ≠ n := by
    intro w' hw' hwn
    obtain ⟨w, hw, hb⟩ := forall2_mem_right hf hw'
    have hwn' : w.name = n := hb.1.symm.trans hwn
    rcases List.mem_append.mp hw with hw | hw
    · split at hw
      · obtain ⟨hm, hl⟩ := List.mem_filter.mp hw
        have := hold w hm hwn'
        rw [← C57_record_partial env v es s hok] at this
        exact absurd (by simpa using hl) (not_le.mpr this)
      · exact hreq w (by simp [hw]) hwn'
    · exact hreq w (by simp [hw]) hwn'
  obtain ⟨pre, kept, hdyn, hp⟩ := C47_taken_over env s1' hreach hpc1 hne es' s2 hrun e s3 he ht
  intro w hw hwn
  rw [hdyn] at hw
  have hkept : ∀ from_ : List (Waypoint K), (∀ a ∈ from_, a ∈ s1'.next) → List.Forall₂ SameWaypoint from_ kept → w ∈ kept → False := by
    intro from_ hsub hfk hwk
    obtain ⟨a, ha, hsame⟩ := forall2_mem_right hfk hwk
    exact hnext a (hsub a ha) (hsame.1.symm.trans hwn)
  rcases hp with ⟨hpre, hfk⟩ | ⟨hpre, b, hfk⟩
  · rcases List.mem_append.mp hw with hw | hw
    · have : w.name ∈ pre.map (·.name) := List.mem_map.mpr ⟨w, hw, rfl⟩
      rw [hpre] at this
      exact hn (hwn.symm.trans (List.mem_singleton.mp this))
    · exact hkept _ (fun a ha => ha) hfk hw
  · rcases List.mem_append.mp hw with hw | hw
    · have : w.name ∈ pre.map (·.name) := List.mem_map.mpr ⟨w, hw, rfl⟩
      rw [hpre] at this
      rcases List.mem_cons.mp this with this | this
      · exact hn' (hwn.symm.trans this)
      · exact hn' (hwn.symm.trans (List.mem_singleton.mp this))
    · exact hkept _ (fun a ha => (List.mem_filter.mp ha).1) hfk hw

/-- As `history10`, with the plan taken over by an evaluation. -/
def history11 : List (Event ℚ) :=
  history1 ++ [.evaluate (1 / 2) true false, .appendWaypoint (wp "c" 3 3 3)] ++
    [.worker, .worker, .worker, .worker, .worker, .worker, .worker, .asyncStart] ++
    [.evaluate 1 true false, .asyncFinish (1 / 100), .evaluate 3 true false, .appendWaypoint (wp "d" 4 4 4), .worker]

-- The hypotheses of `C51_partial` are met, and "a" (time 5/2) is not in the plan.
example : ∃ s, RunOnTime hermiteEnv (Planner.init ⟨0, 0, 0⟩) history11 s ∧ s.pc = .collect ∧
    s.dyn.map (fun w => (w.name, w.time)) = [("stitching_point", 1 / 2), ("stitching_point", 3 / 2), ("a", 5 / 2), ("b", 7 / 2), ("c", 9 / 2)] := by
  have h : ((execWhile onTime (Planner.init ⟨0, 0, 0⟩) history11).map fun s =>
    decide (s.pc = .collect ∧ s.dyn.map (fun w => (w.name, w.time)) =
      [("stitching_point", 1 / 2), ("stitching_point", 3 / 2), ("a", 5 / 2), ("b", 7 / 2), ("c", 9 / 2)])) = some true := by
    decide +kernel
  obtain ⟨s, hs, hx⟩ := Option.map_eq_some_iff.mp h
  exact ⟨s, execWhile_run onTime _ onTime_ok _ _ _ hs, of_decide_eq_true hx⟩

example : (run? (history11 ++ [.worker])).map (fun s => s.next.map (·.name)) = some ["b", "c", "d"] := by decide +kernel

/-! ## C73 -/

/-- C73, the claim: a waypoint that is treated as passed (not returned by `getNextTrajectoryWaypoints` after an evaluation at `t`, and left
out of the next plan if strictly before `t`) has been reached: the reference returned for `t` is the plan at `t` plus the time
compensation, which is not before the waypoint. -/
def C73Full (K : Type*) [Field K] [LinearOrder K] [IsStrictOrderedRing K] [FloorSemiring K] : Prop :=
  ∀ (env : Env K) (v : V3 K) (es : List (Event K)) (s s' : Planner K) (t : K) (r : References K), (∀ e ∈ es, ValidEvent e) →
    (evalTimes (es ++ [.evaluate t false false])).Pairwise (· ≤ ·) →
    Run env (Planner.init v) es s → s.evaluateTrajectory env t false false = .ok (some (r, s')) →
    ∀ w ∈ s'.dyn, w.copy ∉ s'.getNextTrajectoryWaypoints → w.time ≤ t + s'.getTimeCompensation

/-- A computation that takes long (from 1/2 until 8/5). -/
def history12 : List (Event ℚ) :=
  history1 ++ [.evaluate (1 / 2) true false, .appendWaypoint (wp "c" 3 3 3)] ++
    [.worker, .worker, .worker, .worker, .worker, .worker, .worker, .asyncStart] ++
    [.evaluate 1 true false, .evaluate (8 / 5) true false, .asyncFinish (1 / 100)]

theorem history12_valid : ∀ e ∈ history12, ValidEvent e := by
  simp [history12, history1, planEvents, ValidEvent, wp_bookkept]

/-- C73 is false of the code: after a computation that took longer than 0.1 s plus the fitted time the compensation is negative. -/
theorem C73_refuted : ¬ C73Full ℚ := by
  intro h
  have hd : ((run? history12).bind fun s => match s.evaluateTrajectory hermiteEnv (33 / 20) false false with
      | .ok (some (r, s')) => some (s, r, s')
      | _ => none).map (fun q => decide (q.2.2.getTimeCompensation = -1 ∧
        (q.2.2.dyn.filter (fun w => w.time = 3 / 2)) ≠ [] ∧ ∀ w ∈ q.2.2.getNextTrajectoryWaypoints, w.time ≠ 3 / 2)) = some true := by
    decide +kernel
  obtain ⟨⟨s, r, s'⟩, hs, hx⟩ := Option.map_eq_some_iff.mp hd
  obtain ⟨s1, h1, hm⟩ := Option.bind_eq_some_iff.mp hs
  have hrun := run?_run _ _ h1
  split at hm
  · rename_i r1 s2 hev
    cases hm
    obtain ⟨k1, k2, k3⟩ := of_decide_eq_true hx
    simp only at k1 k2 k3
    obtain ⟨w, hw⟩ := List.exists_mem_of_ne_nil _ k2
    obtain ⟨hw1, hw2⟩ := List.mem_filter.mp hw
    have hw2 : w.time = 3 / 2 := of_decide_eq_true hw2
    have := h hermiteEnv _ history12 _ _ _ _ history12_valid (by decide +kernel) hrun hev w hw1
      (fun hmem => k3 _ hmem hw2)
    rw [hw2, k1] at this
    revert this
    decide +kernel
  · cases hm

/-- C73 where it holds: while the time compensation is not negative. -/
theorem C73_partial (env : Env K) (s s' : Planner K) (t : K) (o : Bool) (r : References K)
    (h : s.evaluateTrajectory env t o false = .ok (some (r, s'))) (hoff : 0 ≤ s'.getTimeCompensation) :
    ∀ w ∈ s'.dyn, w.copy ∉ s'.getNextTrajectoryWaypoints → w.time ≤ t + s'.getTimeCompensation := by
  obtain ⟨r', m, _, _, hn⟩ := step_evaluate env s s' t o false (evaluate_step env s s' t o false r h)
  obtain ⟨_, hs'⟩ := evaluateNow_inv env m s' t o false r' hn
  have ht : s'.params.lastGlobal = t := by rw [hs']; rfl
  intro w hw hnot
  by_contra hlt
  apply hnot
  unfold Planner.getNextTrajectoryWaypoints
  exact List.mem_map.mpr ⟨w, List.mem_filter.mpr ⟨hw, by rw [ht]; apply decide_eq_true; push Not at hlt; linarith⟩, rfl⟩

-- A positive compensation occurs: 1/10 after the first plan; at 3/2 waypoint "a" (time 1) is passed.
example : ((run? history1).bind fun s => match s.evaluateTrajectory hermiteEnv (3 / 2) false false with
      | .ok (some (_, s')) => some (s'.getTimeCompensation, s'.getNextTrajectoryWaypoints.map (·.name))
      | _ => none) = some (1 / 10, ["b"]) := by decide +kernel

/-! ## C58 -/

theorem zone_iff (env : Env K) (henv : Segmentwise env) (s : Planner K) (h : Reachable env s) : s.checkInSecurityZone = true ↔ InZone s := by
  unfold Planner.checkInSecurityZone InZone
  cases ht : s.traj with
  | none => simp
  | some tr =>
    have hp := reachable_plan env henv s h
    have hs := timed_sorted tr (traj_usable env henv s hp tr ht) _ _ (hp.taken tr ht).1
    simp only
    rw [zoneLoop_iff _ _ _ hs]
    have : 5 * s.computationTime = 10 * s.timeConstant := by unfold Planner.computationTime; ring
    rw [this]
    simp

/-- C58: whether the worker starts a plan is decided by: a request is pending, no plan is being computed, and the planner is not in the
security zone. -/
theorem C58_decision (env : Env K) (henv : Segmentwise env) (s s' : Planner K) (h : Reachable env s) (hpc : s.pc = .top)
    (hs : s.step env .worker = .ok (some s')) :
    s'.pc = .collect ↔ s.generateNew = true ∧ s.computing = false ∧ ¬ InZone s := by
  rw [← zone_iff env henv s h]
  simp only [Planner.step, Planner.workerStep, hpc, bind, Except.bind] at hs
  have hiff : (s.generateNew && s.checkIfTrajectoryCanBeGenerated) = true ↔
      s.generateNew = true ∧ s.computing = false ∧ ¬ s.checkInSecurityZone = true := by
    unfold Planner.checkIfTrajectoryCanBeGenerated
    cases s.generateNew <;> cases s.computing <;> cases s.checkInSecurityZone <;> simp
  rw [← hiff]
  by_cases hcond : (s.generateNew && s.checkIfTrajectoryCanBeGenerated) = true
  · rw [if_pos hcond] at hs
    rw [← Option.some.inj (Except.ok.inj hs)]
    simp [hcond]
  · rw [if_neg hcond] at hs
    have : s'.pc ≠ .collect := by
      by_cases hm : (!s.toModify.isEmpty && !s.computing) = true
      · rw [if_pos hm] at hs
        rw [← Option.some.inj (Except.ok.inj hs)]
        simp
      · rw [if_neg hm] at hs
        rw [← Option.some.inj (Except.ok.inj hs), hpc]
        simp
    simp [hcond, this]

/-- C58: a plan is only ever started by the worker, at a moment at which it may. -/
theorem C58_only_outside_zone (env : Env K) (henv : Segmentwise env) (s s' : Planner K) (h : Reachable env s) (e : Event K)
    (hs : s.step env e = .ok (some s')) (hpc : s.pc ≠ .collect) (hpc' : s'.pc = .collect) :
    e = .worker ∧ s.generateNew = true ∧ s.computing = false ∧ ¬ InZone s := by
  rw [← zone_iff env henv s h]
  have key : ∀ e s s', Micro env e s s' → s.pc ≠ .collect → s'.pc = .collect →
      e = .worker ∧ s.generateNew = true ∧ s.computing = false ∧ ¬ s.checkInSecurityZone = true := by
    intro e s s' hm hpc hpc'
    cases hm with
    | goCollect _ hp hg hz hc => exact ⟨rfl, hg, hc, by rw [hz]; decide⟩
    | apply _ s2 hp ha => cases hpc'
    | goApply _ hp hm hc hno => cases hpc'
    | collect _ ws hp hw => cases hpc'
    | nothingToPlan _ hp hn => cases hpc'
    | snapshot _ hp hn => cases hpc'
    | stitch _ ws hp hs hw => cases hpc'
    | scratch _ ws hp hs hw => cases hpc'
    | planned _ hp => cases hpc'
    | launch _ hp => cases hpc'
    | launched _ hp => cases hpc'
    | _ => exact absurd hpc' hpc
  rcases step_micro' env e s s' hs with ⟨rfl, _⟩ | hm | ⟨m, ⟨t, o, rfl⟩, h1, h2⟩
  · exact absurd hpc' hpc
  · exact key e s s' hm hpc hpc'
  · by_cases hmc : m.pc = .collect
    · exact key _ s m h1 hpc hmc
    · have := (key _ m s' h2 hmc hpc').1
      cases this

theorem stitch_total (env : Env K) (s : Planner K) (tr : Trajectory K) (htr : s.traj = some tr) (hu : Usable tr) (hz : NoZeroWidth s.dyn)
    (ws : List (Waypoint K)) : ∃ r, s.stitch env ws = .ok r := by
  cases h : s.stitch env ws with
  | ok r => exact ⟨r, rfl⟩
  | error e =>
    obtain ⟨l, hl⟩ := stitch_fail env s tr htr ws e h
    obtain ⟨v, hv⟩ := getReferences_total env s tr hu hz (l + s.params.gtlg) l false
    rw [hv] at hl; cases hl

/-- C58, continued: if a request is pending, nothing is being computed and the planner is not in the security zone, the worker's next
six phases, undisturbed, launch a computation, provided there is a waypoint to fly to (and no zero-width compensation). -/
theorem C58_launches (env : Env K) (henv : Segmentwise env) (v : V3 K) (es : List (Event K)) (hv : ∀ e ∈ es, ValidEvent e) (g : Requests K)
    (s : Planner K) (h : RunR env (Planner.init v) es g s) (hpc : s.pc = .top) (hg : s.generateNew = true) (hc : s.computing = false)
    (hz : ¬ InZone s) (hnz : NoZeroWidth s.dyn)
    (hsome : g.route ≠ [] ∨ g.appended ≠ [] ∨ ∃ w ∈ s.dyn, s.params.lastGlobal ≤ w.time) :
    ∃ s', Run env s (List.replicate 6 .worker) s' ∧ s'.computing = true ∧ s'.future = .launched := by
  have hr : Reachable env s := ⟨v, es, hv, runR_run _ _ _ _ _ h⟩
  have hzone : s.checkInSecurityZone = false := by
    rw [← zone_iff env henv s hr] at hz
    simpa using hz
  -- 1
  have s1 : s.step env .worker = .ok (some { s with pc := .collect }) := by
    simp [Planner.step, Planner.workerStep, hpc, hg, Planner.checkIfTrajectoryCanBeGenerated, hzone, hc, bind, Except.bind, pure, Except.pure]
  -- 2
  have hr1 : RunR env (Planner.init v) (es ++ [.worker]) (g.after s.pc .worker) { s with pc := .collect } := .snoc _ h s1
  have hv1 : ∀ e ∈ es ++ [.worker], ValidEvent e := by
    intro e he
    rcases List.mem_append.mp he with he | he
    · exact hv e he
    · rw [List.mem_singleton.mp he]; trivial
  have hg1 : g.after s.pc .worker = g := by simp [Requests.after, hpc]
  rw [hg1] at hr1
  obtain ⟨s2, h2, hpc2, hf2, _⟩ := C47_contents env v _ hv1 g _ hr1 rfl
  have hne2 : s2.next ≠ [] := by
    intro h0
    rw [h0] at hf2
    have h0 := (List.forall₂_nil_right_iff.mp hf2)
    obtain ⟨ha, hb⟩ := List.append_eq_nil_iff.mp h0
    rcases hsome with hsome | hsome | ⟨w, hw, hl⟩
    · rw [if_neg (by simpa using hsome)] at ha; exact hsome ha
    · exact hsome hb
    · split at ha
      · have : w ∈ List.filter (fun w => decide (s.params.lastGlobal ≤ w.time)) s.dyn := List.mem_filter.mpr ⟨hw, decide_eq_true hl⟩
        have ha' : List.filter (fun w => decide (s.params.lastGlobal ≤ w.time)) s.dyn = [] := ha
        rw [ha'] at this; cases this
      · rename_i hne; rw [ha] at hne; simp at hne
  have hfr2 : s2.dyn = s.dyn ∧ s2.traj = s.traj ∧ s2.computing = false := by
    have := h2
    simp only [Planner.step, Planner.workerStep, bind, Except.bind] at this
    cases hgw : Planner.generateWaypoints { s with pc := .collect } with
    | error e => rw [hgw] at this; cases this
    | ok q =>
      obtain ⟨ws, sx⟩ := q
      rw [hgw] at this
      obtain rfl := generateWaypoints_frame _ _ _ hgw
      rw [← Option.some.inj (Except.ok.inj this)]
      exact ⟨rfl, rfl, hc⟩
  -- 3
  have h3 : s2.step env .worker = .ok (some { s2 with newParams := { s2.params with gtlg := s2.params.lastGlobal }, pc := .snapshotted }) := by
    have : s2.next.length ≠ 0 := by simpa using hne2
    simp [Planner.step, Planner.workerStep, hpc2, this, bind, Except.bind, pure, Except.pure, hne2]
  set s3 : Planner K := { s2 with newParams := { s2.params with gtlg := s2.params.lastGlobal }, pc := .snapshotted } with hs3
  -- 4
  have h4 : ∃ s4, s3.step env .worker = .ok (some s4) ∧ s4.pc = .planned := by
    by_cases hst : s3.checkStitchTrajectory = true
    · obtain ⟨tr, htr⟩ : ∃ tr, s3.traj = some tr := by
        cases ht : s3.traj with
        | none => unfold Planner.checkStitchTrajectory at hst; rw [ht] at hst; cases hst
        | some tr => exact ⟨tr, rfl⟩
      obtain ⟨ws, hws⟩ := stitch_total env s3 tr htr (traj_usable env henv s (reachable_plan env henv s hr) tr (by rw [← hfr2.2.1]; exact htr))
        (by change NoZeroWidth s2.dyn; rw [hfr2.1]; exact hnz) s3.next
      refine ⟨{ s3 with fromScratch := false, next := ws, pc := .planned }, ?_, rfl⟩
      have hp3 : s3.pc = .snapshotted := rfl
      simp only [Planner.step, Planner.workerStep, hp3, hst, if_true, hws, bind, Except.bind, pure, Except.pure]
    · obtain ⟨ws, hws⟩ := appendDrone_total s3 s3.next
      refine ⟨{ s3 with fromScratch := true, next := ws, pc := .planned }, ?_, rfl⟩
      have hp3 : s3.pc = .snapshotted := rfl
      simp only [Planner.step, Planner.workerStep, hp3, hws, bind, Except.bind, pure, Except.pure]
      rw [if_neg hst]
  obtain ⟨s4, h4, hpc4⟩ := h4
  -- 5, 6
  have h5 : s4.step env .worker = .ok (some { s4 with computing := true, pc := .launching }) := by
    simp only [Planner.step, Planner.workerStep, hpc4, bind, Except.bind, pure, Except.pure]
  refine ⟨{ s4 with computing := true, pc := .launched, future := .launched }, ?_, rfl, rfl⟩
  have e6 : (List.replicate 6 .worker : List (Event K)) = ((((([] ++ [.worker]) ++ [.worker]) ++ [.worker]) ++ [.worker]) ++ [.worker]) ++ [.worker] := rfl
  rw [e6]
  exact .snoc _ (.snoc _ (.snoc _ (.snoc _ (.snoc _ (.snoc _ .nil s1) h2) h3) h4) h5) rfl

-- At 3/2 waypoint "b" (time 2) is half a second away and the computation took 1/100 s: outside the zone. At 19/10 (or with a computation
-- time of 1/10 s) inside.
example : (run? (history1 ++ [.evaluate (3 / 2) true false, .appendWaypoint (wp "c" 3 3 3), .worker])).map (·.pc) = some .collect := by
  decide +kernel
example : (run? (history1 ++ [.evaluate (39 / 20) true false, .appendWaypoint (wp "c" 3 3 3), .worker])).map (·.pc) = some .top := by
  decide +kernel

/-! ## C59 -/

theorem sorted_suffix (t : K) (ws : List (Waypoint K)) (h : ws.Pairwise (fun a b => a.time < b.time)) :
    (ws.filter fun w => decide (t < w.time)) <:+ ws := by
  induction ws with
  | nil => exact List.suffix_refl _
  | cons w ws ih =>
    rw [List.pairwise_cons] at h
    by_cases hw : t < w.time
    · have : (w :: ws).filter (fun w => decide (t < w.time)) = w :: ws := by
        rw [List.filter_eq_self]
        intro a ha
        rcases List.mem_cons.mp ha with rfl | ha
        · simpa using hw
        · have := h.1 a ha
          exact decide_eq_true (hw.trans this)
      rw [this]
    · rw [List.filter_cons_of_neg (by simpa using hw)]
      exact (ih h.2).trans (List.suffix_cons _ _)

theorem discount_eq (ws : List (Waypoint K)) :
    Planner.discountStitching ws ws.length = ((ws.dropWhile fun w => w.name = "stitching_point").length : Int) := by
  have key : ∀ (ws : List (Waypoint K)) (n : Int), Planner.discountStitching ws n =
      n - ws.length + ((ws.dropWhile fun w => w.name = "stitching_point").length : Int) := by
    intro ws
    induction ws with
    | nil => intro n; simp [Planner.discountStitching]
    | cons w ws ih =>
      intro n
      unfold Planner.discountStitching
      by_cases hw : w.name = "stitching_point"
      · rw [if_pos hw, ih, List.dropWhile_cons_of_pos (by simpa using hw)]
        push_cast [List.length_cons]; ring
      · rw [if_neg hw, List.dropWhile_cons_of_neg (by simpa using hw)]
        push_cast [List.length_cons]; ring
  rw [key]; ring

theorem check_not_waiting (env : Env K) (s m : Planner K) (hc : Ctl s) (h : s.checkTrajectoryGenerated env = .ok (some m)) : ¬ PlanWaiting m := by
  have hc0 := h
  rcases check_micro env .getMaxTime s m (Or.inr (Or.inl rfl)) h with rfl | hm
  · intro hw
    have hcomp : m.computing = true := by
      cases hcc : m.computing with
      | true => rfl
      | false =>
        have := hc.idle hcc
        rcases hw with hw | ⟨tr, hw⟩ <;> rw [this] at hw <;> cases hw
    unfold Planner.checkTrajectoryGenerated at hc0
    have hready : m.future.isReady = true ∧ m.future.valid = true := by
      rcases hw with hw | ⟨tr, hw⟩ <;> rw [hw] <;> exact ⟨rfl, rfl⟩
    rw [if_neg (by simp [hready.1]), if_pos (by simp [hready.1, hready.2, hcomp])] at hc0
    simp only [bind, Except.bind] at hc0
    cases hsw : m.swapTrajectory env with
    | error e => rw [hsw] at hc0; cases hc0
    | ok s1 =>
      rw [hsw] at hc0
      have := Option.some.inj (Except.ok.inj hc0)
      rw [← this] at hcomp
      cases hcomp
  · cases hm with
    | takeOver _ _ new off hcomp hr he hfit =>
      rintro (hw | ⟨tr, hw⟩) <;> cases hw

/-- C59: after an evaluation at `t`, `getNextTrajectoryWaypoints` returns exactly those waypoints of `getDynamicWaypoints` whose time is
later than `t`, in order (they are the last ones); `getRemainingWaypoints` counts them without the leading stitching points. -/
theorem C59_next (env : Env K) (henv : Segmentwise env) (s s' : Planner K) (h : Reachable env s) (t : K) (o : Bool) (r : References K)
    (hev : s.evaluateTrajectory env t o false = .ok (some (r, s'))) :
    ∃ ws, s'.getDynamicWaypoints env = .ok (some (ws, s')) ∧
      s'.getNextTrajectoryWaypoints = ws.filter (fun w => t < w.time) ∧ s'.getNextTrajectoryWaypoints <:+ ws ∧
      s'.getRemainingWaypoints = ((ws.filter (fun w => t < w.time)).dropWhile (fun w => w.name = "stitching_point")).length := by
  have hstep := evaluate_step env s s' t o false r hev
  obtain ⟨r', m, _, hchk, hn⟩ := step_evaluate env s s' t o false hstep
  obtain ⟨hmt, hs'⟩ := evaluateNow_inv env m s' t o false r' hn
  have hr' : Reachable env s' := reachableBy_step _ env s s' (.evaluate t o false) h trivial hstep
  have hnw : ¬ PlanWaiting s' := by
    have := check_not_waiting env s m (reachable_ctl env s h) hchk
    rw [hs']; exact this
  have htr : s'.traj ≠ none := by rw [hs']; exact hmt
  have hL : s'.params.lastGlobal = t := by rw [hs']; rfl
  have hnext : s'.getNextTrajectoryWaypoints = (s'.dyn.map (·.copy)).filter (fun w => t < w.time) := by
    unfold Planner.getNextTrajectoryWaypoints
    rw [List.filter_map, hL]
    rfl
  refine ⟨s'.dyn.map (·.copy), ?_, hnext, ?_, ?_⟩
  · unfold Planner.getDynamicWaypoints
    rw [check_idle env s' hnw htr]
    rfl
  · rw [hnext]
    apply sorted_suffix
    cases ht : s'.traj with
    | none => exact absurd ht htr
    | some tr =>
      have hp := reachable_plan env henv s' hr'
      have := timed_sorted tr (traj_usable env henv s' hp tr ht) _ _ (hp.taken tr ht).1
      rw [List.pairwise_map]
      exact this
  · unfold Planner.getRemainingWaypoints
    simp only
    rw [discount_eq, hnext]

/-- C59, continued: after an evaluation at or after the end of the plan nothing remains. -/
theorem C59_after_end (env : Env K) (henv : Segmentwise env) (s s' : Planner K) (h : Reachable env s) (t : K) (o : Bool) (r : References K)
    (hev : s.evaluateTrajectory env t o false = .ok (some (r, s'))) (T : K) (hT : s'.getMaxTime env = .ok (some (T, s'))) (hle : T ≤ t) :
    s'.getNextTrajectoryWaypoints = [] ∧ s'.getRemainingWaypoints = 0 := by
  have hstep := evaluate_step env s s' t o false r hev
  obtain ⟨r', m, _, hchk, hn⟩ := step_evaluate env s s' t o false hstep
  obtain ⟨hmt, hs'⟩ := evaluateNow_inv env m s' t o false r' hn
  have hr' : Reachable env s' := reachableBy_step _ env s s' (.evaluate t o false) h trivial hstep
  have htr : s'.traj ≠ none := by rw [hs']; exact hmt
  have hL : s'.params.lastGlobal = t := by rw [hs']; rfl
  have hnil : s'.getNextTrajectoryWaypoints = [] := by
    cases ht : s'.traj with
    | none => exact absurd ht htr
    | some tr =>
      rw [getMaxTime_eq env s' tr ht] at hT
      have hT' := (Prod.mk.inj (Option.some.inj (Except.ok.inj hT))).1
      have hp := reachable_plan env henv s' hr'
      unfold Planner.getNextTrajectoryWaypoints
      rw [List.map_eq_nil_iff, List.filter_eq_nil_iff]
      intro w hw
      have := (timed_le tr (traj_usable env henv s' hp tr ht) _ _ (hp.taken tr ht).1 w hw).2
      simp only [decide_eq_true_eq]
      rw [hL, gt_iff_lt, not_lt]
      linarith
  refine ⟨hnil, ?_⟩
  unfold Planner.getRemainingWaypoints
  simp only
  rw [hnil]; rfl

-- At 3/2 "b" remains; in the stitched plan of `history9` three waypoints remain, with a stitching point before them.
example : (run? (history1 ++ [.evaluate (3 / 2) true false])).map (fun s => (s.getNextTrajectoryWaypoints.map (·.name), s.getRemainingWaypoints)) =
    some (["b"], 1) := by decide +kernel
example : (run? (history9 ++ [.getDynamicWaypoints, .evaluate 1 true false])).map
    (fun s => (s.getNextTrajectoryWaypoints.map (·.name), s.getRemainingWaypoints)) =
    some (["stitching_point", "a", "b", "c"], 3) := by decide +kernel
example : (run? (history1 ++ [.evaluate 3 true false])).map (fun s => (s.getNextTrajectoryWaypoints.map (·.name), s.getRemainingWaypoints)) =
    some ([], 0) := by decide +kernel

/-! ## C60 -/

theorem regenerated_micro (env : Env K) (g : Requests K) (e : Event K) (s s' : Planner K) (htr : Tracks g s) (h : Micro env e s s')
    (hne : e ≠ .getWasTrajectoryRegenerated) :
    s'.regenerated = true ↔ s.regenerated = true ∨ TakesOver s s' ∨ UpdatesPlan g.updates s e := by
  have other : s'.regenerated = s.regenerated → s'.computing = s.computing ∨ s'.computing = true → ¬ Applies s e →
      (s'.regenerated = true ↔ s.regenerated = true ∨ TakesOver s s' ∨ UpdatesPlan g.updates s e) := by
    intro h1 h2 h3
    rw [h1]
    constructor
    · exact Or.inl
    · rintro (h | ⟨ha, hb⟩ | h)
      · exact h
      · rcases h2 with h2 | h2
        · rw [h2, ha] at hb; cases hb
        · rw [h2] at hb; cases hb
      · exact absurd h.1 h3
  cases h with
  | takeOver _ _ new off hc hr he hfit => simp only [true_iff]; exact Or.inr (Or.inl ⟨hc, rfl⟩)
  | clearRegenerated _ => exact absurd rfl hne
  | apply _ s2 hp ha =>
    obtain ⟨_, hreg⟩ := applyAll_exact s.toModify htr.nodup s s2 ha
    obtain ⟨_, d, r, hs2, _⟩ := applyAll_rel (fun _ _ => True) (fun _ => trivial) (fun _ _ _ _ _ => trivial)
      (fun _ _ _ _ _ => trivial) _ s s2 ha
    change s2.regenerated = true ↔ _
    rw [hreg]
    have hto : ¬ TakesOver s { s2 with toModify := [], pc := .top } := by
      rintro ⟨h1, h2⟩
      rw [hs2] at h2
      rw [show s.computing = false from h2] at h1
      cases h1
    have hiff : (∃ w ∈ s.dyn, w.name ≠ "" ∧ lookupMod w.name s.toModify ≠ none) ↔ UpdatesPlan g.updates s .worker := by
      unfold UpdatesPlan
      have hmem : ∀ n, lookupMod n s.toModify ≠ none ↔ ∃ u ∈ g.updates, u.1 = n := by
        intro n
        rw [htr.lookup]
        unfold lastUpdate
        rw [ne_eq, Option.map_eq_none_iff, List.getLast?_eq_none_iff, List.filter_eq_nil_iff]
        simp only [decide_eq_true_eq]
        push Not
        rfl
      constructor
      · rintro ⟨w, hw, hn, hl⟩
        obtain ⟨u, hu, hun⟩ := (hmem w.name).mp hl
        exact ⟨⟨rfl, hp⟩, u, hu, w, hw, hun.symm, hn⟩
      · rintro ⟨_, u, hu, w, hw, hun, hn⟩
        exact ⟨w, hw, hn, (hmem w.name).mpr ⟨u, hu, hun.symm⟩⟩
    rw [hiff]
    tauto
  | planned _ hp => exact other rfl (Or.inr rfl) (fun h => by have := h.2; rw [hp] at this; cases this)
  | goCollect _ hp hg hz hc => exact other rfl (Or.inl rfl) (fun h => by have := h.2; rw [hp] at this; cases this)
  | goApply _ hp hm hc hno => exact other rfl (Or.inl rfl) (fun h => by have := h.2; rw [hp] at this; cases this)
  | collect _ ws hp hw => exact other rfl (Or.inl rfl) (fun h => by have := h.2; rw [hp] at this; cases this)
  | nothingToPlan _ hp hn => exact other rfl (Or.inl rfl) (fun h => by have := h.2; rw [hp] at this; cases this)
  | snapshot _ hp hn => exact other rfl (Or.inl rfl) (fun h => by have := h.2; rw [hp] at this; cases this)
  | stitch _ ws hp hs hw => exact other rfl (Or.inl rfl) (fun h => by have := h.2; rw [hp] at this; cases this)
  | scratch _ ws hp hs hw => exact other rfl (Or.inl rfl) (fun h => by have := h.2; rw [hp] at this; cases this)
  | launch _ hp => exact other rfl (Or.inl rfl) (fun h => by have := h.2; rw [hp] at this; cases this)
  | launched _ hp => exact other rfl (Or.inl rfl) (fun h => by have := h.2; rw [hp] at this; cases this)
  | _ => exact other rfl (Or.inl rfl) (fun h => by cases h.1)

theorem regenerated_step (env : Env K) (g : Requests K) (e : Event K) (s s' : Planner K) (htr : Tracks g s)
    (h : s.step env e = .ok (some s')) (hne : e ≠ .getWasTrajectoryRegenerated) :
    s'.regenerated = true ↔ s.regenerated = true ∨ TakesOver s s' ∨ UpdatesPlan g.updates s e := by
  rcases step_micro' env e s s' h with ⟨rfl, hidle⟩ | hm | ⟨m, ⟨t, o, rfl⟩, h1, h2⟩
  · constructor
    · exact Or.inl
    · rintro (h | h | h)
      · exact h
      · exact absurd (h.1.symm.trans h.2) (by decide)
      · have := (hidle h.1.1).1
        rw [h.1.2] at this; cases this
  · exact regenerated_micro env g e s s' htr hm hne
  · have hm := regenerated_micro env g _ s m htr h1 hne
    have hnu : ∀ us s, ¬ UpdatesPlan us s (.evaluate t o false : Event K) := fun us s h => by cases h.1.1
    cases h2 with
    | evalTime _ _ _ ht =>
      change m.regenerated = true ↔ s.regenerated = true ∨ (s.computing = true ∧ m.computing = false) ∨ _
      exact hm
    | takeOver _ _ new off hc hr he hfit =>
      simp only [true_iff]
      right; left
      refine ⟨?_, rfl⟩
      cases h1 with
      | takeOver _ _ new' off' hc' hr' he' hfit' => exact hc'
      | evalTime _ _ _ ht => exact hc

theorem runF_runR (env : Env K) (s0 : Planner K) (es : List (Event K)) (g : Requests K) (b : Prop) (s : Planner K)
    (h : RunF env s0 es g b s) : RunR env s0 es g s := by
  induction h with
  | nil => exact .nil
  | read _ hs ih => exact .snoc _ ih hs
  | other e _ _ hs ih => exact .snoc _ ih hs

/-- C60, for calls that are not interrupted: `getWasTrajectoryRegenerated` returns true exactly if a plan was taken over or an update was
applied to a named waypoint of the current plan since the previous call. -/
theorem C60_sequential (env : Env K) (v : V3 K) (es : List (Event K)) (g : Requests K) (b : Prop) (s : Planner K)
    (h : RunF env (Planner.init v) es g b s) : s.getWasTrajectoryRegenerated.1 = true ↔ b := by
  induction h with
  | nil => simp [Planner.getWasTrajectoryRegenerated, Planner.init]
  | read _ hs ih =>
    have := Option.some.inj (Except.ok.inj hs)
    rw [← this]
    simp [Planner.getWasTrajectoryRegenerated]
  | other e hrun hne hs ih =>
    have ht := runR_tracks env v _ _ _ (runF_runR _ _ _ _ _ _ hrun)
    have := regenerated_step env _ e _ _ ht hs hne
    unfold Planner.getWasTrajectoryRegenerated at ih ⊢
    simp only at ih ⊢
    rw [this, ih]

/-- C60, in particular: no change of the current plan's waypoints goes unreported. -/
theorem C60_no_silent_change (env : Env K) (v : V3 K) (es : List (Event K)) (s s' : Planner K) (h : Run env (Planner.init v) es s) (e : Event K)
    (hs : s.step env e = .ok (some s')) (hd : s'.dyn ≠ s.dyn) : s'.getWasTrajectoryRegenerated.1 = true := by
  obtain ⟨g, hg⟩ := run_runR _ _ _ _ h
  have htr := runR_tracks _ _ _ _ _ hg
  have key : ∀ s', Micro env e s s' → s'.dyn ≠ s.dyn → s'.regenerated = true := by
    intro s' hm hd
    cases hm with
    | takeOver _ _ new off hc hr he hfit => rfl
    | apply _ s2 hp ha =>
      obtain ⟨hf, hreg⟩ := applyAll_exact s.toModify htr.nodup s s2 ha
      change s2.regenerated = true
      rw [hreg]
      right
      by_contra hno
      push Not at hno
      apply hd
      change s2.dyn = s.dyn
      have : List.Forall₂ (fun a b => b = a) s.dyn s2.dyn := by
        refine forall2_imp_mem hf ?_
        intro a ha b hab
        rcases hab with ⟨_, hb⟩ | ⟨hn, ⟨_, hb⟩ | ⟨p, hl, _⟩⟩
        · exact hb
        · exact hb
        · have := hno a ha hn; rw [hl] at this; cases this
      have := forall2_map_eq (f := id) (f' := id) (fun a b h => h) this
      simpa using this
    | _ => exact absurd rfl hd
  unfold Planner.getWasTrajectoryRegenerated
  simp only
  rcases step_micro' env e s s' hs with ⟨rfl, _⟩ | hm | ⟨m, ⟨t, o, rfl⟩, h1, h2⟩
  · exact absurd rfl hd
  · exact key s' hm hd
  · cases h2 with
    | takeOver _ _ new off hc hr he hfit => rfl
    | evalTime _ _ _ ht => exact key m h1 hd

-- True after the first plan, false after that was read, true again after an update of "b" was applied, false after one for an unknown name.
example : (run? history1).map (·.getWasTrajectoryRegenerated.1) = some true := by decide +kernel
example : (run? (history1 ++ [.getWasTrajectoryRegenerated])).map (·.getWasTrajectoryRegenerated.1) = some false := by decide +kernel
example : (run? (history1 ++ [.getWasTrajectoryRegenerated, .modifyWaypoint "b" ⟨2, 2, 0⟩ false, .worker, .worker])).map
    (·.getWasTrajectoryRegenerated.1) = some true := by decide +kernel
example : (run? (history1 ++ [.getWasTrajectoryRegenerated, .modifyWaypoint "x" ⟨2, 2, 0⟩ false, .worker, .worker])).map
    (fun s => (s.getWasTrajectoryRegenerated.1, s.toModify.length)) = some (false, 0) := by decide +kernel

end
end Verif.Properties
