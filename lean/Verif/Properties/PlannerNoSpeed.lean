import Verif.Properties.PlannerOptimiser
import Verif.Properties.PlannerSetSpeed

/-!
# Property C127: a plan needs a positive speed
-/

set_option linter.unusedSectionVars false

namespace Verif.Properties
open Verif Verif.Spec Verif.Lemmas OptBackend

/-- At least two well-formed vertices of dimension three with a position each. -/
def Vertices3 (vs : List (Vertex ℝ)) : Prop := 2 ≤ vs.length ∧ ∀ v ∈ vs, WellFormed v ∧ v.D = 3 ∧ ∃ p, v.getConstraint 0 = some p

theorem vsub_ok3 {v w : Vertex ℝ} (hv : WellFormed v ∧ v.D = 3 ∧ ∃ p, v.getConstraint 0 = some p) (hw : WellFormed w ∧ w.D = 3 ∧ ∃ p, w.getConstraint 0 = some p) :
    ∃ d, vsub ((w.getConstraint 0).getD []) ((v.getConstraint 0).getD []) = .ok d := by
  obtain ⟨a1, a2, p, hp⟩ := hv
  obtain ⟨b1, b2, q, hq⟩ := hw
  rw [hp, hq]
  refine ⟨_, if_pos ?_⟩
  simp only [Option.getD_some]
  rw [constraint_length a1 hp, constraint_length b1 hq, a2, b2]

theorem estimate_zero (aMax : ℝ) (vs : List (Vertex ℝ)) (hv : Vertices3 vs) : estimateSegmentTimes vs 0 aMax = .error .nonfinite := by
  obtain ⟨hn, hv⟩ := hv
  unfold estimateSegmentTimes
  rw [if_neg (by omega)]
  match vs, hn, hv with
  | v :: w :: l, _, hv =>
    obtain ⟨d, hd⟩ := vsub_ok3 (hv v (by simp)) (hv w (by simp))
    unfold nfabianLoop nfabianTime
    simp only [bind, Except.bind]
    rw [hd]
    simp

theorem estimate_negative (speed aMax : ℝ) (hs : speed < 0) (hA : 0 < aMax) (vs : List (Vertex ℝ))
    (hv : ∀ v ∈ vs, WellFormed v ∧ v.D = 3 ∧ ∃ p, v.getConstraint 0 = some p) :
    ∃ ts, nfabianLoop speed aMax vs = .ok ts ∧ ts.length = vs.length - 1 ∧ ∀ t ∈ ts, t ≤ 0 := by
  induction vs with
  | nil => exact ⟨[], rfl, rfl, by simp⟩
  | cons v vs ih =>
    cases vs with
    | nil => exact ⟨[], rfl, rfl, by simp⟩
    | cons w vs =>
      obtain ⟨ts, h1, h2, h3⟩ := ih (fun x hx => hv x (by simp [hx]))
      obtain ⟨d, hd⟩ := vsub_ok3 (hv v (by simp)) (hv w (by simp))
      have hn : vnorm d / speed ≤ 0 := div_nonpos_of_nonneg_of_nonpos (Real.sqrt_nonneg _) hs.le
      have ha : speed / aMax ≤ 0 := (div_neg_of_neg_of_pos hs hA).le
      obtain ⟨t, ht, ht0⟩ : ∃ t, nfabianTime v w speed aMax = .ok t ∧ t ≤ 0 := by
        unfold nfabianTime
        simp only [bind, Except.bind]
        rw [hd]
        simp only
        rw [if_neg hs.ne]
        by_cases hr : (slowEnd v || slowEnd w) = true
        · rw [if_pos hr, if_neg hA.ne']
          exact ⟨_, rfl, by linarith⟩
        · rw [if_neg hr]
          exact ⟨_, rfl, hn⟩
      refine ⟨t :: ts, ?_, by simp [h2], ?_⟩
      · unfold nfabianLoop
        rw [ht, h1]
        rfl
      · intro x hx
        rcases List.mem_cons.mp hx with rfl | hx
        · exact ht0
        · exact h3 x hx

theorem optimize_zero (b : OptBackend) (lineal : Bool) (vs : List (Vertex ℝ)) (hv : Vertices3 vs) :
    (b.env lineal).optimize vs 0 = .error .nonfinite := by
  cases lineal with
  | true =>
    show b.linear vs 0 = _
    unfold linear
    rw [estimate_zero b.aMax vs hv]
    rfl
  | false =>
    show b.nonlinear vs 0 = _
    unfold nonlinear prepare
    rw [estimate_zero b.aMax vs hv]
    rfl

theorem optimize_negative (b : OptBackend) (hA : 0 < b.aMax) (lineal : Bool) (vs : List (Vertex ℝ)) (hv : Vertices3 vs) (speed : ℝ) (hs : speed < 0) :
    (b.env lineal).optimize vs speed = .error .check := by
  obtain ⟨hn, hv⟩ := hv
  obtain ⟨ts, e, hl, ht⟩ := estimate_negative speed b.aMax hs hA vs hv
  have e : estimateSegmentTimes vs speed b.aMax = .ok ts := by
    unfold estimateSegmentTimes
    rw [if_neg (by omega), e]
  obtain ⟨t, hmem⟩ : ∃ t, t ∈ ts := List.exists_mem_of_length_pos (by omega)
  have hbad : (LinOpt.init 5 ℝ 3).setupFromVertices vs ts 2 = .error .check :=
    C28_positive_checked (solve := b.solve) none _ .new ⟨vs, ts, 2⟩ (by omega) (fun v h => (hv v h).1) ⟨show (0 : Int) ≤ 2 by decide, show (2 : Int) < 5 by decide⟩
      (show vs.length = ts.length + 1 by omega)
      (fun v hm k c _ hc => by
        obtain ⟨h1, h2, _⟩ := hv v hm
        exact (constraint_length h1 hc).trans h2)
      (fun t h => .inl (ht t h)) ⟨t, hmem, ht t hmem⟩
  cases lineal with
  | true =>
    show b.linear vs speed = .error .check
    unfold linear
    rw [e]
    simp only [bind, Except.bind]
    rw [hbad]
  | false =>
    show b.nonlinear vs speed = .error .check
    unfold nonlinear prepare
    rw [e]
    simp only [bind, Except.bind, NonLin.setupFromVertices]
    rw [show (NonLin.init 5 3 OptBackend.params).poly = LinOpt.init 5 ℝ 3 from rfl, hbad]

/-- The vertices of a running computation. -/
theorem running_vertices (env : Env ℝ) (s : Planner ℝ) (h : Reachable env s) (speed : ℝ) (hf : s.future = .running speed) :
    ∃ vs, extractVertices s.next = .ok vs ∧ Vertices3 vs := by
  have hc : s.computing = true := by
    by_contra hh
    rw [(reachable_ctl env s h).idle (by simpa using hh)] at hf
    cases hf
  obtain ⟨vs, hvs, h2⟩ := C42_two_vertices env s h hc
  have hb := (reachable_wp env s h).next
  refine ⟨vs, hvs, h2, ?_⟩
  intro v hv
  obtain ⟨h3, h4⟩ := extractVertices_wellFormed s.next vs hvs hb v hv
  refine ⟨h3, h4, ?_⟩
  obtain ⟨i, hi, rfl⟩ := List.mem_iff_getElem.mp hv
  have hlen := (extractVertices_form s.next vs hvs).1
  obtain ⟨v', hv', hcon, _⟩ := extractVertices_position s.next vs hvs hb i _ (List.getElem?_eq_getElem (show i < s.next.length by omega))
  rw [List.getElem?_eq_getElem hi] at hv'
  rw [Option.some.inj hv', hcon 0 (.inr ⟨by decide, by decide⟩)]
  exact ⟨_, (hb _ (List.getElem_mem _)).2.2.1⟩

/-- C127: a computation that began with a speed which is not positive does not give a plan: with the speed zero (the value before the first `setSpeed`) it goes
on with values that are not finite, with a negative speed it aborts the process. -/
theorem C127_computation (b : OptBackend) (hA : 0 < b.aMax) (lineal : Bool) (s : Planner ℝ) (h : Reachable (b.env lineal) s) (speed : ℝ)
    (hf : s.future = .running speed) (dt : ℝ) :
    (speed = 0 → s.step (b.env lineal) (.asyncFinish dt) = .error .nonfinite) ∧ (speed < 0 → s.step (b.env lineal) (.asyncFinish dt) = .error .check) := by
  obtain ⟨vs, hvs, hv⟩ := running_vertices _ s h speed hf
  have key : ∀ e, (b.env lineal).optimize vs speed = .error e → s.computeTrajectory (b.env lineal) speed = .error e := by
    intro e he
    unfold Planner.computeTrajectory
    rw [hvs]
    simp only [bind, Except.bind]
    rw [if_neg (by have := hv.1; omega), he]
  constructor
  · rintro rfl
    show s.asyncFinish _ dt = _
    unfold Planner.asyncFinish
    rw [hf]
    simp only
    rw [key _ (optimize_zero b lineal vs hv)]
  · intro hs
    show s.asyncFinish _ dt = _
    unfold Planner.asyncFinish
    rw [hf]
    simp only
    rw [key _ (optimize_negative b hA lineal vs hv speed hs)]

/-- A computation of the history began while the speed set last was positive. -/
def StartedWithSpeed (es : List (Event ℝ)) : Prop := ∃ es1 es2 v, es = es1 ++ .asyncStart :: es2 ∧ (speedsSet es1).getLast? = some v ∧ 0 < v

theorem StartedWithSpeed.more {es : List (Event ℝ)} (h : StartedWithSpeed es) (e : Event ℝ) : StartedWithSpeed (es ++ [e]) := by
  obtain ⟨es1, es2, v, rfl, h⟩ := h
  exact ⟨es1, es2 ++ [e], v, by simp, h⟩

theorem noSpeed_micro (b : OptBackend) (hA : 0 < b.aMax) (lineal : Bool) (e : Event ℝ) (s s' : Planner ℝ)
    (hrun : ∀ dt, e = .asyncFinish dt → ∀ sp, s.future = .running sp → Reachable (b.env lineal) s ∧ sp ≤ 0)
    (hi : s.traj = none ∧ s.future.isReady = false) (hm : Micro (b.env lineal) e s s') : s'.traj = none ∧ s'.future.isReady = false := by
  obtain ⟨h1, h2⟩ := hi
  have hno : ∀ sp dt, e = .asyncFinish dt → s.future = .running sp → s.step (b.env lineal) (.asyncFinish dt) = .error .nonfinite ∨
      s.step (b.env lineal) (.asyncFinish dt) = .error .check := by
    intro sp dt he hf
    obtain ⟨hr, hsp⟩ := hrun dt he sp hf
    rcases hsp.eq_or_lt with h0 | h0
    · exact .inl ((C127_computation b hA lineal s hr sp hf dt).1 h0)
    · exact .inr ((C127_computation b hA lineal s hr sp hf dt).2 h0)
  cases hm with
  | takeOver _ _ new off hcomp hr _ _ => rw [hr] at h2; cases h2
  | launch _ hp => exact ⟨h1, rfl⟩
  | apply _ s2 hp ha =>
    obtain ⟨_, d, r, rfl, _⟩ := applyAll_rel (fun _ _ => True) (fun _ => trivial) (fun _ _ _ _ _ => trivial) (fun _ _ _ _ _ => trivial) _ s s2 ha
    exact ⟨h1, h2⟩
  | asyncStart _ hf => exact ⟨h1, rfl⟩
  | asyncFinish _ dt sp traj ws hf hcomp =>
    have hok : s.step (b.env lineal) (.asyncFinish dt) = .ok (some { s with next := ws, timeConstant := dt, future := .ready traj }) := by
      show s.asyncFinish _ dt = _
      unfold Planner.asyncFinish
      rw [hf]
      simp only
      rw [hcomp]
    rcases hno sp dt rfl hf with h | h <;> rw [hok] at h <;> cases h
  | asyncFail _ dt sp hf hcomp =>
    have hok : s.step (b.env lineal) (.asyncFinish dt) = .ok (some { s with future := .failed }) := by
      show s.asyncFinish _ dt = _
      unfold Planner.asyncFinish
      rw [hf]
      simp only
      rw [hcomp]
    rcases hno sp dt rfl hf with h | h <;> rw [hok] at h <;> cases h
  | _ => exact ⟨h1, h2⟩

theorem noSpeed_run (b : OptBackend) (hA : 0 < b.aMax) (lineal : Bool) (vehicle : V3 ℝ) (es : List (Event ℝ)) (s : Planner ℝ)
    (h : Run (b.env lineal) (Planner.init vehicle) es s) (hv : ∀ e ∈ es, ValidEvent e) (hn : ¬ StartedWithSpeed es) :
    s.traj = none ∧ s.future.isReady = false := by
  have key : Run (b.env lineal) (Planner.init vehicle) es s ∧ ((∀ e ∈ es, ValidEvent e) → ¬ StartedWithSpeed es → s.traj = none ∧ s.future.isReady = false) := by
    refine run_induction (b.env lineal) (Planner.init vehicle) (fun es s => Run (b.env lineal) (Planner.init vehicle) es s ∧
      ((∀ e ∈ es, ValidEvent e) → ¬ StartedWithSpeed es → s.traj = none ∧ s.future.isReady = false)) ⟨.nil, fun _ _ => ⟨rfl, rfl⟩⟩ ?_ es s h
    rintro es e s s' ⟨hr, hi⟩ hs
    refine ⟨.snoc e hr hs, fun hv hn => ?_⟩
    have hv' : ∀ e ∈ es, ValidEvent e := fun x hx => hv x (by simp [hx])
    have hn' : ¬ StartedWithSpeed es := fun hh => hn (hh.more e)
    have hi := hi hv' hn'
    have hrun : ∀ dt, e = .asyncFinish dt → ∀ sp, s.future = .running sp → Reachable (b.env lineal) s ∧ sp ≤ 0 := by
      intro _ _ sp hf
      refine ⟨⟨vehicle, es, hv', hr⟩, ?_⟩
      obtain ⟨es1, es2, k1, _, k3⟩ := (speedInv_run _ vehicle es s hr).2.2.running sp hf
      by_contra hpos
      refine hn' ⟨es1, es2, sp, k1, ?_, by linarith⟩
      cases hl : (speedsSet es1).getLast? with
      | none => rw [hl] at k3; simp only [Option.getD_none] at k3; linarith
      | some v => rw [hl] at k3; simp only [Option.getD_some] at k3; rw [k3]
    rcases step_micro' _ e s s' hs with ⟨rfl, _⟩ | hm | ⟨m, ⟨t, o, rfl⟩, h1, h2⟩
    · exact hi
    · exact noSpeed_micro b hA lineal e s s' hrun hi hm
    · have hm := noSpeed_micro b hA lineal _ s m hrun hi h1
      exact noSpeed_micro b hA lineal _ m s' (fun dt he => by cases he) hm h2
  exact key.2 hv hn

/-- C127: every plan in force was computed because a computation began while the speed set last was positive. -/
theorem C127_positive (b : OptBackend) (hA : 0 < b.aMax) (lineal : Bool) (vehicle : V3 ℝ) (es : List (Event ℝ)) (hv : ∀ e ∈ es, ValidEvent e) (s : Planner ℝ)
    (h : Run (b.env lineal) (Planner.init vehicle) es s) (tr : Trajectory ℝ) (htr : s.traj = some tr) :
    ∃ es1 es2 v, es = es1 ++ .asyncStart :: es2 ∧ (speedsSet es1).getLast? = some v ∧ 0 < v := by
  by_contra hn
  rw [(noSpeed_run b hA lineal vehicle es s h hv hn).1] at htr
  cases htr

/-- C127: as long as no positive speed has been set, every call that needs a plan waits. -/
theorem C127_waits (b : OptBackend) (hA : 0 < b.aMax) (lineal : Bool) (vehicle : V3 ℝ) (es : List (Event ℝ)) (hv : ∀ e ∈ es, ValidEvent e) (s : Planner ℝ)
    (h : Run (b.env lineal) (Planner.init vehicle) es s) (hs : ∀ v ∈ speedsSet es, v ≤ 0) :
    (∀ t o f, s.evaluateTrajectory (b.env lineal) t o f = .ok none) ∧ s.getMaxTime (b.env lineal) = .ok none ∧ s.getMinTime (b.env lineal) = .ok none ∧
      s.getDynamicWaypoints (b.env lineal) = .ok none := by
  have hn : ¬ StartedWithSpeed es := by
    rintro ⟨es1, es2, v, rfl, h1, h2⟩
    have := hs v (by
      have := List.mem_of_getLast? h1
      unfold speedsSet at *
      rw [List.filterMap_append]
      exact List.mem_append_left _ this)
    linarith
  obtain ⟨h1, h2⟩ := noSpeed_run b hA lineal vehicle es s h hv hn
  have hc : s.checkTrajectoryGenerated (b.env lineal) = .ok none := by
    unfold Planner.checkTrajectoryGenerated
    rw [h1, h2]
    rfl
  have he : s.ensureTrajectory (b.env lineal) = .ok none := by
    unfold Planner.ensureTrajectory
    rw [h1, hc]
    rfl
  refine ⟨fun t o f => ?_, ?_, ?_, ?_⟩
  · unfold Planner.evaluateTrajectory; rw [hc]; rfl
  · unfold Planner.getMaxTime; rw [he]; rfl
  · unfold Planner.getMinTime; rw [he]; rfl
  · unfold Planner.getDynamicWaypoints; rw [hc]; rfl

/-- A waypoint as a user makes one. -/
noncomputable def realWp (name : String) (x y z : ℝ) : Waypoint ℝ :=
  { vertex := ⟨3, [(0, [x, y, z])]⟩, original := ⟨x, y, z⟩, current := ⟨x, y, z⟩, time := 0, name := name, index := -1, modifiers := [],
    lastSigma := 3 / 2 }

theorem realWp_bookkept (name : String) (x y z : ℝ) : Bookkept (realWp name x y z) := by
  refine ⟨rfl, ⟨by simp [realWp], by simp [realWp]⟩, rfl, fun _ => rfl, by simp [realWp], ?_⟩
  intro a; simp [realWp]

/-- A waypoint is given and no speed is set. The worker launches a computation, which begins. -/
theorem noSpeed_sample (env : Env ℝ) : ∃ s, Run env (Planner.init ⟨0, 0, 0⟩) ([.setWaypoints [realWp "a" 1 2 3]] ++ [.worker] ++ [.worker] ++ [.worker] ++ [.worker] ++
    [.worker] ++ [.worker] ++ [.worker] ++ [.asyncStart]) s ∧ s.future = .running 0 :=
  ⟨_, .snoc _ (.snoc _ (.snoc _ (.snoc _ (.snoc _ (.snoc _ (.snoc _ (.snoc _ (.snoc (es := []) _ .nil rfl) rfl) rfl) rfl) rfl) rfl) rfl) rfl) rfl, rfl⟩

/-- The hypotheses are met: the computation began with the speed zero, it does not give a plan, and evaluations wait. -/
example : ∃ s, Reachable (sampleBackend.env false) s ∧ s.future = .running 0 ∧
    s.step (sampleBackend.env false) (.asyncFinish 1) = .error .nonfinite ∧ s.evaluateTrajectory (sampleBackend.env false) 5 false false = .ok none := by
  obtain ⟨s, hr, hf⟩ := noSpeed_sample (sampleBackend.env false)
  have hv : ∀ e ∈ ([.setWaypoints [realWp "a" 1 2 3]] ++ [.worker] ++ [.worker] ++ [.worker] ++ [.worker] ++ [.worker] ++ [.worker] ++ [.worker] ++
      [.asyncStart] : List (Event ℝ)), ValidEvent e := by
    simp [ValidEvent, realWp_bookkept]
  refine ⟨s, ⟨_, _, hv, hr⟩, hf, (C127_computation sampleBackend one_pos false s ⟨_, _, hv, hr⟩ 0 hf 1).1 rfl, ?_⟩
  exact (C127_waits sampleBackend one_pos false _ _ hv s hr (by simp [speedsSet])).1 5 false false

end Verif.Properties
