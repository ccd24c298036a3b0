import Verif.Model.ComputeTrajectory
import Verif.Properties.NonlinearMellinger
import Verif.Properties.NonlinearHard
import Verif.Properties.SegmentTimes
import Verif.Properties.PlannerPlan
import Verif.Spec.PlannerFloat

/-!
# Property C85: the planner's optimiser meets the contract the planner theorems assume
-/

set_option linter.unusedSectionVars false

namespace Verif.Properties

open Verif Spec Lemmas LinOpt NonLin OptBackend

variable {solve : LinSolver ℝ}

/-- A solved object for the vertices `vs`, as the planner uses it. -/
def SolvedFor (solve : LinSolver ℝ) (vs : List (Vertex ℝ)) (p : LinOpt 5 ℝ) : Prop :=
  ∃ ts, Solved 5 3 solve ⟨vs, ts, 2⟩ p

theorem linear_solved (b : OptBackend) (vs : List (Vertex ℝ)) (speed : ℝ) (tr : Trajectory ℝ) (h : b.linear vs speed = .ok tr) :
    ∃ p, SolvedFor b.solve vs p ∧ p.getTrajectory = .ok tr := by
  unfold linear at h
  obtain ⟨ts, _, h⟩ := bind_eq_ok h
  obtain ⟨o, h1, h⟩ := bind_eq_ok h
  obtain ⟨o', h2, h⟩ := bind_eq_ok h
  exact ⟨o', ⟨ts, o, .setup ⟨vs, ts, 2⟩ .new h1, .inr h2⟩, h⟩

theorem prepare_history (b : OptBackend) (vs : List (Vertex ℝ)) (speed : ℝ) (o : NonLin 5) (h : b.prepare vs speed = .ok o) :
    ∃ ts, estimateSegmentTimes vs speed b.aMax = .ok ts ∧ NLHistory 5 3 b.rf b.solve (some ⟨vs, ts, 2⟩) o ∧ o.params = OptBackend.params ∧
      o.constraints = [⟨1, speed⟩, ⟨2, b.aMax⟩] := by
  unfold prepare at h
  obtain ⟨ts, h0, h⟩ := bind_eq_ok h
  obtain ⟨o1, h1, h⟩ := bind_eq_ok h
  obtain ⟨o2, h2, h⟩ := bind_eq_ok h
  obtain ⟨o3, h3, h⟩ := bind_eq_ok h
  have hh : NLHistory 5 3 b.rf b.solve (some ⟨vs, ts, 2⟩) o1 := .setup ⟨vs, ts, 2⟩ (.new OptBackend.params) h1
  have hh2 : NLHistory 5 3 b.rf b.solve (some ⟨vs, ts, 2⟩) o2.1 := .add (b := o2.2) 1 speed hh h2
  have hh3 : NLHistory 5 3 b.rf b.solve (some ⟨vs, ts, 2⟩) o3.1 := .add (b := o3.2) 2 b.aMax hh2 h3
  obtain ⟨p, _, e⟩ := setup_ok _ o1 _ _ _ h1
  have e1 : o1.params = OptBackend.params ∧ o1.constraints = [] := by rw [e]; exact ⟨rfl, rfl⟩
  have a2 := add_ok o1 o2.1 1 speed o2.2 h2
  have a3 := add_ok o2.1 o3.1 2 b.aMax o3.2 h3
  have eo := Except.ok.inj h
  refine ⟨ts, h0, eo ▸ hh3, ?_, ?_⟩
  · rw [← eo, a3.2.2.1, a2.2.2.1, e1.1]
  · rw [← eo, a3.2.1, a2.2.1, e1.2]; rfl

theorem nonlinear_solved (b : OptBackend) (vs : List (Vertex ℝ)) (speed : ℝ) (tr : Trajectory ℝ) (h : b.nonlinear vs speed = .ok tr) :
    ∃ p, SolvedFor b.solve vs p ∧ p.getTrajectory = .ok tr := by
  unfold nonlinear at h
  obtain ⟨o, h1, h⟩ := bind_eq_ok h
  obtain ⟨o', h2, h⟩ := bind_eq_ok h
  obtain ⟨ts, _, hh, hp, _⟩ := prepare_history b vs speed o h1
  obtain ⟨_, _, hs, _⟩ := optimize_spec (b.nlopt vs speed) o o'.1 o'.2 (linHistory hh) h2
  obtain ⟨ts', p0, q1, q2⟩ := hs (by rw [hp]; exact .inl rfl)
  exact ⟨o'.1.poly, ⟨ts', p0, q1, q2⟩, h⟩

theorem env_solved (b : OptBackend) (lineal : Bool) (vs : List (Vertex ℝ)) (speed : ℝ) (tr : Trajectory ℝ)
    (h : (b.env lineal).optimize vs speed = .ok tr) : ∃ p, SolvedFor b.solve vs p ∧ p.getTrajectory = .ok tr := by
  cases lineal with
  | true => exact linear_solved b vs speed tr h
  | false => exact nonlinear_solved b vs speed tr h

/-- Problems of solved objects have one vertex more than times, and the estimate gave at least one time. -/
theorem solvedFor_usable {vs : List (Vertex ℝ)} {p : LinOpt 5 ℝ} (hs : SolvedFor solve vs p) (tr : Trajectory ℝ) (htr : p.getTrajectory = .ok tr) :
    Usable tr ∧ tr.segments.length + 1 = vs.length := by
  obtain ⟨ts, hs⟩ := hs
  have hi := (inv_history 3 solve _ _ hs.history).2 _ rfl
  have es := setSegments_segments _ _ htr
  have hne : ts ≠ [] := by
    intro e
    have h1 := hi.segLength
    unfold LinOpt.getTrajectory Trajectory.setSegments at htr
    split at htr
    · cases htr
    · rename_i s l hseg
      rw [hseg, e] at h1
      cases h1
  obtain ⟨hD, hN, hs1, hc, hR⟩ := solved_usable hs (by omega) hne tr htr
  refine ⟨⟨hD, hs1, hc, fun s hs => (hR s hs).2, fun s hs => (hR s hs).1⟩, ?_⟩
  have := solved_times_sum hs (by omega) tr htr
  have hl := hi.length
  have hl2 := congrArg List.length this
  simp only [List.length_map] at hl2
  simp only at hl hl2
  omega

/-- C85: whatever trajectory the planner's optimisation returns, linear or nonlinear, whatever the solver, the root finder and NLopt do: it is usable
and has one segment between any two consecutive vertices. -/
theorem C85_segmentwise (b : OptBackend) (lineal : Bool) : Segmentwise (b.env lineal) := by
  intro vs speed tr h
  obtain ⟨p, hs, htr⟩ := env_solved b lineal vs speed tr h
  exact solvedFor_usable hs tr htr

/-- C85: and its pieces meet in position, velocity, acceleration, jerk and snap. -/
theorem C85_smooth (b : OptBackend) (lineal : Bool) : JoinsSmoothly (b.env lineal) := by
  intro vs speed tr h k hk i s s' h1 h2
  obtain ⟨p, hs, htr⟩ := env_solved b lineal vs speed tr h
  obtain ⟨ts, p0, hh, hu⟩ := hs
  exact C24_smooth ⟨vs, ts, 2⟩ p0 p hh hu tr htr i s s' h1 h2 k (by omega)

/-- C85: and at the time of each vertex it has the derivatives the vertex prescribes. -/
theorem C85_meets_vertices (b : OptBackend) (lineal : Bool) : MeetsVertices (b.env lineal) := by
  intro vs speed tr h hw i v hv k c hk hc
  obtain ⟨p, hs, htr⟩ := env_solved b lineal vs speed tr h
  obtain ⟨⟨_, hne, hcons, hpos, hreg⟩, hlen⟩ := solvedFor_usable hs tr htr
  obtain ⟨ts, p0, hh, hu⟩ := hs
  obtain ⟨_, _, hmeet⟩ := C23_constraints ⟨vs, ts, 2⟩ p0 p hh hw hu tr htr
  have hlt : i < vs.length := (List.getElem?_eq_some_iff.mp hv).1
  by_cases hi : i < tr.segments.length
  · have hseg := List.getElem?_eq_getElem hi
    have hmem := List.getElem_mem hi
    rw [evaluate_inside tr _ k i _ (fun s hs => (hpos s hs).le)
      (fun q hq => by rw [(hreg _ hmem).1 q hq]; exact (hreg _ hmem).2) hseg le_rfl (by linarith [hpos _ hmem]), sub_self]
    rw [(hmeet i _ hseg k c (by omega)).1 v hv hc]
  · obtain ⟨j, rfl⟩ : ∃ j, i = j + 1 := ⟨i - 1, by have := List.length_pos_iff.mpr hne; omega⟩
    have hj : j + 1 = tr.segments.length := by omega
    have hseg := List.getElem?_eq_getElem (show j < tr.segments.length by omega)
    have hmem := List.getElem_mem (show j < tr.segments.length by omega)
    have hsplit : tr.segments = tr.segments.dropLast ++ [tr.segments[j]] := by
      have e : tr.segments.getLast hne = tr.segments[j] := by
        rw [List.getLast_eq_getElem]
        congr 1
        omega
      rw [← e, List.dropLast_append_getLast hne]
    rw [hj, startOf_length, evaluate_end tr k _ _ hsplit (fun s hs => (hpos s hs).le)
      (fun q hq => by rw [(hreg _ hmem).1 q hq]; exact (hreg _ hmem).2)]
    rw [(hmeet j _ hseg k c (by omega)).2 v hv hc]

/-- What the planner hands over: at least two well-formed vertices of dimension three with a position each, and a positive speed. -/
def Handed3 (vs : List (Vertex ℝ)) (speed : ℝ) : Prop :=
  2 ≤ vs.length ∧ 0 < speed ∧ ∀ v ∈ vs, WellFormed v ∧ v.D = 3 ∧ ∃ p, v.getConstraint 0 = some p

/-- The time estimated for each pair of consecutive vertices satisfies `P`. -/
def EachEstimate (b : OptBackend) (vs : List (Vertex ℝ)) (speed : ℝ) (P : ℝ → Prop) : Prop :=
  ∀ (i : ℕ) (v w : Vertex ℝ) (p q : List ℝ), vs[i]? = some v → vs[i + 1]? = some w → v.getConstraint 0 = some p → w.getConstraint 0 = some q →
    P (estimate v w p q speed b.aMax)

theorem constraint_length {v : Vertex ℝ} (hw : WellFormed v) {k : Int} {c : List ℝ} (h : v.getConstraint k = some c) : c.length = v.D :=
  hw.2 _ ((represents_getConstraint v hw k c).mpr h)

theorem handed_times (b : OptBackend) (hA : 0 < b.aMax) (vs : List (Vertex ℝ)) (speed : ℝ) (hv : Handed3 vs speed) :
    ∃ ts, estimateSegmentTimes vs speed b.aMax = .ok ts ∧ ts.length + 1 = vs.length ∧ (∀ P, EachEstimate b vs speed P → ∀ t ∈ ts, P t) ∧
      ∀ (i : ℕ) (v w : Vertex ℝ) (p q : List ℝ), vs[i]? = some v → vs[i + 1]? = some w → v.getConstraint 0 = some p →
        w.getConstraint 0 = some q → ts[i]? = some (estimate v w p q speed b.aMax) := by
  obtain ⟨hn, hs, hv⟩ := hv
  obtain ⟨ts, e, hl, ht⟩ := C21_estimateSegmentTimes speed b.aMax hs hA 3 vs hn (fun v h => by
    obtain ⟨h1, h2, p, h3⟩ := hv v h
    exact ⟨p, h3, (constraint_length h1 h3).trans h2⟩)
  refine ⟨ts, e, by omega, ?_, ht⟩
  intro P hP t hmem
  obtain ⟨i, hi, rfl⟩ := List.mem_iff_getElem.mp hmem
  have e1 := List.getElem?_eq_getElem (show i < vs.length by omega)
  have e2 := List.getElem?_eq_getElem (show i + 1 < vs.length by omega)
  obtain ⟨_, _, p, hp⟩ := hv _ (List.getElem_mem (show i < vs.length by omega))
  obtain ⟨_, _, q, hq⟩ := hv _ (List.getElem_mem (show i + 1 < vs.length by omega))
  have := ht i _ _ p q e1 e2 hp hq
  rw [List.getElem?_eq_getElem hi] at this
  rw [Option.some.inj this]
  exact hP i _ _ p q e1 e2 hp hq

theorem handed_acceptable (vs : List (Vertex ℝ)) (speed : ℝ) (hv : Handed3 vs speed) (ts : List ℝ) (hl : ts.length + 1 = vs.length)
    (ht : ∀ t ∈ ts, 1 / 2 ^ 52 ≤ t) : AcceptableProblem 5 3 (⟨vs, ts, 2⟩ : Problem ℝ) := by
  refine ⟨show (0 : Int) ≤ 2 by decide, show (2 : Int) < 5 by decide, hl.symm, ?_, ht⟩
  intro v hm k c _ hc
  obtain ⟨h1, h2, _⟩ := hv.2.2 v hm
  exact (constraint_length h1 hc).trans h2

/-- C85: the linear optimisation succeeds for what the planner hands over, whatever the linear solver answers, provided every estimated time is at
least `2⁻⁵²`; the segments take exactly the estimated times. -/
theorem C85_linear_succeeds (b : OptBackend) (hA : 0 < b.aMax) (vs : List (Vertex ℝ)) (speed : ℝ) (hv : Handed3 vs speed)
    (ht : EachEstimate b vs speed (1 / 2 ^ 52 ≤ ·)) :
    ∃ tr ts, (b.env true).optimize vs speed = .ok tr ∧ estimateSegmentTimes vs speed b.aMax = .ok ts ∧ tr.segments.map (·.time) = ts := by
  obtain ⟨ts, e, hl, hP, _⟩ := handed_times b hA vs speed hv
  have ha := handed_acceptable vs speed hv ts hl (hP _ ht)
  have hw : ∀ v ∈ vs, WellFormed v := fun v h => (hv.2.2 v h).1
  have hn : ts ≠ [] := by intro e; have := hv.1; simp [e] at hl; omega
  obtain ⟨o, ho⟩ := setup_total 3 ⟨vs, ts, 2⟩ (LinOpt.init 5 ℝ 3) rfl (by omega) hw ha
  have hh : LinHistory 5 3 b.solve (some ⟨vs, ts, 2⟩) o := .setup ⟨vs, ts, 2⟩ .new ho
  obtain ⟨hi, hf⟩ := setupFromVertices_ok 3 ⟨vs, ts, 2⟩ _ o ⟨rfl, by simp [LinOpt.init]⟩ ho
  obtain ⟨o', ho'⟩ := solve_total 3 ⟨vs, ts, 2⟩ b.solve o hi (List.length_pos_iff.mpr hn) (fun _ => by
    rw [hf]
    exact ⟨by simp [LinOpt.init], fun v hv => (List.mem_replicate.mp hv).2⟩)
  obtain ⟨tr, htr⟩ := solved_trajectory ⟨o, hh, .inr ho'⟩ hn
  refine ⟨tr, ts, ?_, e, solved_times_sum ⟨o, hh, .inr ho'⟩ (by omega) tr htr⟩
  show b.linear vs speed = .ok tr
  unfold linear
  rw [e]
  simp only [bind, Except.bind]
  rw [show (LinOpt.init 5 ℝ 3).setupFromVertices vs ts 2 = .ok o from ho]
  simp only
  rw [ho']
  exact htr

theorem prepare_total (b : OptBackend) (hA : 0 < b.aMax) (vs : List (Vertex ℝ)) (speed : ℝ) (hv : Handed3 vs speed)
    (ht : EachEstimate b vs speed (1 / 2 ^ 52 ≤ ·)) :
    ∃ o o1 ts, b.prepare vs speed = .ok o ∧ estimateSegmentTimes vs speed b.aMax = .ok ts ∧ ts ≠ [] ∧ o.solveLinear b.solve = .ok o1 := by
  obtain ⟨ts, e, hl, hP, _⟩ := handed_times b hA vs speed hv
  have ha := handed_acceptable vs speed hv ts hl (hP _ ht)
  have hw : ∀ v ∈ vs, WellFormed v := fun v h => (hv.2.2 v h).1
  have hn : ts ≠ [] := by intro e; have := hv.1; simp [e] at hl; omega
  obtain ⟨p, ho⟩ := setup_total 3 ⟨vs, ts, 2⟩ (LinOpt.init 5 ℝ 3) rfl (by omega) hw ha
  obtain ⟨hi, hf⟩ := setupFromVertices_ok 3 ⟨vs, ts, 2⟩ _ p ⟨rfl, by simp [LinOpt.init]⟩ ho
  obtain ⟨p', ho'⟩ := solve_total 3 ⟨vs, ts, 2⟩ b.solve p hi (List.length_pos_iff.mpr hn) (fun _ => by
    rw [hf]
    exact ⟨by simp [LinOpt.init], fun v hv => (List.mem_replicate.mp hv).2⟩)
  have ho : (LinOpt.init 5 ℝ 3).setupFromVertices vs ts 2 = .ok p := ho
  have hs : ∃ n, (NonLin.init 5 3 OptBackend.params).setupFromVertices vs ts 2 =
      .ok { NonLin.init 5 3 OptBackend.params with poly := p, nlopt := some ⟨n, []⟩ } := by
    refine ⟨ts.length + p.nFree * p.dimension, ?_⟩
    unfold NonLin.setupFromVertices
    rw [show (NonLin.init 5 3 OptBackend.params).poly = LinOpt.init 5 ℝ 3 from rfl, ho]
    rfl
  obtain ⟨n, hs⟩ := hs
  refine ⟨{ NonLin.init 5 3 OptBackend.params with poly := p, nlopt := some ⟨n, []⟩, constraints := [⟨1, speed⟩, ⟨2, b.aMax⟩] },
    { NonLin.init 5 3 OptBackend.params with poly := p', nlopt := some ⟨n, []⟩, constraints := [⟨1, speed⟩, ⟨2, b.aMax⟩] }, ts, ?_, e, hn, ?_⟩
  rotate_left
  · unfold NonLin.solveLinear
    simp only [bind, Except.bind]
    rw [ho']
    rfl
  · unfold prepare
    rw [e]
    simp only [bind, Except.bind]
    rw [hs]
    simp only [addMaximumMagnitudeConstraint]
    rw [if_neg (by push Not; exact ⟨by omega, hv.2.1.le⟩), if_pos (by rfl)]
    simp only
    rw [if_neg (by push Not; exact ⟨by omega, hA.le⟩), if_pos (by rfl)]
    rfl

/-- C85: so does the nonlinear optimisation the planner uses, if NLopt invokes the objective only within the bounds it was given, whatever it returns
or throws; no segment is shorter than a tenth of a second or than the estimate. -/
theorem C85_nonlinear_succeeds (b : OptBackend) (hA : 0 < b.aMax) (vs : List (Vertex ℝ)) (speed : ℝ) (hv : Handed3 vs speed)
    (ht : EachEstimate b vs speed (1 / 2 ^ 52 ≤ ·)) (hg : ∀ o, b.prepare vs speed = .ok o → GoodRun b.solve o (b.nlopt vs speed)) :
    ∃ tr ts, (b.env false).optimize vs speed = .ok tr ∧ estimateSegmentTimes vs speed b.aMax = .ok ts ∧
      List.Forall₂ (fun t0 t => min (1 / 10) t0 ≤ t) ts (tr.segments.map (·.time)) := by
  obtain ⟨o, o1, ts, ho, e, hn, ho1⟩ := prepare_total b hA vs speed hv ht
  obtain ⟨ts', e', hh, hp, hc⟩ := prepare_history b vs speed o ho
  obtain rfl : ts = ts' := Except.ok.inj (e.symm.trans e')
  obtain ⟨o', code, tr, h1, h2, _, _, h3⟩ := C30_optimize_succeeds ⟨vs, ts, 2⟩ o o1 (b.nlopt vs speed) hh (by omega) hn
    (fun v h => (hv.2.2 v h).1) (by rw [hp]; exact .inl rfl) (by rw [hc]; simp) ho1 (hg o ho)
  refine ⟨tr, ts, ?_, e, h3⟩
  show b.nonlinear vs speed = .ok tr
  unfold nonlinear
  rw [ho]
  simp only [bind, Except.bind]
  rw [h1]
  exact h2

/-- C85: two consecutive vertices at the same place, neither at rest, abort the process, with either optimisation (the other estimates being at least
`2⁻⁵²`). -/
theorem C85_repeated (b : OptBackend) (hA : 0 < b.aMax) (vs : List (Vertex ℝ)) (speed : ℝ) (hv : Handed3 vs speed)
    (ht : EachEstimate b vs speed (fun t => t ≤ 0 ∨ 1 / 2 ^ 52 ≤ t)) (i : ℕ) (v w : Vertex ℝ) (p : List ℝ) (hi : vs[i]? = some v)
    (hi' : vs[i + 1]? = some w) (hp : v.getConstraint 0 = some p) (hq : w.getConstraint 0 = some p) (hr : ¬ (AtRest v ∨ AtRest w)) (lineal : Bool) :
    (b.env lineal).optimize vs speed = .error .check := by
  obtain ⟨ts, e, hl, hP, hts⟩ := handed_times b hA vs speed hv
  have h0 : estimate v w p p speed b.aMax = 0 := (C21_estimate_bounds v w p p rfl speed b.aMax hv.2.1 hA).2.2.mpr ⟨rfl, hr⟩
  have hmem : (0 : ℝ) ∈ ts := by rw [← h0]; exact List.mem_of_getElem? (hts i v w p p hi hi' hp hq)
  have hbad : (LinOpt.init 5 ℝ 3).setupFromVertices vs ts 2 = .error .check :=
    C28_positive_checked (solve := b.solve) none _ .new ⟨vs, ts, 2⟩ (by omega) (fun v h => (hv.2.2 v h).1) ⟨show (0 : Int) ≤ 2 by decide, show (2 : Int) < 5 by decide⟩ hl.symm
      (fun v hm k c _ hc => by
        obtain ⟨h1, h2, _⟩ := hv.2.2 v hm
        exact (constraint_length h1 hc).trans h2)
      (hP _ ht) ⟨0, hmem, le_rfl⟩
  cases lineal with
  | true =>
    show b.linear vs speed = .error .check
    unfold linear
    rw [e]
    simp only [bind, Except.bind]
    rw [hbad]
  | false =>
    show b.nonlinear vs speed = .error .check
    unfold nonlinear prepare
    rw [e]
    simp only [bind, Except.bind, NonLin.setupFromVertices]
    rw [show (NonLin.init 5 3 OptBackend.params).poly = LinOpt.init 5 ℝ 3 from rfl, hbad]

/-! ## The hypotheses are met -/

/-- An exact linear solver; NLopt evaluates the starting point once. -/
noncomputable def sampleBackend : OptBackend where
  solve := exactSolver
  rf := fun _ => []
  nlopt := fun vs speed =>
    match (do
      let o ← prepare ⟨exactSolver, fun _ => [], fun _ _ => ⟨true, [], none, false⟩, 1⟩ vs speed
      let o ← o.solveLinear exactSolver
      o.fullProblem : Res NloptProblem) with
    | .ok p => ⟨false, [.objective p.x0 false], some 4, true⟩
    | .error _ => ⟨true, [], none, false⟩
  aMax := 1

theorem sample_handed : Handed3 realProblem.vertices 1 := by
  refine ⟨by simp [realProblem], one_pos, fun v hv => ⟨realProblem_wellFormed v hv, ?_⟩⟩
  simp only [realProblem, List.mem_cons, List.not_mem_nil, or_false] at hv
  rcases hv with rfl | rfl | rfl <;> exact ⟨rfl, _, rfl⟩

theorem sample_estimates : EachEstimate sampleBackend realProblem.vertices 1 (1 / 2 ^ 52 ≤ ·) := by
  intro i v w p q hv hw hp hq
  have hr : ∀ (x : Vertex ℝ) (l : List (Int × List ℝ)), x = ⟨3, (0, l.head?.elim [] (·.2)) :: [(1, [0, 0, 0])]⟩ → AtRest x := by
    intro x l e
    refine ⟨[0, 0, 0], by rw [e]; rfl, ?_⟩
    norm_num
  have : AtRest v ∨ AtRest w := by
    match i, hv, hw with
    | 0, hv, _ => exact .inl (hr v [(0, [0, 0, 0])] (Option.some.inj hv).symm)
    | 1, _, hw => exact .inr (hr w [(0, [4, 5, 6])] (Option.some.inj hw).symm)
    | i + 2, _, hw => simp [realProblem] at hw
  show 1 / 2 ^ 52 ≤ estimate v w p q 1 1
  unfold estimate
  rw [if_pos this]
  have := Real.sqrt_nonneg ((List.zipWith (fun a b => (a - b) ^ 2) p q).sum)
  unfold distance
  have : (1 : ℝ) / 2 ^ 52 ≤ 1 := by norm_num
  linarith

theorem sample_run (o : NonLin 5) (h : sampleBackend.prepare realProblem.vertices 1 = .ok o) :
    GoodRun sampleBackend.solve o (sampleBackend.nlopt realProblem.vertices 1) := by
  obtain ⟨o0, o1, ts, ho, e, hn, ho1⟩ := prepare_total sampleBackend one_pos realProblem.vertices 1 sample_handed sample_estimates
  obtain rfl : o = o0 := Except.ok.inj (h.symm.trans ho)
  obtain ⟨ts', e', hh, hpar, _⟩ := prepare_history sampleBackend _ _ o h
  obtain ⟨p, nl, hp, hnl, _, _, _, _, hb, _⟩ := C30_bounds ⟨realProblem.vertices, ts', 2⟩ o o1 hh (by omega)
    (by rw [e'] at e; rw [← Except.ok.inj e] at hn; exact hn) (by rw [hpar]; exact .inl rfl) ho1
  have hrun : sampleBackend.nlopt realProblem.vertices 1 = ⟨false, [.objective p.x0 false], some 4, true⟩ := by
    have h' : prepare ⟨exactSolver, fun _ => [], fun _ _ => ⟨true, [], none, false⟩, 1⟩ realProblem.vertices 1 = .ok o := h
    have ho1 : o.solveLinear exactSolver = .ok o1 := ho1
    simp only [sampleBackend, h', bind, Except.bind, ho1, hp]
  rw [hrun]
  intro p' nl' hhand _
  rcases hhand with ⟨_, o1', e1, e2⟩ | ⟨hbad, _⟩
  · rw [ho1] at e1
    rw [← Except.ok.inj e1, hp] at e2
    rw [← Except.ok.inj e2, hpar]
    refine .inr ⟨fun r hr => ?_, fun hno => absurd hb hno⟩
    rw [List.mem_singleton.mp hr]
    exact ⟨hb, rfl⟩
  · rw [hpar] at hbad
    rcases hbad with (hbad | hbad) | hbad <;> cases hbad

/-- The hypotheses of `C85_linear_succeeds` and `C85_nonlinear_succeeds` are met by three vertices in space. -/
example : ∃ tr tr', (sampleBackend.env true).optimize realProblem.vertices 1 = .ok tr ∧ (sampleBackend.env false).optimize realProblem.vertices 1 = .ok tr' := by
  obtain ⟨tr, _, h, _⟩ := C85_linear_succeeds sampleBackend one_pos _ _ sample_handed sample_estimates
  obtain ⟨tr', _, h', _⟩ := C85_nonlinear_succeeds sampleBackend one_pos _ _ sample_handed sample_estimates sample_run
  exact ⟨tr, tr', h, h'⟩

/-- The hypotheses of `C85_repeated` are met by two equal vertices that are not at rest. -/
example : (sampleBackend.env false).optimize [⟨3, [(0, [1, 2, 3])]⟩, ⟨3, [(0, [1, 2, 3])]⟩] 2 = .error .check := by
  have hv : ∀ v : Vertex ℝ, v ∈ ([⟨3, [(0, [1, 2, 3])]⟩, ⟨3, [(0, [1, 2, 3])]⟩] : List (Vertex ℝ)) → v = ⟨3, [(0, [1, 2, 3])]⟩ := by
    intro v hv; simpa using hv
  have hr : ¬ AtRest (⟨3, [(0, [1, 2, 3])]⟩ : Vertex ℝ) := by
    rintro ⟨u, hu, _⟩; cases hu
  refine C85_repeated sampleBackend one_pos _ 2 ⟨by simp, by norm_num, fun v h => ?_⟩ ?_ 0 _ _ [1, 2, 3] rfl rfl rfl rfl (by simp [hr]) false
  · rw [hv v h]
    exact ⟨⟨by simp, by simp⟩, rfl, _, rfl⟩
  · intro i v w p q h1 h2 hp hq
    rw [hv v (List.mem_of_getElem? h1)] at hp ⊢
    rw [hv w (List.mem_of_getElem? h2)] at hq ⊢
    obtain rfl : [1, 2, 3] = p := Option.some.inj hp
    obtain rfl : [1, 2, 3] = q := Option.some.inj hq
    exact .inl ((C21_estimate_bounds _ _ _ _ rfl 2 1 (by norm_num) one_pos).2.2.mpr ⟨rfl, by simp [hr]⟩).le

end Verif.Properties
