import Verif.Lemmas.LinearOptTotal

/-!
# Properties C23, C24, C25 and C28: the linear optimisation

The vertices are well formed (C19 shows that the vertex operations only make such ones). `LinHistory` ranges over all sequences of calls.
-/

set_option linter.unusedSectionVars false

namespace Verif.Properties

open Verif Spec Lemmas LinOpt

variable {K : Type*} [Field K] [LinearOrder K] [IsStrictOrderedRing K] {h dim : ℕ} {solve : LinSolver K}

/-- C23: whatever happened before, after `setFreeConstraints` with any values or after `solveLinear`, the trajectory has one segment per
time, lasting that time, and meets every constraint of order below `N/2` of every vertex on both sides. -/
theorem C23_constraints (q : Problem K) (o o' : LinOpt h K) (hh : LinHistory h dim solve (some q) o)
    (hw : ∀ v ∈ q.vertices, WellFormed v) (hu : (∃ values, o.setFreeConstraints values = .ok o') ∨ o.solveLinear solve = .ok o')
    (tr : Trajectory K) (htr : o'.getTrajectory = .ok tr) :
    tr.segments.length = q.times.length ∧ (0 < dim → tr.segments.map (·.time) = q.times) ∧
    MeetsConstraints h q.vertices tr.segments := by
  have hi := (inv_history dim solve _ o hh).2 q rfl
  obtain ⟨free, hi1, _, hl, hlen, hs⟩ := solved_spec dim q solve o o' hi hu
  have es := setSegments_segments _ _ htr
  rw [es]
  refine ⟨hl, ?_, ?_⟩
  · intro hd
    apply List.ext_getElem?
    intro i
    rw [List.getElem?_map]
    cases hc : o'.segments[i]? with
    | some s => exact ((hs i s hc).2.1 hd).symm
    | none =>
      rw [List.getElem?_eq_none_iff, hl] at hc
      rw [List.getElem?_eq_none hc]; rfl
  · intro i s hsi k c hk
    obtain ⟨_, htime, hpol⟩ := hs i s hsi
    have hi' : i < q.times.length := by rw [← hl]; exact (List.getElem?_eq_some_iff.mp hsi).1
    have hF := mapM_forall2 _ _ _ hi.vertices
    have key : ∀ (j : ℕ) (v : Vertex K), q.vertices[j]? = some v → v.getConstraint k = some c →
        c.length = dim ∧ ∀ d < dim, vertexValue dim q { o with freeCompact := free } d j k = c.getD d 0 := by
      intro j v hv hc
      obtain ⟨hj, ev⟩ := List.getElem?_eq_some_iff.mp hv
      have hj2 : j < o.vertices.length := by rw [← hF.length_eq]; exact hj
      have hfv := List.forall₂_iff_get.mp hF |>.2 j hj hj2
      simp only [List.get_eq_getElem, ev] at hfv
      obtain ⟨e1, e2⟩ := filterVertex_spec dim v _ (hw v (List.mem_of_getElem? hv)) hfv k hk
      refine ⟨e2 c hc, fun d hd => ?_⟩
      exact vertexValue_fixed dim q { o with freeCompact := free } hi1 d hd (hlen d hd) j k _ c hk (List.getElem?_eq_getElem hj2)
        (e1.trans hc)
    have fin : ∀ (τ : K) (j : ℕ), (∀ d < dim, derivAt (polyOf { o with freeCompact := free } d i) k τ =
        vertexValue dim q { o with freeCompact := free } d j k) → ∀ v, q.vertices[j]? = some v → v.getConstraint k = some c →
        segDeriv s k τ = c := by
      intro τ j hp v hv hc
      obtain ⟨hcl, hval⟩ := key j v hv hc
      unfold segDeriv
      rw [hpol]
      apply List.ext_getElem?
      intro d
      rw [List.map_map, List.getElem?_map]
      by_cases hd : d < dim
      · rw [List.getElem?_range hd]
        simp only [Option.map_some, Function.comp_apply]
        rw [hp d hd, hval d hd, List.getElem?_eq_getElem (by omega), List.getD_eq_getElem?_getD, List.getElem?_eq_getElem (by omega)]
        rfl
      · rw [List.getElem?_eq_none (by simp; omega), List.getElem?_eq_none (by omega)]
        rfl
    constructor
    · intro v hv hc
      refine fin 0 i (fun d hd => ?_) v hv hc
      exact (polyOf_deriv dim q _ hi1 i _ (htime (by omega)) d k hk).1
    · intro v hv hc
      refine fin s.time (i + 1) (fun d hd => ?_) v hv hc
      exact (polyOf_deriv dim q _ hi1 i _ (htime (by omega)) d k hk).2

/-- C24: consecutive segments agree in all derivatives of orders below `N/2` at their joint. -/
theorem C24_smooth (q : Problem K) (o o' : LinOpt h K) (hh : LinHistory h dim solve (some q) o)
    (hu : (∃ values, o.setFreeConstraints values = .ok o') ∨ o.solveLinear solve = .ok o')
    (tr : Trajectory K) (htr : o'.getTrajectory = .ok tr) : SmoothJoints h tr.segments := by
  have hi := (inv_history dim solve _ o hh).2 q rfl
  obtain ⟨free, hi1, _, hl, hlen, hs⟩ := solved_spec dim q solve o o' hi hu
  rw [setSegments_segments _ _ htr]
  intro i s s' hsi hsi' k hk
  obtain ⟨_, ht, hp⟩ := hs i s hsi
  obtain ⟨_, ht', hp'⟩ := hs (i + 1) s' hsi'
  unfold segDeriv
  rw [hp, hp', List.map_map, List.map_map]
  apply List.map_congr_left
  intro d hd
  rw [List.mem_range] at hd
  simp only [Function.comp_apply]
  rw [(polyOf_deriv dim q _ hi1 i _ (ht (by omega)) d k hk).2, (polyOf_deriv dim q _ hi1 (i + 1) _ (ht' (by omega)) d k hk).1]

/-! ## C25 -/

/-- The full statement: for every even `N` the table supports and every positive `T`, the mapping matrix can be set up and inverted. -/
def C25Full (K : Type*) [Field K] [LinearOrder K] [IsStrictOrderedRing K] : Prop :=
  ∀ (h : ℕ) (T : K), 0 < h → h + h ≤ 22 → 0 < T →
    ∃ A Ai : SqMat h K, setupMappingMatrix h T = .ok A ∧ invertMappingMatrix A = .ok Ai ∧ A * Ai = 1

/-- Durations below `2⁻⁵²` are treated as zero when the matrix is filled: it is singular and the inverse is not finite. -/
theorem C25_refuted : ¬C25Full K := by
  intro hf
  have ht : (0 : K) < 1 / 2 ^ 53 := by positivity
  obtain ⟨A, Ai, hA, hAi, _⟩ := hf 5 (1 / 2 ^ 53) (by omega) (by omega) ht
  obtain ⟨B, hB, hBi⟩ := mapping_tiny 5 (1 / 2 ^ 53 : K) (by omega) (by omega) (by
    rw [abs_of_pos ht]
    unfold Poly.dblEps
    exact one_div_lt_one_div_of_lt (by positivity) (pow_lt_pow_right₀ (by norm_num) (by norm_num)))
  rw [hA] at hB
  rw [Except.ok.inj hB] at hAi
  rw [hAi] at hBi
  cases hBi

/-- C25 for `T ≥ 2⁻⁵²`: the matrix maps coefficients to the derivatives at both ends, the block formula yields its two-sided inverse, and
for any prescribed end derivatives there is exactly one polynomial with `N` coefficients having them, the one the inverse gives. -/
theorem C25_partial (h : ℕ) (T : K) (hN : h + h ≤ 22) (hT : 1 / 2 ^ 52 ≤ T) :
    ∃ A Ai : SqMat h K, setupMappingMatrix h T = .ok A ∧ invertMappingMatrix A = .ok Ai ∧ A * Ai = 1 ∧ Ai * A = 1 ∧
    (∀ (c : Fin (h + h) → K) (k : Fin h), A.mulVec c (Fin.castAdd h k) = derivAt (List.ofFn c) k 0 ∧
      A.mulVec c (Fin.natAdd h k) = derivAt (List.ofFn c) k T) ∧
    ∀ (d0 dT : Fin h → K) (c : List K), c.length = h + h →
      ((∀ k : Fin h, derivAt c k 0 = d0 k ∧ derivAt c k T = dT k) ↔ c = List.ofFn (Ai.mulVec (Fin.append d0 dT))) := by
  have hT0 : 0 < T := lt_of_lt_of_le (by positivity) hT
  refine ⟨endpointMap h T, (endpointMap h T)⁻¹, setupMappingMatrix_ok h T hN (by rw [abs_of_pos hT0]; exact hT),
    invertMappingMatrix_ok h T hT0.ne', endpointMap_mul_inv h T hT0.ne', endpointMap_inv_mul h T hT0.ne',
    fun c k => ⟨endpointMap_mulVec_start T c k, endpointMap_mulVec_end T c k⟩, ?_⟩
  intro d0 dT c hc
  constructor
  · intro hd
    obtain ⟨f, rfl⟩ : ∃ f : Fin (h + h) → K, c = List.ofFn f :=
      ⟨fun i => c[i]'(by rw [hc]; exact i.2), by
        apply List.ext_getElem
        · simp [hc]
        · intro i h1 h2; simp⟩
    congr 1
    have : (endpointMap h T).mulVec f = Fin.append d0 dT := by
      funext j
      refine Fin.addCases (fun k => ?_) (fun k => ?_) j
      · rw [endpointMap_mulVec_start, (hd k).1, Fin.append_left]
      · rw [endpointMap_mulVec_end, (hd k).2, Fin.append_right]
    rw [← this, Matrix.mulVec_mulVec, endpointMap_inv_mul h T hT0.ne', Matrix.one_mulVec]
  · intro e k
    rw [e]
    obtain ⟨e1, e2⟩ := derivAt_inv_mulVec h T hT0.ne' (Fin.append d0 dT) k
    rw [e1, e2, Fin.append_left, Fin.append_right]
    exact ⟨rfl, rfl⟩

/-! ## C28 -/

/-- C28: exactly the acceptable problems are accepted (with `N ≤ 22`, the size of the coefficient table). -/
theorem C28_setup_iff (p : Option (Problem K)) (o : LinOpt h K) (hh : LinHistory h dim solve p o) (q : Problem K) (hN : h + h ≤ 22)
    (hw : ∀ v ∈ q.vertices, WellFormed v) :
    (∃ o', o.setupFromVertices q.vertices q.times q.derivative = .ok o') ↔ AcceptableProblem h dim q := by
  have hs := (inv_history dim solve _ o hh).1
  exact ⟨fun ⟨o', hu⟩ => setup_acceptable dim q o o' hs hN hw hu, setup_total dim q o hs.1 hN hw⟩

/-- C28: a wrong number of times is a failed check. -/
theorem C28_count_checked (o : LinOpt h K) (q : Problem K) (hd : 0 ≤ q.derivative ∧ q.derivative < h) (h0 : q.vertices ≠ [])
    (hne : q.vertices.length ≠ q.times.length + 1) :
    o.setupFromVertices q.vertices q.times q.derivative = .error .check := by
  unfold setupFromVertices
  rw [if_neg (by omega), if_neg (by rw [List.length_eq_zero_iff]; exact h0), if_pos hne]

/-- C28: a derivative out of range is a failed check. -/
theorem C28_derivative_checked (o : LinOpt h K) (q : Problem K) (hd : q.derivative < 0 ∨ (h : Int) ≤ q.derivative) :
    o.setupFromVertices q.vertices q.times q.derivative = .error .check := by
  unfold setupFromVertices
  rw [if_pos (by omega)]

/-- C28: a non-positive time is a failed check (the other times being at least `2⁻⁵²`). -/
theorem C28_positive_checked (p : Option (Problem K)) (o : LinOpt h K) (hh : LinHistory h dim solve p o) (q : Problem K) (hN : h + h ≤ 22)
    (hw : ∀ v ∈ q.vertices, WellFormed v) (hd : 0 ≤ q.derivative ∧ q.derivative < h) (hl : q.vertices.length = q.times.length + 1)
    (hc : ∀ v ∈ q.vertices, ∀ (k : Int) (c : List K), k < h → v.getConstraint k = some c → c.length = dim)
    (ht : ∀ t ∈ q.times, t ≤ 0 ∨ 1 / 2 ^ 52 ≤ t) (hbad : ∃ t ∈ q.times, t ≤ 0) :
    o.setupFromVertices q.vertices q.times q.derivative = .error .check := by
  have hs := (inv_history dim solve _ o hh).1
  unfold setupFromVertices
  rw [if_neg (by omega), if_neg (by omega), if_neg (by omega)]
  obtain ⟨vs', hv⟩ := mapM_total (filterVertex h o.dimension) q.vertices (fun v hv =>
    (filterVertex_ok_iff o.dimension v (hw v hv)).mpr (by rw [hs.1]; exact hc v hv))
  simp only [bind, Except.bind]
  rw [hv]
  simp only
  unfold updateSegmentTimes
  simp only [bind, Except.bind, pure, Except.pure]
  rw [if_neg (by omega)]
  have hm : segmentMatrices (h := h) q.derivative.toNat q.times = .error .check := by
    unfold segmentMatrices
    have hlt : q.derivative.toNat < h := by omega
    generalize q.derivative.toNat = d at hlt ⊢
    generalize q.times = ts at ht hbad
    induction ts with
    | nil => obtain ⟨t, ht, _⟩ := hbad; cases ht
    | cons t ts ih =>
      rw [List.mapM_cons]
      rcases ht t (by simp) with h1 | h1
      · rw [if_neg (not_lt.mpr h1)]; rfl
      · rw [segmentMatrices_one_ok h d hlt t hN h1]
        simp only [bind, Except.bind] at ih ⊢
        rw [ih (fun x hx => ht x (by simp [hx])) (by
          obtain ⟨x, hx, hx0⟩ := hbad
          rcases List.mem_cons.mp hx with e | hx
          · rw [e] at hx0
            exact absurd (lt_of_lt_of_le (by positivity) h1) (not_lt.mpr hx0)
          · exact ⟨x, hx, hx0⟩)]
  rw [hm]

/-- C28: the vertices the object keeps have the given constraints of orders below `N/2` and no others of order `N/2` and above; the numbers
of fixed and free constraints add up to `N/2` per vertex, and the reordering has `N` rows per segment. -/
theorem C28_kept (q : Problem K) (o : LinOpt h K) (hh : LinHistory h dim solve (some q) o) (hw : ∀ v ∈ q.vertices, WellFormed v) :
    o.vertices.length = q.vertices.length ∧
    (∀ (i : ℕ) (v v' : Vertex K), q.vertices[i]? = some v → o.vertices[i]? = some v' →
      (∀ k : ℕ, k < h → v'.getConstraint k = v.getConstraint k) ∧ ∀ k : Int, (h : Int) ≤ k → v'.getConstraint k = none) ∧
    o.nFixed + o.nFree = q.vertices.length * h ∧ (0 < q.times.length → o.nAll = q.times.length * (h + h)) := by
  have hi := (inv_history dim solve _ o hh).2 q rfl
  have hF := mapM_forall2 _ _ _ hi.vertices
  refine ⟨hF.length_eq.symm, ?_, ?_, ?_⟩
  · intro i v v' hv hv'
    obtain ⟨hi1, e1⟩ := List.getElem?_eq_some_iff.mp hv
    obtain ⟨hi2, e2⟩ := List.getElem?_eq_some_iff.mp hv'
    have := List.forall₂_iff_get.mp hF |>.2 i hi1 hi2
    simp only [List.get_eq_getElem, e1, e2] at this
    have hwv := hw v (List.mem_of_getElem? hv)
    exact ⟨fun k hk => (filterVertex_spec dim v v' hwv this k hk).1, filterVertex_high dim v v' hwv this⟩
  · rw [hi.nFixed, hi.nFree, ← List.length_append]
    exact (cols_length dim q.times.length o.vertices).trans (by rw [← hF.length_eq])
  · intro hn
    rw [hi.nAll, length_constraintSeq dim o.vertices q.times.length hi.vertices_length hn]

/-- C28: an acceptable problem on a new object is solved, and the trajectory can be read. -/
theorem C28_solves (q : Problem K) (hN : h + h ≤ 22) (hw : ∀ v ∈ q.vertices, WellFormed v) (ha : AcceptableProblem h dim q)
    (hn : q.times ≠ []) :
    ∃ o o' tr, LinHistory h dim solve (some q) o ∧ o.solveLinear solve = .ok o' ∧ o'.getTrajectory = .ok tr := by
  obtain ⟨o, ho⟩ := setup_total dim q (LinOpt.init h K dim) rfl hN hw ha
  have hh : LinHistory h dim solve (some q) o := .setup q .new ho
  obtain ⟨hi, hf⟩ := setupFromVertices_ok dim q _ o ⟨rfl, by simp [LinOpt.init]⟩ ho
  have hpos : 0 < q.times.length := List.length_pos_iff.mpr hn
  obtain ⟨o', ho'⟩ := solve_total dim q solve o hi hpos (fun _ => by
    rw [hf]
    exact ⟨by simp [LinOpt.init], fun v hv => (List.mem_replicate.mp hv).2⟩)
  have hi' := inv_solve dim q solve o o' hi ho'
  obtain ⟨tr, htr⟩ := getTrajectory_total dim o' hi'.shape (by
    intro e
    have := hi'.segLength
    rw [e] at this
    simp only [List.length_nil] at this
    omega)
  exact ⟨o, o', tr, hh, ho', htr⟩

/-! ## A concrete problem -/

/-- Start at rest in the origin, pass through (1, 2, 3), end at rest in (4, 0, 1). The middle vertex also carries a constraint of an order too
high to honour. -/
def sampleProblem : Problem ℚ where
  vertices :=
    [⟨3, [(0, [0, 0, 0]), (1, [0, 0, 0]), (2, [0, 0, 0])]⟩, ⟨3, [(0, [1, 2, 3]), (7, [1, 1, 1])]⟩,
      ⟨3, [(0, [4, 0, 1]), (1, [0, 0, 0]), (2, [0, 0, 0])]⟩]
  times := [2, 3 / 2]
  derivative := 2

theorem sampleProblem_wellFormed : ∀ v ∈ sampleProblem.vertices, WellFormed v := by
  unfold WellFormed
  decide +kernel

theorem sampleProblem_acceptable : AcceptableProblem 5 3 sampleProblem := by
  refine ⟨by decide, by decide, rfl, ?_, by decide +kernel⟩
  intro v hv k c _ hc
  have hw := sampleProblem_wellFormed v hv
  have := hw.2 _ ((IntMap.find_some_iff _ hw.1 k c).mp hc)
  have hD : ∀ v ∈ sampleProblem.vertices, v.D = 3 := by decide +kernel
  rw [← hD v hv]
  exact this

/-- The hypotheses of C23, C24 and C28 hold for the sample problem: it is solved and yields two segments, the first ending in (1, 2, 3). -/
example (solve : LinSolver ℚ) : ∃ (o o' : LinOpt 5 ℚ) (tr : Trajectory ℚ), LinHistory 5 3 solve (some sampleProblem) o ∧
    o.solveLinear solve = .ok o' ∧ o'.getTrajectory = .ok tr ∧ tr.segments.map (·.time) = [2, 3 / 2] ∧
    (∀ s, tr.segments[0]? = some s → segDeriv s 0 2 = [1, 2, 3]) ∧ (∀ s, tr.segments[1]? = some s → segDeriv s 0 0 = [1, 2, 3]) := by
  obtain ⟨o, o', tr, hh, hs, htr⟩ := C28_solves (solve := solve) sampleProblem (by omega) sampleProblem_wellFormed
    sampleProblem_acceptable (by decide)
  obtain ⟨_, htimes, hmeets⟩ := C23_constraints sampleProblem o o' hh sampleProblem_wellFormed (.inr hs) tr htr
  have ht := htimes (by omega)
  refine ⟨o, o', tr, hh, hs, htr, ht, fun s hs0 => ?_, fun s hs1 => ?_⟩
  · have e : s.time = 2 := by
      have := congrArg (fun l => l[0]?) ht
      simp only [List.getElem?_map, hs0, Option.map_some] at this
      exact Option.some.inj this
    have := (hmeets 0 s hs0 0 [1, 2, 3] (by omega)).2 _ rfl (by decide +kernel)
    rwa [e] at this
  · exact (hmeets 1 s hs1 0 [1, 2, 3] (by omega)).1 _ rfl (by decide +kernel)

/-- It has 7 fixed and 8 free constraints: 15 = 3 · 5. -/
example (solve : LinSolver ℚ) (o : LinOpt 5 ℚ) (hh : LinHistory 5 3 solve (some sampleProblem) o) : o.nFixed + o.nFree = 15 :=
  (C28_kept sampleProblem o hh sampleProblem_wellFormed).2.2.1

/-- The hypotheses of the rejecting parts of C28 hold for concrete problems. -/
example (o : LinOpt 5 ℚ) : o.setupFromVertices sampleProblem.vertices [1] 2 = .error .check :=
  C28_count_checked o ⟨sampleProblem.vertices, [1], 2⟩ (by simp) (by decide) (by decide)

example (o : LinOpt 5 ℚ) : o.setupFromVertices sampleProblem.vertices [1, 1] 5 = .error .check :=
  C28_derivative_checked o ⟨sampleProblem.vertices, [1, 1], 5⟩ (by simp)

example (solve : LinSolver ℚ) : (LinOpt.init 5 ℚ 3).setupFromVertices sampleProblem.vertices [1, 0] 2 = .error .check :=
  C28_positive_checked (solve := solve) none _ .new ⟨sampleProblem.vertices, [1, 0], 2⟩ (by omega) sampleProblem_wellFormed (by simp) (by decide)
    sampleProblem_acceptable.2.2.2.1 (by decide +kernel) (by decide +kernel)

/-- C25 for the planner's `N = 10` and a duration of one second. -/
example : ∃ A Ai : SqMat 5 ℚ, setupMappingMatrix 5 (1 : ℚ) = .ok A ∧ invertMappingMatrix A = .ok Ai ∧ A * Ai = 1 := by
  obtain ⟨A, Ai, h1, h2, h3, _⟩ := C25_partial (K := ℚ) 5 1 (by omega) (by norm_num)
  exact ⟨A, Ai, h1, h2, h3⟩

/-! ## C74: using the object again -/

/-- The full statement: whatever the object was used for before, an acceptable problem can be set up and solved. -/
def C74Full : Prop :=
  ∀ (solve : LinSolver ℚ) (p : Option (Problem ℚ)) (o : LinOpt 5 ℚ), LinHistory 5 1 solve p o →
    ∀ q : Problem ℚ, (∀ v ∈ q.vertices, WellFormed v) → AcceptableProblem 5 1 q → q.times ≠ [] →
      ∃ o' o'', o.setupFromVertices q.vertices q.times q.derivative = .ok o' ∧ o'.solveLinear solve = .ok o''

/-- After a problem with free derivatives, a problem without any makes `solveLinear` concatenate vectors whose sizes do not fit. -/
theorem C74_stale_free_values (q : Problem K) (o o' : LinOpt h K) (p : Option (Problem K)) (hh : LinHistory h dim solve p o) (hd : 0 < dim)
    (l : List K) (hl : o.freeCompact[0]? = some l) (hne : l ≠ [])
    (hs : o.setupFromVertices q.vertices q.times q.derivative = .ok o') (h0 : o'.nFree = 0) :
    o'.solveLinear solve = .error .ub := by
  obtain ⟨hi, hf⟩ := setupFromVertices_ok dim q o o' (inv_history dim solve _ o hh).1 hs
  unfold solveLinear
  rw [if_neg (by rw [hi.derivative]; exact not_not.mpr hi.range), if_pos h0]
  unfold updateSegmentsFromCompactConstraints
  rw [hi.dimension]
  obtain ⟨m, rfl⟩ : ∃ m, dim = m + 1 := ⟨dim - 1, by omega⟩
  rw [List.range_succ_eq_map, List.foldlM_cons]
  obtain ⟨hxl, hxn, _⟩ := hi.fixed_length 0 hd
  have hx0 : o'.fixedCompact[0]? = some (o'.fixedCompact[0]'(by omega)) := List.getElem?_eq_getElem (by omega)
  rw [List.getD_eq_getElem?_getD, hx0] at hxn
  simp only [Option.getD_some] at hxn
  have : updateDimension o' o'.segments 0 = .error .ub := by
    unfold updateDimension
    rw [at?_of_some hx0, hf, at?_of_some hl]
    simp only [bind, Except.bind]
    rw [if_pos (by
      have := List.length_pos_iff.mpr hne
      omega)]
  rw [this]
  rfl

/-- C74, the part that holds: if the new problem leaves some derivative free, or the object is new, setting up and solving succeeds. -/
theorem C74_partial (p : Option (Problem K)) (o : LinOpt h K) (hh : LinHistory h dim solve p o) (q : Problem K) (hN : h + h ≤ 22)
    (hw : ∀ v ∈ q.vertices, WellFormed v) (ha : AcceptableProblem h dim q) (hn : q.times ≠ [])
    (hfree : p = none ∧ o = LinOpt.init h K dim ∨ ∃ v ∈ q.vertices, ∃ k < h, v.getConstraint (k : ℕ) = none) :
    ∃ o' o'', o.setupFromVertices q.vertices q.times q.derivative = .ok o' ∧ o'.solveLinear solve = .ok o'' := by
  have hsh := (inv_history dim solve _ o hh).1
  obtain ⟨o', ho⟩ := setup_total dim q o hsh.1 hN hw ha
  obtain ⟨hi, hf⟩ := setupFromVertices_ok dim q o o' hsh ho
  obtain ⟨o'', ho'⟩ := solve_total dim q solve o' hi (List.length_pos_iff.mpr hn) (fun h0 => by
    rcases hfree with ⟨_, e⟩ | ⟨v, hv, k, hk, hc⟩
    · rw [hf, e]
      exact ⟨by simp [LinOpt.init], fun v hv => (List.mem_replicate.mp hv).2⟩
    · exfalso
      have hF := mapM_forall2 _ _ _ hi.vertices
      obtain ⟨i, hvi⟩ := List.mem_iff_getElem?.mp hv
      obtain ⟨hi1, e1⟩ := List.getElem?_eq_some_iff.mp hvi
      have hi2 : i < o'.vertices.length := by rw [← hF.length_eq]; exact hi1
      have := List.forall₂_iff_get.mp hF |>.2 i hi1 hi2
      simp only [List.get_eq_getElem, e1] at this
      have hg := (filterVertex_spec dim v _ (hw v hv) this k hk).1
      rw [hc] at hg
      have hm := (mem_free (h := h) dim q.times.length o'.vertices ⟨i, k, List.replicate dim 0⟩).mpr
        ⟨_, List.getElem?_eq_getElem hi2, hk, hg, rfl⟩
      rw [hi.nFree, List.length_eq_zero_iff] at h0
      rw [h0] at hm
      cases hm)
  exact ⟨o', o'', ho, ho'⟩

/-- A one-dimensional problem with free derivatives, and one without. -/
def looseProblem : Problem ℚ := ⟨[⟨1, [(0, [0])]⟩, ⟨1, [(0, [1])]⟩], [1], 2⟩

/-- All derivatives of both vertices are prescribed. -/
def tightProblem : Problem ℚ :=
  ⟨[⟨1, [(0, [0]), (1, [0]), (2, [0]), (3, [0]), (4, [0])]⟩, ⟨1, [(0, [1]), (1, [0]), (2, [0]), (3, [0]), (4, [0])]⟩], [1], 2⟩

theorem acceptable_of_decidable (q : Problem ℚ) (h dim : ℕ) (hd : 0 ≤ q.derivative) (hd' : q.derivative < h)
    (hl : q.vertices.length = q.times.length + 1) (hD : ∀ v ∈ q.vertices, v.D = dim) (hw : ∀ v ∈ q.vertices, WellFormed v)
    (ht : ∀ t ∈ q.times, 1 / 2 ^ 52 ≤ t) : AcceptableProblem h dim q := by
  refine ⟨hd, hd', hl, ?_, ht⟩
  intro v hv k c _ hc
  rw [← hD v hv]
  exact (hw v hv).2 _ ((IntMap.find_some_iff _ (hw v hv).1 k c).mp hc)

theorem looseProblem_wellFormed : ∀ v ∈ looseProblem.vertices, WellFormed v := by unfold WellFormed; decide +kernel

theorem tightProblem_wellFormed : ∀ v ∈ tightProblem.vertices, WellFormed v := by unfold WellFormed; decide +kernel

theorem C74_refuted : ¬C74Full := by
  intro hf
  have solve : LinSolver ℚ := fun _ _ b => b
  have hl := acceptable_of_decidable looseProblem 5 1 (by decide) (by decide) rfl (by decide +kernel) looseProblem_wellFormed
    (by decide +kernel)
  have ht := acceptable_of_decidable tightProblem 5 1 (by decide) (by decide) rfl (by decide +kernel) tightProblem_wellFormed
    (by decide +kernel)
  obtain ⟨o1, o2, h1, h2⟩ := hf solve none _ .new looseProblem looseProblem_wellFormed hl (by decide)
  have hh1 : LinHistory 5 1 solve (some looseProblem) o1 := .setup looseProblem .new h1
  have hh2 : LinHistory 5 1 solve (some looseProblem) o2 := .solve hh1 h2
  have hi1 := (inv_history 1 solve _ o1 hh1).2 _ rfl
  have hpos : 0 < o1.nFree := by
    have hk := (C28_kept looseProblem o1 hh1 looseProblem_wellFormed).2.1
    have hlen : o1.vertices.length = 2 := hi1.vertices_length
    have hm := (mem_free (h := 5) 1 looseProblem.times.length o1.vertices ⟨0, 1, [0]⟩).mpr
      ⟨_, List.getElem?_eq_getElem (show 0 < o1.vertices.length by omega), by simp,
        ((hk 0 _ _ rfl (List.getElem?_eq_getElem (by omega))).1 1 (by omega)).trans (by decide +kernel), rfl⟩
    rw [hi1.nFree]
    exact List.length_pos_of_mem hm
  obtain ⟨free, hu, hfree⟩ := solveLinear_ok solve o1 o2 h2
  rcases hfree with ⟨e, _⟩ | ⟨R, _, _, efree⟩
  · omega
  have hfc : o2.freeCompact = free := by
    obtain ⟨segs, e, _⟩ := updateSegments_spec { o1 with freeCompact := free } o2 1 hi1.dimension
      (hi1.segLength.trans hi1.nSegments.symm) hi1.shape hu
    rw [e]
  obtain ⟨hxl, _, _⟩ := hi1.fixed_length 0 (by omega)
  obtain ⟨o3, o4, h3, h4⟩ := hf solve _ o2 hh2 tightProblem tightProblem_wellFormed ht (by decide)
  have hh3 : LinHistory 5 1 solve (some tightProblem) o3 := .setup tightProblem hh2 h3
  have hi3 := (inv_history 1 solve _ o3 hh3).2 _ rfl
  have hzero : o3.nFree = 0 := by
    have hk := (C28_kept tightProblem o3 hh3 tightProblem_wellFormed).2.1
    rw [hi3.nFree, List.length_eq_zero_iff, List.eq_nil_iff_forall_not_mem]
    intro x hx
    obtain ⟨v, hv, hlt, hnone, _⟩ := (mem_free _ _ _ _).mp hx
    have hvl : x.vertexIdx < 2 := by
      have := (List.getElem?_eq_some_iff.mp hv).1
      rw [hi3.vertices_length] at this
      exact this
    have hv0 : tightProblem.vertices[x.vertexIdx]? = some (tightProblem.vertices[x.vertexIdx]'hvl) := List.getElem?_eq_getElem hvl
    have := ((hk _ _ v hv0 hv).1 x.constraintIdx hlt).symm.trans hnone
    have hall : ∀ v ∈ tightProblem.vertices, ∀ k < 5, v.getConstraint (k : ℕ) ≠ none := by decide +kernel
    exact hall _ (List.getElem_mem _) _ hlt this
  have h5 := C74_stale_free_values (solve := solve) tightProblem o2 o3 _ hh2 (by omega) _
    (by rw [hfc, efree, List.getElem?_map, List.getElem?_eq_getElem (by omega)]; rfl)
    (by
      intro e
      have := congrArg List.length e
      simp only [solveDimension, List.length_ofFn, List.length_nil] at this
      omega) h3 hzero
  rw [h5] at h4
  cases h4

/-- The hypotheses of `C74_partial` hold for an object that already solved another problem. -/
example (solve : LinSolver ℚ) (o : LinOpt 5 ℚ) (hh : LinHistory 5 3 solve (some sampleProblem) o) :
    ∃ o' o'', o.setupFromVertices sampleProblem.vertices sampleProblem.times sampleProblem.derivative = .ok o' ∧
      o'.solveLinear solve = .ok o'' :=
  C74_partial _ o hh sampleProblem (by omega) sampleProblem_wellFormed sampleProblem_acceptable (by decide)
    (.inr ⟨⟨3, [(0, [1, 2, 3]), (7, [1, 1, 1])]⟩, by decide +kernel, 1, by omega, by decide +kernel⟩)

end Verif.Properties
