import Verif.Lemmas.LinearOptCost
import Verif.Properties.LinearOpt

/-!
# Properties C26 and C27: cost and optimality of the linear optimisation
-/

set_option linter.unusedSectionVars false

namespace Verif.Properties

open Verif Spec Lemmas LinOpt Matrix

variable {h dim : ℕ} {solve : LinSolver ℝ}

/-- C26: the matrix is symmetric, its quadratic form is twice the integral of the squared derivative, and so non-negative for `0 ≤ t`. -/
theorem C26_cost_matrix (h d : ℕ) (t : ℝ) (Q : SqMat h ℝ) (hQ : computeQuadraticCostJacobian h d t = .ok Q) :
    Qᵀ = Q ∧ (∀ c : Fin (h + h) → ℝ, c ⬝ᵥ (Q *ᵥ c) = 2 * ∫ x in (0 : ℝ)..t, derivAt (List.ofFn c) d x ^ 2) ∧
    (0 ≤ t → ∀ c : Fin (h + h) → ℝ, 0 ≤ c ⬝ᵥ (Q *ᵥ c)) := by
  have hd : d < h + h ∧ h + h ≤ 22 := by
    unfold computeQuadraticCostJacobian kMaxConvolutionSize at hQ
    split at hQ
    · cases hQ
    split at hQ
    · cases hQ
    omega
  rw [computeQuadraticCostJacobian_ok h d t hd.1 hd.2] at hQ
  rw [← Except.ok.inj hQ]
  refine ⟨costMatrix_symm d t, fun c => cost_integral d t c, fun ht c => ?_⟩
  rw [cost_integral]
  exact mul_nonneg (by norm_num) (polyEnergy_nonneg d t ht _)

/-- The matrix exists exactly for orders below `N`, with the table's limit on `N`. -/
theorem C26_exists (h d : ℕ) (t : ℝ) : (∃ Q, computeQuadraticCostJacobian h d t = .ok Q) ↔ d < h + h ∧ h + h ≤ 22 := by
  constructor
  · rintro ⟨Q, hQ⟩
    unfold computeQuadraticCostJacobian kMaxConvolutionSize at hQ
    split at hQ
    · cases hQ
    split at hQ
    · cases hQ
    omega
  · rintro ⟨h1, h2⟩
    exact ⟨_, computeQuadraticCostJacobian_ok h d t h1 h2⟩

/-- C26: at any time the reported cost is the integral of the squared derivative of the stored polynomials over the current times. -/
theorem C26_cost (q : Problem ℝ) (o : LinOpt h ℝ) (hh : LinHistory h dim solve (some q) o) :
    o.computeCost = .ok (((q.times.zip o.segments).map fun x => (x.2.polys.map (polyEnergy q.derivative.toNat x.1)).sum).sum) := by
  have hi := (inv_history dim solve _ o hh).2 q rfl
  have hcl : o.costs.length = q.times.length := by
    obtain ⟨ms, hm, hc, _⟩ := hi.matrices
    rw [hc, List.length_map, ← (mapM_forall2 _ _ _ hm).length_eq]
  unfold computeCost
  rw [if_neg (by rw [hi.nSegments, hi.segLength, hcl]; simp)]
  have hpart : (List.zip o.costs o.segments).mapM (fun x : SqMat h ℝ × Segment ℝ => (do
      let ps ← (List.range o.dimension).mapM x.2.index
      return (ps.map (quadForm x.1)).sum : Res ℝ)) =
      .ok ((q.times.zip o.segments).map fun x => 2 * (x.2.polys.map (polyEnergy q.derivative.toNat x.1)).sum) := by
    apply mapM_of_forall2
    rw [List.forall₂_iff_get]
    refine ⟨by simp [hcl], ?_⟩
    intro i h1 h2
    have hin : i < q.times.length := by simp at h2; omega
    have his : i < o.segments.length := by rw [hi.segLength]; exact hin
    obtain ⟨h22, _, _, hcost⟩ := hi.segment i _ (List.getElem?_eq_getElem hin)
    obtain ⟨hc1, hc2⟩ := List.getElem?_eq_some_iff.mp hcost
    simp only [List.get_eq_getElem, List.getElem_zip, List.getElem_map]
    obtain ⟨_, hpl, hpn⟩ := hi.shape _ (List.getElem_mem his)
    have hps : (List.range o.dimension).mapM (o.segments[i]).index = .ok (o.segments[i]).polys := by
      apply mapM_of_forall2
      rw [List.forall₂_iff_get]
      refine ⟨by rw [hi.dimension, hpl]; simp, ?_⟩
      intro j hj1 hj2
      simp only [List.get_eq_getElem, List.getElem_range]
      unfold Segment.index
      rw [List.getElem?_eq_getElem hj2]
    rw [hps]
    simp only [bind, Except.bind, pure, Except.pure]
    rw [hc2]
    congr 1
    rw [← List.sum_map_mul_left]
    congr 1
    apply List.map_congr_left
    intro p hp
    exact quadForm_integral _ _ p (le_of_eq (hpn p hp))
  rw [hpart]
  simp only [bind, Except.bind, pure, Except.pure]
  congr 1
  rw [List.sum_map_mul_left]
  ring

/-- After solving or setting free values, the reported cost is the integral over the segments. -/
theorem C26_cost_solved (q : Problem ℝ) (o o' : LinOpt h ℝ) (hh : LinHistory h dim solve (some q) o)
    (hu : (∃ values, o.setFreeConstraints values = .ok o') ∨ o.solveLinear solve = .ok o') :
    o'.computeCost = .ok (energy q.derivative.toNat o'.segments) := by
  have hi := (inv_history dim solve _ o hh).2 q rfl
  obtain ⟨free, _, _, hl, _, hs⟩ := solved_spec dim q solve o o' hi hu
  have hh' : LinHistory h dim solve (some q) o' := by
    rcases hu with ⟨values, hu⟩ | hu
    · exact .free values hh hu
    · exact .solve hh hu
  rw [C26_cost q o' hh']
  congr 2
  apply List.ext_getElem?
  intro i
  rw [List.getElem?_map, List.getElem?_map]
  by_cases hin : i < q.times.length
  · have hsi : o'.segments[i]? = some (o'.segments[i]'(by omega)) := List.getElem?_eq_getElem (by omega)
    have hz : (q.times.zip o'.segments)[i]? = some (q.times[i], o'.segments[i]'(by omega)) := by
      rw [List.getElem?_eq_getElem (by simp; omega)]
      simp
    rw [hz, hsi]
    simp only [Option.map_some]
    congr 2
    obtain ⟨⟨_, hpl, _⟩, ht, _⟩ := hs i _ hsi
    apply List.map_congr_left
    intro p hp
    have hd : 0 < dim := by rw [← hpl]; exact List.length_pos_of_mem hp
    rw [List.getElem?_eq_getElem hin] at ht
    rw [Option.some.inj (ht hd)]
  · rw [List.getElem?_eq_none (by simp; omega), List.getElem?_eq_none (by omega)]
    rfl

/-- What the object holds after setting free values is a candidate. -/
theorem solved_candidate (q : Problem ℝ) (o o' : LinOpt h ℝ) (hh : LinHistory h dim solve (some q) o) (hw : ∀ v ∈ q.vertices, WellFormed v)
    (hd : 0 < dim) (hu : (∃ values, o.setFreeConstraints values = .ok o') ∨ o.solveLinear solve = .ok o') :
    Candidate h dim q o'.segments := by
  have hi := (inv_history dim solve _ o hh).2 q rfl
  obtain ⟨free, _, _, hl, _, hs⟩ := solved_spec dim q solve o o' hi hu
  have hshape : ∀ s ∈ o'.segments, SegShape h dim s := by
    intro s hm
    obtain ⟨i, hi⟩ := List.mem_iff_getElem?.mp hm
    exact (hs i s hi).1
  by_cases hne : o'.segments = []
  · refine ⟨?_, by simp [hne], by simp [hne], ?_, ?_⟩
    · rw [hne, List.length_nil] at hl
      rw [hne, List.length_eq_zero_iff.mp hl.symm]
      rfl
    · intro i s hsi; rw [hne] at hsi; simp at hsi
    · intro i s s' hsi; rw [hne] at hsi; simp at hsi
  · obtain ⟨tr, htr⟩ := getTrajectory_total dim o' hshape hne
    have es : tr.segments = o'.segments := setSegments_segments _ _ htr
    obtain ⟨_, ht, hm⟩ := C23_constraints q o o' hh hw hu tr htr
    have hsm := C24_smooth q o o' hh hu tr htr
    rw [es] at ht hm hsm
    exact ⟨ht hd, fun s hm => (hshape s hm).2.1, fun s hm p hp => le_of_eq ((hshape s hm).2.2 p hp), hm, hsm⟩

/-- C27: with a solver that solves solvable systems exactly, the trajectory of `solveLinear` has the least integral of the squared derivative
among all piecewise polynomials for the problem, whatever the object was used for before. -/
theorem C27_optimal (q : Problem ℝ) (o o' : LinOpt h ℝ) (hh : LinHistory h dim solve (some q) o) (hw : ∀ v ∈ q.vertices, WellFormed v)
    (hs : SolvesSystems solve) (hu : o.solveLinear solve = .ok o') (tr : Trajectory ℝ) (htr : o'.getTrajectory = .ok tr) :
    (0 < dim → Candidate h dim q tr.segments) ∧
    ∀ segs, Candidate h dim q segs → energy q.derivative.toNat tr.segments ≤ energy q.derivative.toNat segs := by
  have hi := (inv_history dim solve _ o hh).2 q rfl
  rw [setSegments_segments _ _ htr]
  exact ⟨fun hd => solved_candidate q o o' hh hw hd (.inr hu), fun segs hc => solve_optimal solve hs hi hw hu segs hc⟩

/-- C27 in terms of the reported costs: no choice of free values has a lower cost. -/
theorem C27_cost (q : Problem ℝ) (o o' o'' : LinOpt h ℝ) (hh : LinHistory h dim solve (some q) o) (hw : ∀ v ∈ q.vertices, WellFormed v)
    (hd : 0 < dim) (hs : SolvesSystems solve) (hu : o.solveLinear solve = .ok o') (values : List (List ℝ))
    (hv : o.setFreeConstraints values = .ok o'') :
    ∃ a b, o'.computeCost = .ok a ∧ o''.computeCost = .ok b ∧ a ≤ b := by
  have hi := (inv_history dim solve _ o hh).2 q rfl
  exact ⟨_, _, C26_cost_solved q o o' hh (.inr hu), C26_cost_solved q o o'' hh (.inl ⟨values, hv⟩),
    solve_optimal solve hs hi hw hu _ (solved_candidate q o o'' hh hw hd (.inl ⟨values, hv⟩))⟩

/-- An exact solver exists. -/
noncomputable def exactSolver : LinSolver ℝ := by
  classical
  exact fun _ A b => if hx : ∃ x, A.mulVec x = b then hx.choose else 0

theorem exactSolver_solves : SolvesSystems exactSolver := by
  intro n A b hx
  unfold exactSolver
  rw [dif_pos hx]
  exact hx.choose_spec

/-- A real problem with three vertices in three dimensions and free derivatives. -/
noncomputable def realProblem : Problem ℝ :=
  ⟨[⟨3, [(0, [0, 0, 0]), (1, [0, 0, 0])]⟩, ⟨3, [(0, [1, 2, 3])]⟩, ⟨3, [(0, [4, 5, 6]), (1, [0, 0, 0])]⟩], [2, 3], 4⟩

theorem realProblem_wellFormed : ∀ v ∈ realProblem.vertices, WellFormed v := by
  intro v hv
  simp only [realProblem, List.mem_cons, List.not_mem_nil, or_false] at hv
  rcases hv with rfl | rfl | rfl <;> refine ⟨?_, ?_⟩ <;> simp

theorem realProblem_acceptable : AcceptableProblem 5 3 realProblem := by
  refine ⟨by norm_num [realProblem], by norm_num [realProblem], rfl, ?_, ?_⟩
  · intro v hv k c _ hc
    have hw := realProblem_wellFormed v hv
    have := hw.2 _ ((IntMap.find_some_iff _ hw.1 k c).mp hc)
    simp only [realProblem, List.mem_cons, List.not_mem_nil, or_false] at hv
    rcases hv with rfl | rfl | rfl <;> exact this
  · intro t ht
    simp only [realProblem, List.mem_cons, List.not_mem_nil, or_false] at ht
    rcases ht with rfl | rfl <;> norm_num

/-- The hypotheses of `C27_optimal` are met by a concrete problem on a new object. -/
example : ∃ o o' tr, LinHistory 5 3 exactSolver (some realProblem) o ∧ o.solveLinear exactSolver = .ok o' ∧ o'.getTrajectory = .ok tr ∧
    ∀ segs, Candidate 5 3 realProblem segs → energy 4 tr.segments ≤ energy 4 segs := by
  obtain ⟨o, o', tr, hh, hs, htr⟩ := C28_solves (solve := exactSolver) (h := 5) (dim := 3) realProblem (by omega) realProblem_wellFormed
    realProblem_acceptable (by simp [realProblem])
  exact ⟨o, o', tr, hh, hs, htr, (C27_optimal realProblem o o' hh realProblem_wellFormed exactSolver_solves hs tr htr).2⟩

/-- The snap cost matrix of the planner's size exists and is the stated integral. -/
example : ∃ Q, computeQuadraticCostJacobian 5 4 (2 : ℝ) = .ok Q ∧
    ∀ c : Fin (5 + 5) → ℝ, c ⬝ᵥ (Q *ᵥ c) = 2 * ∫ x in (0 : ℝ)..2, derivAt (List.ofFn c) 4 x ^ 2 := by
  obtain ⟨Q, hQ⟩ := (C26_exists 5 4 2).mpr (by omega)
  exact ⟨Q, hQ, (C26_cost_matrix 5 4 2 Q hQ).2.1⟩

end Verif.Properties
