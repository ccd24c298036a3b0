import Mathlib.Algebra.BigOperators.Fin
import Mathlib.Logic.Equiv.Fin.Basic
import Verif.Model.OptMagnitude
import Verif.Properties.LinearOpt

/-!
# Property C76: the matrices the optimisation object hands out

`A` maps coefficients to end derivatives, `A⁻¹` back, `M` spreads the compact constraints over the segments and its pseudo-inverse collects
them.
-/

set_option linter.unusedSectionVars false

namespace Verif.Properties

open Verif Spec Lemmas LinOpt

variable {K : Type*} [Field K] [LinearOrder K] [IsStrictOrderedRing K] {h dim : ℕ} {solve : LinSolver K}

/-- C01: the row of base coefficients for order `d` and time `t`: multiplied with any `N` coefficients it gives their `d`-th derivative at `t` (for times that are
zero or not below the tolerance of the code); orders not below `N` abort, more than 22 coefficients read outside the table. -/
theorem C01_baseCoeffsWithTime (N d : ℕ) (t : K) :
    (d < N → N ≤ 22 → ∃ row, Poly.baseCoeffsWithTime N d t = .ok row ∧ row.length = N ∧
      ((t = 0 ∨ 1 / 2 ^ 52 ≤ |t|) → ∀ c : List K, c.length = N → ∑ j ∈ Finset.range N, row.getD j 0 * c.getD j 0 = derivAt c d t)) ∧
    (N ≤ d → Poly.baseCoeffsWithTime N d t = .error .check) ∧ (d < N → 22 < N → Poly.baseCoeffsWithTime N d t = .error .ub) := by
  refine ⟨fun hd hN => ?_, fun hd => ?_, fun hd hN => ?_⟩
  · obtain ⟨row, hrow, hlen⟩ : ∃ row, Poly.baseCoeffsWithTime N d t = .ok row ∧ row.length = N := by
      unfold Poly.baseCoeffsWithTime
      rw [if_neg (by omega), if_neg (by unfold kMaxConvolutionSize; omega)]
      exact ⟨_, rfl, by simp⟩
    refine ⟨row, hrow, hlen, fun ht c hc => ?_⟩
    unfold derivAt ofCoeffs
    rw [Polynomial.iterate_derivative_sum, Polynomial.eval_finsetSum, hc]
    refine Finset.sum_congr rfl fun j hj => ?_
    rw [row_getD N d t row hrow ht j (Finset.mem_range.mp hj), Polynomial.iterate_derivative_C_mul, Polynomial.iterate_derivative_X_pow_eq_natCast_mul,
      baseEntry_eq]
    simp
    ring
  · unfold Poly.baseCoeffsWithTime
    rw [if_pos hd]
  · unfold Poly.baseCoeffsWithTime
    rw [if_neg (by omega), if_pos (by unfold kMaxConvolutionSize; omega)]

-- the row of the first derivative at 2 of four coefficients
example : Poly.baseCoeffsWithTime 4 1 (2 : ℚ) = .ok [0, 1, 4, 12] := by decide +kernel

theorem sum_blocks (n N : ℕ) (f : ℕ → K) : ∑ j ∈ Finset.range (n * N), f j = ∑ i ∈ Finset.range n, ∑ j : Fin N, f (i * N + j) := by
  rw [Finset.sum_range, Finset.sum_range]
  rw [← (finProdFinEquiv (m := n) (n := N)).sum_comp (fun j => f j), Fintype.sum_prod_type]
  refine Finset.sum_congr rfl fun i _ => Finset.sum_congr rfl fun j _ => ?_
  simp only [finProdFinEquiv_apply_val]
  congr 1
  rw [Nat.add_comm, Nat.mul_comm]

/-- Block `i` of a block-diagonal matrix. -/
theorem blockDiagonal_block (ms : List (SqMat h K)) (i i' : ℕ) (a b : Fin (h + h)) :
    blockDiagonal ms (i * (h + h) + a) (i' * (h + h) + b) = if i = i' then ms.getD i 0 a b else 0 := by
  have hpos : 0 < h + h := lt_of_le_of_lt (Nat.zero_le _) a.2
  have hd : ∀ (i : ℕ) (a : Fin (h + h)), (i * (h + h) + a) / (h + h) = i := by
    intro i a
    rw [Nat.mul_comm, Nat.mul_add_div hpos, Nat.div_eq_of_lt a.2, Nat.add_zero]
  have hm : ∀ (i : ℕ) (a : Fin (h + h)), (i * (h + h) + a) % (h + h) = a := by
    intro i a
    rw [Nat.mul_comm, Nat.mul_add_mod, Nat.mod_eq_of_lt a.2]
  unfold blockDiagonal
  rw [dif_pos hpos]
  simp only [hd, hm]

theorem blockDiagonal_mul (n : ℕ) (ms ms' : List (SqMat h K)) (hm : ∀ i < n, ms.getD i 0 * ms'.getD i 0 = 1) (r c : ℕ)
    (hr : r < n * (h + h)) (hc : c < n * (h + h)) :
    ∑ j ∈ Finset.range (n * (h + h)), blockDiagonal ms r j * blockDiagonal ms' j c = if r = c then 1 else 0 := by
  have hpos : 0 < h + h := by
    rcases Nat.eq_zero_or_pos (h + h) with e | e
    · rw [e] at hr; omega
    · exact e
  obtain ⟨i, a, rfl⟩ : ∃ (i : ℕ) (a : Fin (h + h)), r = i * (h + h) + a :=
    ⟨r / (h + h), ⟨r % (h + h), Nat.mod_lt _ hpos⟩, by rw [Nat.mul_comm]; exact (Nat.div_add_mod r (h + h)).symm⟩
  obtain ⟨i', b, rfl⟩ : ∃ (i : ℕ) (a : Fin (h + h)), c = i * (h + h) + a :=
    ⟨c / (h + h), ⟨c % (h + h), Nat.mod_lt _ hpos⟩, by rw [Nat.mul_comm]; exact (Nat.div_add_mod c (h + h)).symm⟩
  have hi : i < n := by
    by_contra hcon
    have := Nat.mul_le_mul_right (h + h) (not_lt.mp hcon)
    omega
  rw [sum_blocks]
  simp only [blockDiagonal_block]
  rw [Finset.sum_eq_single i]
  · simp only [if_true]
    by_cases e : i = i'
    · subst e
      have := congrFun (congrFun (hm i hi) a) b
      rw [Matrix.mul_apply, Matrix.one_apply] at this
      simp only [if_true]
      rw [this]
      by_cases eab : a = b
      · subst eab; simp
      · rw [if_neg eab, if_neg]
        intro hcon
        exact eab (Fin.ext (by omega))
    · simp only [if_neg e, mul_zero, Finset.sum_const_zero]
      rw [if_neg]
      intro hcon
      apply e
      have h1 := congrArg (· / (h + h)) hcon
      rwa [Nat.mul_comm, Nat.mul_add_div hpos, Nat.div_eq_of_lt a.2, Nat.add_zero, Nat.mul_comm, Nat.mul_add_div hpos,
        Nat.div_eq_of_lt b.2, Nat.add_zero] at h1
  · intro j _ hj
    refine Finset.sum_eq_zero fun x _ => ?_
    rw [if_neg (Ne.symm hj), zero_mul]
  · intro hni
    exact absurd (Finset.mem_range.mpr hi) hni

/-- C76: for every object that holds a problem, the matrix `getA` returns and the one `getAInverse` returns are inverse to each other; both
are square of size `N` times the number of segments. -/
theorem C76_inverse (q : Problem K) (o : LinOpt h K) (hh : LinHistory h dim solve (some q) o) :
    ∃ A, o.getA = .ok A ∧ ∀ r c, r < q.times.length * (h + h) → c < q.times.length * (h + h) →
      (∑ j ∈ Finset.range (q.times.length * (h + h)), A r j * o.getAInverse j c = if r = c then 1 else 0) ∧
      (∑ j ∈ Finset.range (q.times.length * (h + h)), o.getAInverse r j * A j c = if r = c then 1 else 0) := by
  have hi := (inv_history dim solve _ o hh).2 q rfl
  have hm : (o.times.take o.nSegments).mapM (fun t => if 0 < t then setupMappingMatrix h t else .error .check) =
      .ok (q.times.map (endpointMap h)) := by
    rw [hi.times, hi.nSegments, List.take_length]
    apply mapM_ok
    intro t ht
    obtain ⟨i, hti⟩ := List.mem_iff_getElem?.mp ht
    obtain ⟨hN, hge, _⟩ := hi.segment i t hti
    have h0 : 0 < t := lt_of_lt_of_le dblEps_pos hge
    rw [if_pos h0]
    exact setupMappingMatrix_ok h t hN (by rw [abs_of_pos h0]; exact hge)
  have hms : ∀ i < q.times.length, ∃ t : K, t ≠ 0 ∧ (q.times.map (endpointMap h)).getD i 0 = endpointMap h t ∧
      (o.invMaps.take o.nSegments).getD i 0 = (endpointMap h t)⁻¹ := by
    intro i hlt
    have ht : q.times[i]? = some (q.times[i]'hlt) := List.getElem?_eq_getElem hlt
    obtain ⟨_, hge, hinv, _⟩ := hi.segment i _ ht
    refine ⟨_, (lt_of_lt_of_le dblEps_pos hge).ne', ?_, ?_⟩
    · rw [List.getD_eq_getElem?_getD, List.getElem?_map, ht]; rfl
    · rw [List.getD_eq_getElem?_getD, List.getElem?_take_of_lt (by rw [hi.nSegments]; exact hlt), hinv]; rfl
  refine ⟨blockDiagonal (q.times.map (endpointMap h)), ?_, ?_⟩
  · unfold getA
    rw [hm]
    rfl
  · intro r c hr hc
    constructor
    · exact blockDiagonal_mul q.times.length _ _ (fun i hlt => by
        obtain ⟨t, ht, e1, e2⟩ := hms i hlt
        rw [e1, e2, endpointMap_mul_inv h t ht]) r c hr hc
    · exact blockDiagonal_mul q.times.length _ _ (fun i hlt => by
        obtain ⟨t, ht, e1, e2⟩ := hms i hlt
        rw [e1, e2, endpointMap_inv_mul h t ht]) r c hr hc

theorem getM_eq (q : Problem K) (o : LinOpt h K) (hi : Inv dim q o) (r c : ℕ) :
    getM o r c = match (constraintSeq h dim q.times.length o.vertices)[r]?, (cols h dim q.times.length o.vertices)[c]? with
      | some x, some y => if x.2.key = y.key then 1 else 0
      | _, _ => 0 := by
  unfold getM
  rw [hi.reorder, List.getD_eq_getElem?_getD, List.getD_eq_getElem?_getD, List.getElem?_map]
  cases hx : (constraintSeq h dim q.times.length o.vertices)[r]? with
  | none => simp
  | some x =>
    simp only [Option.map_some, Option.getD_some]
    unfold reorderRow
    rw [List.getElem?_map]
    cases hy : (cols h dim q.times.length o.vertices)[c]? with
    | none => simp
    | some y =>
      simp only [Option.map_some, Option.getD_some]
      by_cases e : x.2.key = y.key
      · rw [if_pos e, if_pos ((Constraint.eqKey_iff _ _).mpr e)]
      · rw [if_neg e, if_neg (fun hc => e ((Constraint.eqKey_iff _ _).mp hc))]

/-- C76: every row of `M` has a single nonzero entry, which is one; `M` has `N` rows per segment. -/
theorem C76_selection (q : Problem K) (o : LinOpt h K) (hh : LinHistory h dim solve (some q) o) (hq : q.times ≠ []) (r : ℕ)
    (hr : r < q.times.length * (h + h)) :
    ∃ c < o.nFixed + o.nFree, ∀ c' < o.nFixed + o.nFree, getM o r c' = if c' = c then 1 else 0 := by
  have hi := (inv_history dim solve _ o hh).2 q rfl
  have hlen : (cols h dim q.times.length o.vertices).length = o.nFixed + o.nFree := by
    rw [hi.nFixed, hi.nFree, ← List.length_append]; rfl
  have hseq := length_constraintSeq (h := h) dim o.vertices q.times.length hi.vertices_length (List.length_pos_iff.mpr hq)
  have hx : (constraintSeq h dim q.times.length o.vertices)[r]? = some ((constraintSeq h dim q.times.length o.vertices)[r]'(by omega)) :=
    List.getElem?_eq_getElem _
  obtain ⟨idx, v, k, hv, hk, e⟩ := (mem_constraintSeq _ _ _ _).mp (List.mem_of_getElem? hx)
  obtain ⟨m, c, hm, hck⟩ := key_mem_cols (h := h) dim q.times.length o.vertices idx k (List.getElem?_eq_some_iff.mp hv).1 hk
  have hm' : (cols h dim q.times.length o.vertices)[m]? = some c := hm
  refine ⟨m, by rw [← hlen]; exact (List.getElem?_eq_some_iff.mp hm').1, fun c' hc' => ?_⟩
  rw [getM_eq q o hi, hx]
  have hy : (cols h dim q.times.length o.vertices)[c']? = some ((cols h dim q.times.length o.vertices)[c']'(by omega)) :=
    List.getElem?_eq_getElem _
  rw [hy]
  simp only
  have hkey : ((constraintSeq h dim q.times.length o.vertices)[r]'(by omega)).2.key = c.key := by
    rw [e, constraintOf_key, hck]
  have hnd := cols_nodup (h := h) dim q.times.length o.vertices
  by_cases ecm : c' = m
  · rw [if_pos ecm, if_pos]
    rw [hkey]
    subst ecm
    rw [hm'] at hy
    rw [← Option.some.inj hy]
  · rw [if_neg ecm, if_neg]
    rw [hkey]
    intro hcon
    apply ecm
    obtain ⟨hm1, em⟩ := List.getElem?_eq_some_iff.mp hm'
    refine (List.Nodup.getElem_inj_iff hnd (hi := ?_) (hj := ?_)).mp ?_
    · rw [List.length_map]
      change c' < (cols h dim q.times.length o.vertices).length
      omega
    · rw [List.length_map]; exact hm1
    · rw [List.getElem_map, List.getElem_map]
      change ((cols h dim q.times.length o.vertices)[c']).key = ((cols h dim q.times.length o.vertices)[m]).key
      rw [em, hcon]

/-- C76: `getMpinv` is a left inverse of `M` (all its entries are finite). -/
theorem C76_pseudo_inverse (q : Problem K) (o : LinOpt h K) (hh : LinHistory h dim solve (some q) o) (hq : q.times ≠ []) (r : ℕ)
    (hr : r < o.nFixed + o.nFree) :
    ∃ p : ℕ → K, (∀ j, getMpinv o r j = some (p j)) ∧ ∀ c < o.nFixed + o.nFree,
      ((List.range o.nAll).map fun j => p j * getM o j c).sum = if r = c then 1 else 0 := by
  have hi := (inv_history dim solve _ o hh).2 q rfl
  have hpos := List.length_pos_iff.mpr hq
  have hseq := length_constraintSeq (h := h) dim o.vertices q.times.length hi.vertices_length hpos
  have hall : o.nAll = q.times.length * (h + h) := by rw [hi.nAll, hseq]
  have hlen : (cols h dim q.times.length o.vertices).length = o.nFixed + o.nFree := by
    rw [hi.nFixed, hi.nFree, ← List.length_append]; rfl
  -- the sum of a column is at least one
  have hsum : ∀ r < o.nFixed + o.nFree, 0 < ((List.range o.nAll).map fun j => getM o j r).sum := by
    intro r hr
    have hnn : ∀ j, 0 ≤ getM o j r := by
      intro j
      rw [getM_eq q o hi]
      split
      · split <;> norm_num
      · exact le_refl _
    have hy : (cols h dim q.times.length o.vertices)[r]? = some ((cols h dim q.times.length o.vertices)[r]'(by omega)) :=
      List.getElem?_eq_getElem _
    have hmem : ∃ x ∈ constraintSeq h dim q.times.length o.vertices, x.2 = (cols h dim q.times.length o.vertices)[r]'(by omega) := by
      have hmc := List.mem_of_getElem? hy
      unfold cols at hmc
      obtain ⟨_, _, s3, s4, _, _⟩ := constraintSets_spec (constraintSeq h dim q.times.length o.vertices)
      rcases List.mem_append.mp hmc with hm | hm
      · exact ⟨_, s3 _ hm, rfl⟩
      · exact ⟨_, s4 _ hm, rfl⟩
    obtain ⟨x, hx, ex⟩ := hmem
    obtain ⟨j, hj⟩ := List.mem_iff_getElem?.mp hx
    have hjl : j < o.nAll := by rw [hi.nAll]; exact (List.getElem?_eq_some_iff.mp hj).1
    have h1 : getM o j r = 1 := by
      rw [getM_eq q o hi, hj, hy]
      simp only
      rw [if_pos (by rw [ex])]
    have hle : getM o j r ≤ ((List.range o.nAll).map fun j => getM o j r).sum :=
      List.single_le_sum (fun y hy => by obtain ⟨a, _, rfl⟩ := List.mem_map.mp hy; exact hnn a) _
        (List.mem_map.mpr ⟨j, List.mem_range.mpr hjl, rfl⟩)
    rw [h1] at hle
    exact lt_of_lt_of_le one_pos hle
  have hs := hsum r hr
  refine ⟨fun j => getM o j r / ((List.range o.nAll).map fun j => getM o j r).sum, fun j => ?_, fun c hc => ?_⟩
  · unfold getMpinv
    simp only
    rw [if_neg hs.ne']
  · have hprod : ∀ j ∈ List.range o.nAll, getM o j r / ((List.range o.nAll).map fun j => getM o j r).sum * getM o j c =
        (if r = c then getM o j r else 0) * (1 / ((List.range o.nAll).map fun j => getM o j r).sum) := by
      intro j hj
      obtain ⟨m, _, hm⟩ := C76_selection q o hh hq j (by rw [← hall]; exact List.mem_range.mp hj)
      rw [hm r hr, hm c hc]
      by_cases e : r = c
      · subst e
        rw [if_pos rfl]
        split <;> simp
      · rw [if_neg e]
        by_cases e1 : r = m
        · rw [if_neg (show ¬ c = m from fun hc' => e (e1.trans hc'.symm))]; simp
        · rw [if_neg e1]; simp
    rw [List.map_congr_left hprod, List.sum_map_mul_right]
    by_cases e : r = c
    · simp only [if_pos e]
      rw [mul_one_div, div_self hs.ne']
    · simp only [if_neg e]
      simp

/-- The hypotheses hold for the sample problem. -/
example (solve : LinSolver ℚ) : ∃ o : LinOpt 5 ℚ, LinHistory 5 3 solve (some sampleProblem) o ∧ sampleProblem.times ≠ [] := by
  obtain ⟨o, _, _, hh, _⟩ := C28_solves (solve := solve) sampleProblem (by omega) sampleProblem_wellFormed
    sampleProblem_acceptable (by decide)
  exact ⟨o, hh, by decide⟩

end Verif.Properties
