import Mathlib.Algebra.Polynomial.FieldDivision
import Mathlib.Data.List.GetD
import Mathlib.LinearAlgebra.Matrix.SchurComplement
import Mathlib.LinearAlgebra.Matrix.ToLinearEquiv
import Mathlib.RingTheory.Coprime.Lemmas
import Verif.Model.LinearOpt
import Verif.Lemmas.Polynomial
import Verif.Lemmas.Trajectory

/-!
# The matrices of one segment
-/

set_option linter.unusedSectionVars false
set_option linter.unusedSimpArgs false

namespace Verif

open Polynomial Spec

section Ring
variable {K : Type*} [CommRing K]

/-- Derivative of a polynomial given by a coefficient function. -/
theorem derivAt_ofFn {n : ℕ} (c : Fin n → K) (d : ℕ) (t : K) :
    derivAt (List.ofFn c) d t = ∑ j : Fin n, (baseEntry d j : K) * t ^ ((j : ℕ) - d) * c j := by
  unfold derivAt
  rw [ofCoeffs, iterate_derivative_sum]
  simp only [iterate_derivative_C_mul, iterate_derivative_X_pow_eq_natCast_mul, eval_finsetSum]
  simp only [eval_mul, eval_C, eval_natCast, eval_pow, eval_X]
  rw [List.length_ofFn, ← Fin.sum_univ_eq_sum_range
    (fun i => (List.ofFn c).getD i 0 * (((i.descFactorial d : ℕ) : K) * t ^ (i - d))) n]
  refine Finset.sum_congr rfl fun j _ => ?_
  rw [baseEntry_eq]
  have : (List.ofFn c).getD (j : ℕ) 0 = c j := by
    rw [List.getD_eq_getElem?_getD, List.getElem?_ofFn]
    simp
  rw [this]
  ring

theorem baseEntry_of_lt (d j : ℕ) (h : j < d) : baseEntry d j = 0 := by
  rw [baseEntry_eq]; exact Nat.descFactorial_eq_zero_iff_lt.mpr h

theorem baseEntry_self (d : ℕ) : baseEntry d d = d.factorial := by
  rw [baseEntry_eq, Nat.descFactorial_self]

end Ring

section Field
variable {K : Type*} [Field K] [LinearOrder K] [IsStrictOrderedRing K]

/-- The mathematical mapping matrix from coefficients to the derivatives of orders `0 .. h-1` at `0` and at `T`. -/
noncomputable def endpointMap (h : ℕ) (T : K) : SqMat h K := fun r c =>
  Fin.addCases (fun i : Fin h => (baseEntry i c : K) * (0 : K) ^ ((c : ℕ) - i))
    (fun i : Fin h => (baseEntry i c : K) * T ^ ((c : ℕ) - i)) r

theorem dblEps_pos : (0 : K) < Poly.dblEps := by unfold Poly.dblEps; positivity

theorem row_getD (N d : ℕ) (t : K) (l : List K) (hl : Poly.baseCoeffsWithTime N d t = .ok l) (ht : t = 0 ∨ Poly.dblEps ≤ |t|)
    (j : ℕ) (hj : j < N) : l.getD j 0 = (baseEntry d j : K) * t ^ (j - d) := by
  unfold Poly.baseCoeffsWithTime at hl
  split at hl
  · cases hl
  split at hl
  · cases hl
  rw [← Except.ok.inj hl]
  rw [List.getD_eq_getElem?_getD, List.getElem?_map, List.getElem?_range hj]
  simp only [Option.map_some, Option.getD_some]
  by_cases h1 : j < d
  · rw [if_pos h1, baseEntry_of_lt d j h1]; simp
  rw [if_neg h1]
  by_cases h2 : j = d
  · rw [if_pos h2, h2]; simp
  rw [if_neg h2]
  rcases ht with ht | ht
  · rw [if_pos (by rw [ht, abs_zero]; exact dblEps_pos), ht, zero_pow (by omega)]
    simp
  · rw [if_neg (not_lt.mpr ht)]

theorem baseCoeffs_total (h : ℕ) (hN : h + h ≤ 22) (t : K) : ∀ i ∈ List.range h, Poly.baseCoeffsWithTime (h + h) i t =
    .ok ((fun i => (Poly.baseCoeffsWithTime (h + h) i t).toOption.getD []) i) := by
  intro i hi
  rw [List.mem_range] at hi
  have : ∃ l, Poly.baseCoeffsWithTime (h + h) i t = .ok l := by
    unfold Poly.baseCoeffsWithTime
    rw [if_neg (by omega), if_neg (by unfold kMaxConvolutionSize; omega)]
    exact ⟨_, rfl⟩
  obtain ⟨l, hl⟩ := this
  simp only [hl]
  rfl

theorem setupMappingMatrix_ok (h : ℕ) (T : K) (hN : h + h ≤ 22) (hT : Poly.dblEps ≤ |T|) :
    LinOpt.setupMappingMatrix h T = .ok (endpointMap h T) := by
  have hrow := baseCoeffs_total (K := K) h hN
  unfold LinOpt.setupMappingMatrix
  rw [mapM_ok _ _ _ (hrow 0), mapM_ok _ _ _ (hrow T)]
  simp only [bind, Except.bind, pure, Except.pure]
  congr 1
  funext r c
  unfold endpointMap
  refine Fin.addCases (fun i => ?_) (fun i => ?_) r
  · rw [Fin.addCases_left]
    rw [List.getD_append _ _ _ _ (by simp)]
    have e : ((List.range h).map fun i => (Poly.baseCoeffsWithTime (h + h) i (0 : K)).toOption.getD []).getD
        ((Fin.castAdd h i : Fin (h + h)) : ℕ) [] = (Poly.baseCoeffsWithTime (h + h) i (0 : K)).toOption.getD [] := by
      rw [List.getD_eq_getElem?_getD, List.getElem?_map, List.getElem?_range (by simp)]
      simp
    rw [e]
    exact row_getD _ _ _ _ (hrow 0 i (by simp)) (Or.inl rfl) c c.2
  · rw [Fin.addCases_right]
    rw [List.getD_append_right _ _ _ _ (by simp)]
    have e : ((List.range h).map fun i => (Poly.baseCoeffsWithTime (h + h) i T).toOption.getD []).getD
        (((Fin.natAdd h i : Fin (h + h)) : ℕ) - ((List.range h).map fun i =>
          (Poly.baseCoeffsWithTime (h + h) i (0 : K)).toOption.getD []).length) [] =
        (Poly.baseCoeffsWithTime (h + h) i T).toOption.getD [] := by
      rw [List.getD_eq_getElem?_getD, List.getElem?_map, List.getElem?_range (by simp)]
      simp
    rw [e]
    exact row_getD _ _ _ _ (hrow T i (by simp)) (Or.inr hT) c c.2

theorem endpointMap_mulVec_start {h : ℕ} (T : K) (c : Fin (h + h) → K) (k : Fin h) :
    (endpointMap h T).mulVec c (Fin.castAdd h k) = derivAt (List.ofFn c) k 0 := by
  rw [derivAt_ofFn]
  simp [Matrix.mulVec, dotProduct, endpointMap, Fin.addCases_left]

theorem endpointMap_mulVec_end {h : ℕ} (T : K) (c : Fin (h + h) → K) (k : Fin h) :
    (endpointMap h T).mulVec c (Fin.natAdd h k) = derivAt (List.ofFn c) k T := by
  rw [derivAt_ofFn]
  simp only [Matrix.mulVec, dotProduct, endpointMap, Fin.addCases_right]

/-- A polynomial of degree below `2h` whose derivatives of orders `0 .. h-1` vanish at two different points is zero. -/
theorem hermite_unique (h : ℕ) (T : K) (hT : T ≠ 0) (p : Polynomial K) (hdeg : p.degree < ((h + h : ℕ) : WithBot ℕ))
    (h0 : ∀ k < h, (derivative^[k] p).eval 0 = 0) (h1 : ∀ k < h, (derivative^[k] p).eval T = 0) : p = 0 := by
  by_contra hp
  have key : ∀ a : K, (∀ k < h, (derivative^[k] p).eval a = 0) → (X - C a) ^ h ∣ p := by
    intro a ha
    rcases Nat.eq_zero_or_pos h with h0 | h0
    · rw [h0, pow_zero]; exact one_dvd _
    · have hm : h - 1 < p.rootMultiplicity a := by
        rw [lt_rootMultiplicity_iff_isRoot_iterate_derivative hp]
        intro m hm
        exact ha m (by omega)
      exact dvd_trans (pow_dvd_pow _ (by omega)) (pow_rootMultiplicity_dvd p a)
  have hco : IsCoprime ((X - C 0 : Polynomial K) ^ h) ((X - C T) ^ h) :=
    (isCoprime_X_sub_C_of_isUnit_sub (by rw [zero_sub]; exact (neg_ne_zero.mpr hT).isUnit)).pow
  have hd := hco.mul_dvd (key 0 h0) (key T h1)
  have := Polynomial.degree_le_of_dvd hd hp
  rw [Polynomial.degree_mul, Polynomial.degree_pow, Polynomial.degree_pow, Polynomial.degree_X_sub_C,
    Polynomial.degree_X_sub_C] at this
  simp only [nsmul_one] at this
  have e : ((h : WithBot ℕ) + (h : WithBot ℕ)) = ((h + h : ℕ) : WithBot ℕ) := by push_cast; rfl
  rw [e] at this
  exact absurd (lt_of_le_of_lt this hdeg) (lt_irrefl _)

theorem ofCoeffs_degree_lt (l : List K) : (ofCoeffs l).degree < (l.length : WithBot ℕ) := by
  rw [Polynomial.degree_lt_iff_coeff_zero]
  intro m hm
  rw [coeff_ofCoeffs, getD_of_le _ _ hm]

theorem endpointMap_injective {h : ℕ} (T : K) (hT : T ≠ 0) (c : Fin (h + h) → K) (hc : (endpointMap h T).mulVec c = 0) : c = 0 := by
  have hp : ofCoeffs (List.ofFn c) = 0 := by
    refine hermite_unique h T hT _ ?_ ?_ ?_
    · have := ofCoeffs_degree_lt (List.ofFn c)
      rwa [List.length_ofFn] at this
    · intro k hk
      have := endpointMap_mulVec_start T c ⟨k, hk⟩
      rw [hc] at this
      exact this.symm
    · intro k hk
      have := endpointMap_mulVec_end T c ⟨k, hk⟩
      rw [hc] at this
      exact this.symm
  funext j
  have := coeff_ofCoeffs (List.ofFn c) j
  rw [hp] at this
  simpa using this.symm

theorem endpointMap_det_ne_zero (h : ℕ) (T : K) (hT : T ≠ 0) : (endpointMap h T).det ≠ 0 := by
  intro hd
  obtain ⟨v, hv, hv0⟩ := Matrix.exists_mulVec_eq_zero_iff.mpr hd
  exact hv (endpointMap_injective T hT v hv0)

theorem endpointMap_blocks (h : ℕ) (T : K) :
    (endpointMap h T).submatrix finSumFinEquiv finSumFinEquiv = Matrix.fromBlocks
      (Matrix.diagonal ((endpointMap h T).submatrix (Fin.castAdd h) (Fin.castAdd h)).diag) 0
      ((endpointMap h T).submatrix (Fin.natAdd h) (Fin.castAdd h))
      ((endpointMap h T).submatrix (Fin.natAdd h) (Fin.natAdd h)) := by
  funext r c
  rcases r with r | r <;> rcases c with c | c
  · rw [Matrix.fromBlocks_apply₁₁, Matrix.diagonal_apply]
    split
    · rename_i e; rw [e]; rfl
    · rename_i hne
      change endpointMap h T (Fin.castAdd h r) (Fin.castAdd h c) = 0
      unfold endpointMap
      rw [Fin.addCases_left]
      simp only [Fin.val_castAdd]
      rcases lt_or_gt_of_ne (Fin.val_ne_of_ne hne) with hlt | hlt
      · rw [zero_pow (by omega)]; simp
      · rw [baseEntry_of_lt _ _ hlt]; simp
  · change endpointMap h T (Fin.castAdd h r) (Fin.natAdd h c) = 0
    unfold endpointMap
    rw [Fin.addCases_left]
    rw [zero_pow (by simp only [Fin.val_natAdd]; omega), mul_zero]
  · rfl
  · rfl

theorem endpointMap_diag_ne_zero {h : ℕ} (T : K) (i : Fin h) :
    ((endpointMap h T).submatrix (Fin.castAdd h) (Fin.castAdd h)).diag i ≠ 0 := by
  change endpointMap h T (Fin.castAdd h i) (Fin.castAdd h i) ≠ 0
  unfold endpointMap
  rw [Fin.addCases_left]
  simp only [Fin.val_castAdd, Nat.sub_self, pow_zero, mul_one, baseEntry_self]
  exact_mod_cast (Nat.factorial_pos _).ne'

theorem endpointMap_lower_det_ne_zero (h : ℕ) (T : K) (hT : T ≠ 0) :
    ((endpointMap h T).submatrix (Fin.natAdd h) (Fin.natAdd h)).det ≠ 0 := by
  intro hd
  apply endpointMap_det_ne_zero h T hT
  rw [← Matrix.det_submatrix_equiv_self finSumFinEquiv, endpointMap_blocks, Matrix.det_fromBlocks_zero₁₂, hd, mul_zero]

/-- The block formula for a lower block triangular matrix with diagonal first block. -/
theorem block_inverse {h : ℕ} (a : Fin h → K) (C D : Matrix (Fin h) (Fin h) K) (ha : ∀ i, a i ≠ 0) (hD : D.det ≠ 0) :
    Matrix.fromBlocks (Matrix.diagonal a) 0 C D *
      Matrix.fromBlocks (Matrix.diagonal fun i => (a i)⁻¹) 0 (-D⁻¹ * C * Matrix.diagonal fun i => (a i)⁻¹) D⁻¹ = 1 := by
  have hDD : D * D⁻¹ = 1 := Matrix.mul_nonsing_inv _ (isUnit_iff_ne_zero.mpr hD)
  have hAA : Matrix.diagonal a * Matrix.diagonal (fun i => (a i)⁻¹) = 1 := by
    rw [Matrix.diagonal_mul_diagonal, ← Matrix.diagonal_one]
    congr 1
    funext i
    exact mul_inv_cancel₀ (ha i)
  rw [Matrix.fromBlocks_multiply]
  simp only [Matrix.zero_mul, Matrix.mul_zero, add_zero, zero_add]
  rw [hAA, hDD, ← Matrix.mul_assoc, ← Matrix.mul_assoc, Matrix.mul_neg, hDD]
  simp

/-- The block formula of the code is the inverse of the endpoint map. -/
theorem invertMappingMatrix_ok (h : ℕ) (T : K) (hT : T ≠ 0) :
    LinOpt.invertMappingMatrix (endpointMap h T) = .ok (endpointMap h T)⁻¹ := by
  unfold LinOpt.invertMappingMatrix
  simp only
  rw [if_neg]
  · congr 1
    symm
    apply Matrix.inv_eq_right_inv
    have e : endpointMap h T = ((endpointMap h T).submatrix finSumFinEquiv finSumFinEquiv).submatrix
        finSumFinEquiv.symm finSumFinEquiv.symm := by simp
    have hb := block_inverse _ ((endpointMap h T).submatrix (Fin.natAdd h) (Fin.castAdd h)) _
      (endpointMap_diag_ne_zero (h := h) T) (endpointMap_lower_det_ne_zero h T hT)
    rw [← endpointMap_blocks] at hb
    generalize Matrix.fromBlocks (Matrix.diagonal fun i => (((endpointMap h T).submatrix (Fin.castAdd h) (Fin.castAdd h)).diag i)⁻¹)
      _ _ _ = B at hb ⊢
    rw [e, Matrix.submatrix_mul_equiv, hb, Matrix.submatrix_one_equiv]
  · push Not
    exact ⟨fun i => endpointMap_diag_ne_zero T i, endpointMap_lower_det_ne_zero h T hT⟩

theorem endpointMap_mul_inv (h : ℕ) (T : K) (hT : T ≠ 0) : endpointMap h T * (endpointMap h T)⁻¹ = 1 :=
  Matrix.mul_nonsing_inv _ (isUnit_iff_ne_zero.mpr (endpointMap_det_ne_zero h T hT))

theorem endpointMap_inv_mul (h : ℕ) (T : K) (hT : T ≠ 0) : (endpointMap h T)⁻¹ * endpointMap h T = 1 :=
  Matrix.nonsing_inv_mul _ (isUnit_iff_ne_zero.mpr (endpointMap_det_ne_zero h T hT))

/-- The coefficients obtained from endpoint derivatives have those endpoint derivatives. -/
theorem derivAt_inv_mulVec (h : ℕ) (T : K) (hT : T ≠ 0) (d : Fin (h + h) → K) (k : Fin h) :
    derivAt (List.ofFn ((endpointMap h T)⁻¹.mulVec d)) k 0 = d (Fin.castAdd h k) ∧
    derivAt (List.ofFn ((endpointMap h T)⁻¹.mulVec d)) k T = d (Fin.natAdd h k) := by
  rw [← endpointMap_mulVec_start T, ← endpointMap_mulVec_end T, Matrix.mulVec_mulVec, endpointMap_mul_inv h T hT, Matrix.one_mulVec]
  exact ⟨rfl, rfl⟩

theorem mapping_tiny_entry (h : ℕ) (T : K) (hN : h + h ≤ 22) (hT : |T| < Poly.dblEps) (i j : Fin h) :
    (((List.range h).map (fun i => (Poly.baseCoeffsWithTime (h + h) i (0 : K)).toOption.getD []) ++
      (List.range h).map (fun i => (Poly.baseCoeffsWithTime (h + h) i T).toOption.getD [])).getD
        ((Fin.natAdd h i : Fin (h + h)) : ℕ) []).getD ((Fin.natAdd h j : Fin (h + h)) : ℕ) 0 = 0 := by
  rw [List.getD_append_right _ _ _ _ (by simp)]
  have e : ((List.range h).map fun i => (Poly.baseCoeffsWithTime (h + h) i T).toOption.getD []).getD
      (((Fin.natAdd h i : Fin (h + h)) : ℕ) - ((List.range h).map fun i =>
        (Poly.baseCoeffsWithTime (h + h) i (0 : K)).toOption.getD []).length) [] =
      (Poly.baseCoeffsWithTime (h + h) i T).toOption.getD [] := by
    rw [List.getD_eq_getElem?_getD, List.getElem?_map, List.getElem?_range (by simp)]
    simp
  rw [e]
  unfold Poly.baseCoeffsWithTime
  rw [if_neg (by omega), if_neg (by unfold kMaxConvolutionSize; omega)]
  simp only [Except.toOption, Option.getD_some]
  rw [List.getD_eq_getElem?_getD, List.getElem?_map, List.getElem?_range (by simp)]
  simp only [Option.map_some, Option.getD_some, Fin.val_natAdd]
  rw [if_neg (by omega), if_neg (by omega), if_pos hT]

/-- Below the threshold of `baseCoeffsWithTime` the lower right block is zero and the inverse does not exist. -/
theorem mapping_tiny (h : ℕ) (T : K) (hh : 0 < h) (hN : h + h ≤ 22) (hT : |T| < Poly.dblEps) :
    ∃ A : SqMat h K, LinOpt.setupMappingMatrix h T = .ok A ∧ LinOpt.invertMappingMatrix A = .error .nonfinite := by
  have hrow := baseCoeffs_total (K := K) h hN
  unfold LinOpt.setupMappingMatrix
  rw [mapM_ok _ _ _ (hrow 0), mapM_ok _ _ _ (hrow T)]
  simp only [bind, Except.bind, pure, Except.pure]
  refine ⟨_, rfl, ?_⟩
  unfold LinOpt.invertMappingMatrix
  simp only
  rw [if_pos]
  right
  have : Nonempty (Fin h) := ⟨⟨0, hh⟩⟩
  suffices hz : ∀ M : Matrix (Fin h) (Fin h) K, (∀ i j, M i j = 0) → M.det = 0 by
    apply hz
    intro i j
    change ((_ : List (List K)).getD ((Fin.natAdd h i : Fin (h + h)) : ℕ) []).getD ((Fin.natAdd h j : Fin (h + h)) : ℕ) 0 = 0
    exact mapping_tiny_entry h T hN hT i j
  intro M hM
  have : M = 0 := by funext i j; exact hM i j
  rw [this]
  exact Matrix.det_zero

end Field

end Verif
