import Verif.Lemmas.MavMsgsVec
import Mathlib.Analysis.Matrix.Spectrum
import Mathlib.Analysis.Matrix.Normed

/-! # Matrices that are nearly orthogonal -/

namespace Verif.Mav

open Matrix

theorem normM_sq_trace (m : M3) : normM m ^ 2 = (mᵀ * m).trace := by
  rw [normM_sq]
  simp only [Matrix.trace, Matrix.diag, Matrix.mul_apply, Matrix.transpose_apply, Fin.sum_univ_three]
  ring

/-- Symmetric matrices have an orthonormal basis of eigenvectors. -/
theorem symmetric_diagonal (a : M3) (h : aᵀ = a) : ∃ (u : M3) (d : V3), uᵀ * u = 1 ∧ u * uᵀ = 1 ∧ a = u * diagonal d * uᵀ := by
  have hA : a.IsHermitian := by
    rw [Matrix.IsHermitian, Matrix.conjTranspose_eq_transpose_of_trivial]; exact h
  refine ⟨hA.eigenvectorUnitary, hA.eigenvalues, ?_, ?_, ?_⟩
  · have := Unitary.coe_star_mul_self hA.eigenvectorUnitary
    rwa [Matrix.star_eq_conjTranspose, Matrix.conjTranspose_eq_transpose_of_trivial] at this
  · have := Unitary.coe_mul_star_self hA.eigenvectorUnitary
    rwa [Unitary.coe_star, Matrix.star_eq_conjTranspose, Matrix.conjTranspose_eq_transpose_of_trivial] at this
  · have := hA.spectral_theorem
    rw [Unitary.conjStarAlgAut_apply] at this
    rw [Matrix.star_eq_conjTranspose, Matrix.conjTranspose_eq_transpose_of_trivial] at this
    exact this

theorem trace_conj (u : M3) (hu : uᵀ * u = 1) (x : M3) : (u * x * uᵀ).trace = x.trace := by
  rw [Matrix.trace_mul_comm, ← Matrix.mul_assoc, hu, Matrix.one_mul]

/-- The orthogonal factor of a matrix whose columns are nearly orthonormal lies as near to the matrix. -/
theorem polar (m : M3) (ε : ℝ) (hε : ε < 1) (h : normM (mᵀ * m - 1) ≤ ε) :
    ∃ r : M3, rᵀ * r = 1 ∧ normM (m - r) ≤ ε ∧ ∃ c : ℝ, 0 < c ∧ r.det = m.det * c := by
  have h0 : 0 ≤ ε := (normM_nonneg _).trans h
  obtain ⟨u, d, hu, hu', ha⟩ := symmetric_diagonal (mᵀ * m) (by rw [Matrix.transpose_mul, Matrix.transpose_transpose])
  have hdet : u.det * u.det = 1 := by
    have := congrArg Matrix.det hu
    rwa [Matrix.det_mul, Matrix.det_transpose, Matrix.det_one] at this
  -- the distance from orthonormality in terms of the eigenvalues
  have e1 : mᵀ * m - 1 = u * diagonal (fun i => d i - 1) * uᵀ := by
    have : (diagonal (fun i => d i - 1) : M3) = diagonal d - 1 := by
      rw [← Matrix.diagonal_one, Matrix.diagonal_sub]
    rw [this, Matrix.mul_sub, Matrix.sub_mul, ← ha, Matrix.mul_one, hu']
  have hsum : ∑ i, (d i - 1) ^ 2 ≤ ε ^ 2 := by
    have hsq : normM (mᵀ * m - 1) ^ 2 = ∑ i, (d i - 1) ^ 2 := by
      rw [normM_sq_trace, e1]
      have : (u * diagonal (fun i => d i - 1) * uᵀ)ᵀ * (u * diagonal (fun i => d i - 1) * uᵀ) =
          u * (diagonal (fun i => d i - 1) * diagonal (fun i => d i - 1)) * uᵀ := by
        rw [Matrix.transpose_mul, Matrix.transpose_mul, Matrix.transpose_transpose, Matrix.diagonal_transpose]
        simp only [Matrix.mul_assoc]
        rw [← Matrix.mul_assoc uᵀ u, hu, Matrix.one_mul]
      rw [this, trace_conj u hu, Matrix.diagonal_mul_diagonal, Matrix.trace_diagonal]
      exact Finset.sum_congr rfl fun i _ => by ring
    rw [← hsq]
    exact pow_le_pow_left₀ (normM_nonneg _) h 2
  have hpos : ∀ i, 0 < d i := by
    intro i
    have h1 : (d i - 1) ^ 2 ≤ ε ^ 2 := (Finset.single_le_sum (f := fun i => (d i - 1) ^ 2) (fun j _ => sq_nonneg _) (Finset.mem_univ i)).trans hsum
    have := abs_le_of_sq_le_sq' h1 h0
    linarith [this.1]
  have hs : ∀ i, √(d i) * √(d i) = d i := fun i => Real.mul_self_sqrt (hpos i).le
  have hsp : ∀ i, 0 < √(d i) := fun i => Real.sqrt_pos.mpr (hpos i)
  set q : V3 := fun i => 1 / √(d i) with hq
  have hmm : ∀ x y : V3, (m * (u * diagonal x * uᵀ))ᵀ * (m * (u * diagonal y * uᵀ)) = u * diagonal (fun i => x i * d i * y i) * uᵀ := by
    intro x y
    have : (diagonal (fun i => x i * d i * y i) : M3) = diagonal x * diagonal d * diagonal y := by
      rw [Matrix.diagonal_mul_diagonal, Matrix.diagonal_mul_diagonal]
    rw [this, Matrix.transpose_mul, Matrix.transpose_mul, Matrix.transpose_mul, Matrix.transpose_transpose, Matrix.diagonal_transpose]
    calc u * (diagonal x * uᵀ) * mᵀ * (m * (u * diagonal y * uᵀ))
        = u * (diagonal x * uᵀ) * (mᵀ * m) * (u * diagonal y * uᵀ) := by simp only [Matrix.mul_assoc]
      _ = u * (diagonal x * uᵀ) * (u * diagonal d * uᵀ) * (u * diagonal y * uᵀ) := by rw [ha]
      _ = u * diagonal x * (uᵀ * u) * diagonal d * (uᵀ * u) * diagonal y * uᵀ := by simp only [Matrix.mul_assoc]
      _ = _ := by rw [hu]; simp only [Matrix.mul_assoc, Matrix.mul_one]
  refine ⟨m * (u * diagonal q * uᵀ), ?_, ?_, ∏ i, q i, ?_, ?_⟩
  · rw [hmm]
    have : (fun i => q i * d i * q i) = fun _ => (1 : ℝ) := by
      funext i
      rw [hq]
      have h1 := hs i
      have h2 := (hsp i).ne'
      simp only
      rw [← h1]
      have h3 : √(√(d i) * √(d i)) = √(d i) := by rw [h1]
      rw [h3]
      field_simp
    rw [this, Matrix.diagonal_one, Matrix.mul_one, hu']
  · have hsub : m - m * (u * diagonal q * uᵀ) = m * (u * diagonal (fun i => 1 - q i) * uᵀ) := by
      have : (diagonal (fun i => 1 - q i) : M3) = 1 - diagonal q := by
        rw [← Matrix.diagonal_one, Matrix.diagonal_sub]
      rw [this, Matrix.mul_sub u, Matrix.sub_mul, Matrix.mul_one, hu', Matrix.mul_sub, Matrix.mul_one]
    have hsq : normM (m - m * (u * diagonal q * uᵀ)) ^ 2 = ∑ i, (√(d i) - 1) ^ 2 := by
      rw [normM_sq_trace, hsub, hmm, trace_conj u hu, Matrix.trace_diagonal]
      refine Finset.sum_congr rfl fun i _ => ?_
      have h1 := hs i
      have h2 := (hsp i).ne'
      have h4 : q i * √(d i) = 1 := by rw [hq]; field_simp
      calc (1 - q i) * d i * (1 - q i) = (√(d i) - q i * √(d i)) ^ 2 := by nth_rewrite 1 [← h1]; ring
        _ = _ := by rw [h4]
    refine abs_le_of_sq_le_sq' ?_ h0 |>.2
    rw [hsq]
    refine (Finset.sum_le_sum fun i _ => ?_).trans hsum
    have h1 := hs i
    have h2 := hsp i
    have h3 : d i - 1 = (√(d i) - 1) * (√(d i) + 1) := by rw [← h1]; have : √(√(d i) * √(d i)) = √(d i) := by rw [h1]
                                                          rw [this]; ring
    rw [h3, mul_pow]
    exact le_mul_of_one_le_right (sq_nonneg _) (by nlinarith)
  · exact Finset.prod_pos fun i _ => by rw [hq]; exact div_pos one_pos (hsp i)
  · rw [Matrix.det_mul, Matrix.det_mul, Matrix.det_mul, Matrix.det_transpose, Matrix.det_diagonal]
    calc m.det * (u.det * (∏ i, q i) * u.det) = m.det * (∏ i, q i) * (u.det * u.det) := by ring
      _ = _ := by rw [hdet, mul_one]

attribute [local instance] Matrix.frobeniusNormedAddCommGroup Matrix.frobeniusNormedSpace Matrix.frobeniusNormedRing

theorem normM_eq (m : M3) : normM m = ‖m‖ := by
  rw [Matrix.frobenius_norm_def, ← Real.sqrt_eq_rpow]
  unfold normM
  congr 1
  refine Finset.sum_congr rfl fun i _ => Finset.sum_congr rfl fun j _ => ?_
  rw [Real.norm_eq_abs, Real.rpow_two, sq_abs]

theorem normM_rotate (r e : M3) (h : r * rᵀ = 1) : normM (rᵀ * e) = normM e := by
  have : normM (rᵀ * e) ^ 2 = normM e ^ 2 := by
    rw [normM_sq_trace, normM_sq_trace, Matrix.transpose_mul, Matrix.transpose_transpose, Matrix.mul_assoc, ← Matrix.mul_assoc r, h, Matrix.one_mul]
  exact (sq_eq_sq₀ (normM_nonneg _) (normM_nonneg _)).mp this

theorem columns_near (f : M3) : normM ((1 + f)ᵀ * (1 + f) - 1) ≤ 2 * normM f + normM f ^ 2 := by
  have : (1 + f)ᵀ * (1 + f) - 1 = f + fᵀ + fᵀ * f := by
    rw [Matrix.transpose_add, Matrix.transpose_one]; noncomm_ring
  rw [this]
  simp only [normM_eq]
  have h1 : ‖f + fᵀ + fᵀ * f‖ ≤ ‖f‖ + ‖fᵀ‖ + ‖fᵀ * f‖ := norm_add₃_le
  have h2 : ‖fᵀ * f‖ ≤ ‖fᵀ‖ * ‖f‖ := norm_mul_le _ _
  rw [Matrix.frobenius_norm_transpose] at h1 h2
  nlinarith

theorem det_near_one (f : M3) (δ : ℝ) (h : normM f ≤ δ) (hδ : δ ≤ 1 / 1000) : (1 + f).det - 1 ≤ 2 * δ := by
  have hs : normM f ^ 2 ≤ δ ^ 2 := pow_le_pow_left₀ (normM_nonneg _) h 2
  have h0 : 0 ≤ δ := (normM_nonneg _).trans h
  have hb : ∀ i j, |f i j| ≤ δ := fun i j => (entry_le_normM f i j).trans h
  rw [normM_sq] at hs
  have ht : f 0 0 + f 1 1 + f 2 2 ≤ 1733 / 1000 * δ := by
    have : (f 0 0 + f 1 1 + f 2 2) ^ 2 ≤ (1733 / 1000 * δ) ^ 2 := by
      nlinarith [sq_nonneg (f 0 0 - f 1 1), sq_nonneg (f 0 0 - f 2 2), sq_nonneg (f 1 1 - f 2 2), sq_nonneg (f 0 1), sq_nonneg (f 0 2),
        sq_nonneg (f 1 0), sq_nonneg (f 1 2), sq_nonneg (f 2 0), sq_nonneg (f 2 1)]
    exact (abs_le_of_sq_le_sq' this (by positivity)).2
  have prod2 : ∀ a b : ℝ, |a| ≤ δ → |b| ≤ δ → |a * b| ≤ δ ^ 2 := by
    intro a b ha hb
    rw [abs_mul, sq]
    exact mul_le_mul ha hb (abs_nonneg _) h0
  have prod3 : ∀ a b c : ℝ, |a| ≤ δ → |b| ≤ δ → |c| ≤ δ → |a * b * c| ≤ δ ^ 3 := by
    intro a b c ha hb hc
    rw [abs_mul, pow_succ]
    exact mul_le_mul (prod2 a b ha hb) hc (abs_nonneg _) (by positivity)
  have e : (1 + f).det - 1 = f 0 0 + f 1 1 + f 2 2 + (f 0 0 * f 1 1 + f 0 0 * f 2 2 + f 1 1 * f 2 2 - f 0 1 * f 1 0 - f 0 2 * f 2 0 - f 1 2 * f 2 1)
      + (f 0 0 * f 1 1 * f 2 2 + f 0 1 * f 1 2 * f 2 0 + f 0 2 * f 1 0 * f 2 1 - f 0 2 * f 1 1 * f 2 0 - f 0 1 * f 1 0 * f 2 2 - f 0 0 * f 1 2 * f 2 1) := by
    rw [Matrix.det_fin_three]
    simp only [Matrix.add_apply, Matrix.one_apply]
    norm_num [Fin.ext_iff]
    ring
  have a1 := abs_le.mp (prod2 _ _ (hb 0 0) (hb 1 1))
  have a2 := abs_le.mp (prod2 _ _ (hb 0 0) (hb 2 2))
  have a3 := abs_le.mp (prod2 _ _ (hb 1 1) (hb 2 2))
  have a4 := abs_le.mp (prod2 _ _ (hb 0 1) (hb 1 0))
  have a5 := abs_le.mp (prod2 _ _ (hb 0 2) (hb 2 0))
  have a6 := abs_le.mp (prod2 _ _ (hb 1 2) (hb 2 1))
  have b1 := abs_le.mp (prod3 _ _ _ (hb 0 0) (hb 1 1) (hb 2 2))
  have b2 := abs_le.mp (prod3 _ _ _ (hb 0 1) (hb 1 2) (hb 2 0))
  have b3 := abs_le.mp (prod3 _ _ _ (hb 0 2) (hb 1 0) (hb 2 1))
  have b4 := abs_le.mp (prod3 _ _ _ (hb 0 2) (hb 1 1) (hb 2 0))
  have b5 := abs_le.mp (prod3 _ _ _ (hb 0 1) (hb 1 0) (hb 2 2))
  have b6 := abs_le.mp (prod3 _ _ _ (hb 0 0) (hb 1 2) (hb 2 1))
  have c1 : δ ^ 2 ≤ 1 / 1000 * δ := by nlinarith
  have c2 : δ ^ 3 ≤ 1 / 1000 * δ := by nlinarith [mul_nonneg h0 h0]
  rw [e]
  linarith [a1.2, a2.2, a3.2, a4.1, a5.1, a6.1, b1.2, b2.2, b3.2, b4.1, b5.1, b6.1]

end Verif.Mav
