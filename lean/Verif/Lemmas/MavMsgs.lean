import Mathlib.Data.Matrix.Reflection
import Mathlib.LinearAlgebra.Matrix.NonsingularInverse
import Mathlib.Analysis.SpecialFunctions.Trigonometric.Bounds
import Verif.Spec.MavMsgs

/-! # Lemmas about the rotation helpers -/

namespace Verif.Mav

open Matrix

theorem quat_re (w x y z : ℝ) : (quat w x y z).re = w := rfl
theorem quat_imI (w x y z : ℝ) : (quat w x y z).imI = x := rfl
theorem quat_imJ (w x y z : ℝ) : (quat w x y z).imJ = y := rfl
theorem quat_imK (w x y z : ℝ) : (quat w x y z).imK = z := rfl

theorem norm3_nonneg (v : V3) : 0 ≤ norm3 v := Real.sqrt_nonneg _

theorem norm3_sq (v : V3) : norm3 v ^ 2 = v 0 ^ 2 + v 1 ^ 2 + v 2 ^ 2 :=
  Real.sq_sqrt (by positivity)

theorem norm3_zero : norm3 0 = 0 := by simp [norm3]

theorem norm3_pos {v : V3} (h : v ≠ 0) : 0 < norm3 v := by
  by_contra hn
  have h0 : norm3 v = 0 := le_antisymm (not_lt.1 hn) (norm3_nonneg v)
  have h1 := norm3_sq v
  rw [h0] at h1
  apply h
  have a0 : v 0 ^ 2 = 0 := by nlinarith [sq_nonneg (v 0), sq_nonneg (v 1), sq_nonneg (v 2)]
  have a1 : v 1 ^ 2 = 0 := by nlinarith [sq_nonneg (v 0), sq_nonneg (v 1), sq_nonneg (v 2)]
  have a2 : v 2 ^ 2 = 0 := by nlinarith [sq_nonneg (v 0), sq_nonneg (v 1), sq_nonneg (v 2)]
  funext i
  fin_cases i
  · exact pow_eq_zero_iff (two_ne_zero) |>.1 a0
  · exact pow_eq_zero_iff (two_ne_zero) |>.1 a1
  · exact pow_eq_zero_iff (two_ne_zero) |>.1 a2

theorem norm3_smul (a : ℝ) (v : V3) : norm3 (a • v) = |a| * norm3 v := by
  unfold norm3
  rw [← Real.sqrt_sq_eq_abs, ← Real.sqrt_mul (sq_nonneg a)]
  congr 1
  simp only [Pi.smul_apply, smul_eq_mul]
  ring

theorem mat_ext {m n : M3} (h00 : m 0 0 = n 0 0) (h01 : m 0 1 = n 0 1) (h02 : m 0 2 = n 0 2)
    (h10 : m 1 0 = n 1 0) (h11 : m 1 1 = n 1 1) (h12 : m 1 2 = n 1 2)
    (h20 : m 2 0 = n 2 0) (h21 : m 2 1 = n 2 1) (h22 : m 2 2 = n 2 2) : m = n := by
  ext i j
  fin_cases i <;> fin_cases j <;> assumption

theorem vec_ext {v w : V3} (h0 : v 0 = w 0) (h1 : v 1 = w 1) (h2 : v 2 = w 2) : v = w := by
  ext i
  fin_cases i <;> assumption

theorem mulVec3 (m : M3) (v : V3) (i : Fin 3) : (m *ᵥ v) i = m i 0 * v 0 + m i 1 * v 1 + m i 2 * v 2 := by
  simp [Matrix.mulVec, dotProduct, Fin.sum_univ_three]

theorem mul3 (m n : M3) (i j : Fin 3) : (m * n) i j = m i 0 * n 0 j + m i 1 * n 1 j + m i 2 * n 2 j := by
  simp [Matrix.mul_apply, Fin.sum_univ_three]

theorem cross3 (v w : V3) : v ⨯₃ w = ![v 1 * w 2 - v 2 * w 1, v 2 * w 0 - v 0 * w 2, v 0 * w 1 - v 1 * w 0] := by
  rw [cross_apply]

theorem skew_mulVec (v w : V3) : skewMatrixFromVector v *ᵥ w = v ⨯₃ w := by
  rw [cross3]
  apply vec_ext <;> rw [mulVec3] <;> simp [skewMatrixFromVector] <;> ring

theorem quatRotate_0 (q : Quat) (v : V3) : quatRotate q v 0 = v 0 + q.re * (2 * (q.imJ * v 2 - q.imK * v 1)) +
    (q.imJ * (2 * (q.imI * v 1 - q.imJ * v 0)) - q.imK * (2 * (q.imK * v 0 - q.imI * v 2))) := by
  simp only [quatRotate, cross3, Pi.add_apply, Pi.smul_apply, smul_eq_mul, Matrix.cons_val]

theorem quatRotate_1 (q : Quat) (v : V3) : quatRotate q v 1 = v 1 + q.re * (2 * (q.imK * v 0 - q.imI * v 2)) +
    (q.imK * (2 * (q.imJ * v 2 - q.imK * v 1)) - q.imI * (2 * (q.imI * v 1 - q.imJ * v 0))) := by
  simp only [quatRotate, cross3, Pi.add_apply, Pi.smul_apply, smul_eq_mul, Matrix.cons_val]

theorem quatRotate_2 (q : Quat) (v : V3) : quatRotate q v 2 = v 2 + q.re * (2 * (q.imI * v 1 - q.imJ * v 0)) +
    (q.imI * (2 * (q.imK * v 0 - q.imI * v 2)) - q.imJ * (2 * (q.imJ * v 2 - q.imK * v 1))) := by
  simp only [quatRotate, cross3, Pi.add_apply, Pi.smul_apply, smul_eq_mul, Matrix.cons_val]

theorem quatToMatrix_mulVec (q : Quat) (v : V3) : quatToMatrix q *ᵥ v = quatRotate q v := by
  apply vec_ext
  · rw [mulVec3, quatRotate_0]; simp [quatToMatrix]; ring
  · rw [mulVec3, quatRotate_1]; simp [quatToMatrix]; ring
  · rw [mulVec3, quatRotate_2]; simp [quatToMatrix]; ring

theorem unit_norm {q : Quat} (h : IsUnitQuat q) : ‖q‖ = 1 := by
  have h1 : Quaternion.normSq q = 1 := by rw [Quaternion.normSq_def']; exact h
  have h2 : ‖q‖ * ‖q‖ = 1 := by rw [← Quaternion.normSq_eq_norm_mul_self]; exact h1
  nlinarith [norm_nonneg q]

theorem pureQuat_re (v : V3) : (pureQuat v).re = 0 := rfl
theorem pureQuat_imI (v : V3) : (pureQuat v).imI = v 0 := rfl
theorem pureQuat_imJ (v : V3) : (pureQuat v).imJ = v 1 := rfl
theorem pureQuat_imK (v : V3) : (pureQuat v).imK = v 2 := rfl

/-- In the quaternion algebra a unit quaternion rotates by conjugation. -/
theorem quatRotate_conj {q : Quat} (h : IsUnitQuat q) (v : V3) : pureQuat (quatRotate q v) = q * pureQuat v * star q := by
  unfold IsUnitQuat at h
  ext <;> simp only [Quaternion.re_mul, Quaternion.imI_mul, Quaternion.imJ_mul, Quaternion.imK_mul, Quaternion.re_star,
    Quaternion.imI_star, Quaternion.imJ_star, Quaternion.imK_star, pureQuat_re, pureQuat_imI, pureQuat_imJ, pureQuat_imK,
    quatRotate_0, quatRotate_1, quatRotate_2]
  · ring
  · linear_combination (-(v 0)) * h
  · linear_combination (-(v 1)) * h
  · linear_combination (-(v 2)) * h

theorem quatToMatrix_rotation {q : Quat} (h : IsUnitQuat q) : IsRotation (quatToMatrix q) := by
  unfold IsUnitQuat at h
  constructor
  · apply mat_ext <;> rw [mul3] <;> simp [quatToMatrix, Matrix.transpose_apply] <;> grind
  · rw [Matrix.det_fin_three]
    simp [quatToMatrix]
    grind

theorem quatToMatrix_mul {p q : Quat} (hp : IsUnitQuat p) (hq : IsUnitQuat q) :
    quatToMatrix (p * q) = quatToMatrix p * quatToMatrix q := by
  unfold IsUnitQuat at hp hq
  apply mat_ext <;> rw [mul3] <;> simp [quatToMatrix] <;> grind

theorem quatToMatrix_neg (q : Quat) : quatToMatrix (-q) = quatToMatrix q := by
  apply mat_ext <;> simp [quatToMatrix]

theorem unit_mul {p q : Quat} (hp : IsUnitQuat p) (hq : IsUnitQuat q) : IsUnitQuat (p * q) := by
  have h : Quaternion.normSq (p * q) = 1 := by
    rw [map_mul, Quaternion.normSq_def', Quaternion.normSq_def']
    unfold IsUnitQuat at hp hq
    rw [hp, hq, one_mul]
  rw [Quaternion.normSq_def'] at h
  exact h

theorem angleAxis_unit {k : V3} (hk : k 0 ^ 2 + k 1 ^ 2 + k 2 ^ 2 = 1) (a : ℝ) : IsUnitQuat (quatOfAngleAxis a k) := by
  unfold IsUnitQuat quatOfAngleAxis
  have := Real.sin_sq_add_cos_sq (a / 2)
  simp only [quat_re, quat_imI, quat_imJ, quat_imK]
  linear_combination Real.sin (a / 2) ^ 2 * hk + this

theorem half_sin (a : ℝ) : Real.sin a = 2 * Real.sin (a / 2) * Real.cos (a / 2) := by
  rw [← Real.sin_two_mul]; congr 1; ring

theorem half_cos (a : ℝ) : Real.cos a = 1 - 2 * Real.sin (a / 2) ^ 2 := by
  have h := Real.cos_two_mul (a / 2)
  rw [show 2 * (a / 2) = a by ring] at h
  linear_combination h + 2 * Real.sin_sq_add_cos_sq (a / 2)

theorem half_cos' (a : ℝ) : Real.cos a = 2 * Real.cos (a / 2) ^ 2 - 1 := by
  have h := Real.cos_two_mul (a / 2)
  rwa [show 2 * (a / 2) = a by ring] at h

/-- The matrix of an angle and an axis, in the form the code computes it. -/
noncomputable def rod (a : ℝ) (k : V3) : M3 :=
  1 + Real.sin a • skewMatrixFromVector k +
    (1 - Real.cos a) • (skewMatrixFromVector k * skewMatrixFromVector k)

theorem rod_eq (a : ℝ) (k : V3) : rod a k = quatToMatrix (quatOfAngleAxis a k) := by
  unfold rod
  rw [half_sin a, half_cos a]
  apply mat_ext <;>
    simp [skewMatrixFromVector, quatToMatrix, quatOfAngleAxis, quat_re, quat_imI, quat_imJ, quat_imK] <;> ring

theorem rod_neg (a : ℝ) (k : V3) : rod (-a) (-k) = rod a k := by
  unfold rod
  rw [Real.sin_neg, Real.cos_neg]
  apply mat_ext <;> simp [skewMatrixFromVector]

theorem rod_zero (k : V3) : rod 0 k = 1 := by simp [rod]

theorem matrix_zero : matrixFromRotationVector 0 = 1 := by
  unfold matrixFromRotationVector
  simp [norm3_zero]

/-- The unit vector along `v`. -/
noncomputable def axis (v : V3) : V3 := fun i => v i / norm3 v

theorem axis_unit {v : V3} (h : v ≠ 0) : axis v 0 ^ 2 + axis v 1 ^ 2 + axis v 2 ^ 2 = 1 := by
  have hp := norm3_pos h
  have := norm3_sq v
  unfold axis
  field_simp
  linarith

theorem matrix_eq_rod (v : V3) (h : v ≠ 0) : matrixFromRotationVector v = rod (norm3 v) (axis v) := by
  unfold matrixFromRotationVector rod axis
  simp only [gt_iff_lt, norm3_pos h, if_true]

theorem norm3_unit {k : V3} (hk : k 0 ^ 2 + k 1 ^ 2 + k 2 ^ 2 = 1) : norm3 k = 1 := by
  unfold norm3; rw [hk, Real.sqrt_one]

theorem matrix_smul {k : V3} (hk : k 0 ^ 2 + k 1 ^ 2 + k 2 ^ 2 = 1) (a : ℝ) :
    matrixFromRotationVector (a • k) = rod a k := by
  have hk0 : k ≠ 0 := by
    rintro rfl
    simp at hk
  rcases eq_or_ne a 0 with rfl | ha
  · rw [zero_smul, matrix_zero, rod_zero]
  have hne : a • k ≠ 0 := smul_ne_zero ha hk0
  rw [matrix_eq_rod _ hne]
  have hn : norm3 (a • k) = |a| := by rw [norm3_smul, norm3_unit hk, mul_one]
  rcases lt_or_gt_of_ne ha with h | h
  · have hx : axis (a • k) = -k := by
      funext i
      unfold axis
      rw [hn, abs_of_neg h]
      simp only [Pi.smul_apply, smul_eq_mul, Pi.neg_apply]
      field_simp
    rw [hx, hn, abs_of_neg h, rod_neg]
  · have hx : axis (a • k) = k := by
      funext i
      unfold axis
      rw [hn, abs_of_pos h]
      simp only [Pi.smul_apply, smul_eq_mul]
      field_simp
    rw [hx, hn, abs_of_pos h]

theorem rod_rotation {k : V3} (hk : k 0 ^ 2 + k 1 ^ 2 + k 2 ^ 2 = 1) (a : ℝ) : IsRotation (rod a k) := by
  rw [rod_eq]; exact quatToMatrix_rotation (angleAxis_unit hk a)

theorem one_rotation : IsRotation 1 := by
  constructor
  · simp
  · simp

theorem matrix_rotation (v : V3) : IsRotation (matrixFromRotationVector v) := by
  rcases eq_or_ne v 0 with rfl | h
  · rw [matrix_zero]; exact one_rotation
  · rw [matrix_eq_rod v h]; exact rod_rotation (axis_unit h) _

theorem rod_mulVec {k : V3} (hk : k 0 ^ 2 + k 1 ^ 2 + k 2 ^ 2 = 1) (a : ℝ) (x : V3) : rod a k *ᵥ x = turn k a x := by
  unfold turn rod
  rw [cross3]
  have hd : k ⬝ᵥ x = k 0 * x 0 + k 1 * x 1 + k 2 * x 2 := by simp [dotProduct, Fin.sum_univ_three]
  rw [hd]
  apply vec_ext <;> rw [mulVec3] <;> simp only [Pi.add_apply, Pi.smul_apply, smul_eq_mul] <;>
    simp [skewMatrixFromVector]
  · linear_combination (-(1 - Real.cos a) * x 0) * hk
  · linear_combination (-(1 - Real.cos a) * x 1) * hk
  · linear_combination (-(1 - Real.cos a) * x 2) * hk

theorem angleAxis_mul {k : V3} (hk : k 0 ^ 2 + k 1 ^ 2 + k 2 ^ 2 = 1) (a b : ℝ) :
    quatOfAngleAxis a k * quatOfAngleAxis b k = quatOfAngleAxis (a + b) k := by
  ext <;> simp only [Quaternion.re_mul, Quaternion.imI_mul, Quaternion.imJ_mul, Quaternion.imK_mul] <;>
    simp only [quatOfAngleAxis, quat_re, quat_imI, quat_imJ, quat_imK] <;> rw [add_div] <;> simp only [Real.cos_add, Real.sin_add]
  · linear_combination (-Real.sin (a / 2) * Real.sin (b / 2)) * hk
  all_goals ring

theorem rod_add {k : V3} (hk : k 0 ^ 2 + k 1 ^ 2 + k 2 ^ 2 = 1) (a b : ℝ) : rod a k * rod b k = rod (a + b) k := by
  rw [rod_eq, rod_eq, rod_eq, ← quatToMatrix_mul (angleAxis_unit hk a) (angleAxis_unit hk b), angleAxis_mul hk]

end Verif.Mav
