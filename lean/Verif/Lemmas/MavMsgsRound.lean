import Verif.Lemmas.MavMsgs
import Mathlib.Analysis.SpecialFunctions.Complex.Arg

/-! # Lemmas about the conversions between quaternions, matrices, angles and rotation vectors -/

namespace Verif.Mav

open Matrix

/-- The equations between the entries of a rotation matrix. -/
structure Entries (m : M3) : Prop where
  c00 : m 0 0 * m 0 0 + m 1 0 * m 1 0 + m 2 0 * m 2 0 = 1
  c11 : m 0 1 * m 0 1 + m 1 1 * m 1 1 + m 2 1 * m 2 1 = 1
  c22 : m 0 2 * m 0 2 + m 1 2 * m 1 2 + m 2 2 * m 2 2 = 1
  c01 : m 0 0 * m 0 1 + m 1 0 * m 1 1 + m 2 0 * m 2 1 = 0
  c02 : m 0 0 * m 0 2 + m 1 0 * m 1 2 + m 2 0 * m 2 2 = 0
  c12 : m 0 1 * m 0 2 + m 1 1 * m 1 2 + m 2 1 * m 2 2 = 0
  r00 : m 0 0 * m 0 0 + m 0 1 * m 0 1 + m 0 2 * m 0 2 = 1
  r11 : m 1 0 * m 1 0 + m 1 1 * m 1 1 + m 1 2 * m 1 2 = 1
  r22 : m 2 0 * m 2 0 + m 2 1 * m 2 1 + m 2 2 * m 2 2 = 1
  r01 : m 0 0 * m 1 0 + m 0 1 * m 1 1 + m 0 2 * m 1 2 = 0
  r02 : m 0 0 * m 2 0 + m 0 1 * m 2 1 + m 0 2 * m 2 2 = 0
  r12 : m 1 0 * m 2 0 + m 1 1 * m 2 1 + m 1 2 * m 2 2 = 0
  k00 : m 0 0 = m 1 1 * m 2 2 - m 1 2 * m 2 1
  k01 : m 0 1 = m 1 2 * m 2 0 - m 1 0 * m 2 2
  k02 : m 0 2 = m 1 0 * m 2 1 - m 1 1 * m 2 0
  k10 : m 1 0 = m 0 2 * m 2 1 - m 0 1 * m 2 2
  k11 : m 1 1 = m 0 0 * m 2 2 - m 0 2 * m 2 0
  k12 : m 1 2 = m 0 1 * m 2 0 - m 0 0 * m 2 1
  k20 : m 2 0 = m 0 1 * m 1 2 - m 0 2 * m 1 1
  k21 : m 2 1 = m 0 2 * m 1 0 - m 0 0 * m 1 2
  k22 : m 2 2 = m 0 0 * m 1 1 - m 0 1 * m 1 0

theorem entries {m : M3} (h : IsRotation m) : Entries m := by
  obtain ⟨h1, hd⟩ := h
  have h2 : m * mᵀ = 1 := mul_eq_one_comm.1 h1
  have e1 (i j : Fin 3) : m 0 i * m 0 j + m 1 i * m 1 j + m 2 i * m 2 j = if i = j then 1 else 0 := by
    have := congrFun (congrFun h1 i) j
    rw [mul3, Matrix.one_apply] at this
    exact this
  have e2 (i j : Fin 3) : m i 0 * m j 0 + m i 1 * m j 1 + m i 2 * m j 2 = if i = j then 1 else 0 := by
    have := congrFun (congrFun h2 i) j
    rw [mul3, Matrix.one_apply] at this
    exact this
  rw [Matrix.det_fin_three] at hd
  have c00 := e1 0 0
  have c11 := e1 1 1
  have c22 := e1 2 2
  have c01 := e1 0 1
  have c02 := e1 0 2
  have c12 := e1 1 2
  have r00 := e2 0 0
  have r11 := e2 1 1
  have r22 := e2 2 2
  have r01 := e2 0 1
  have r02 := e2 0 2
  have r12 := e2 1 2
  simp at c00 c11 c22 c01 c02 c12 r00 r11 r22 r01 r02 r12
  clear e1 e2 h1 h2
  constructor <;> grind

/-- The polynomial heart of the matrix to quaternion conversion. -/
theorem quat_of_entries {m : M3} {q : Quat}
    (hw : (4 * q.re * q.re = 1 + m 0 0 + m 1 1 + m 2 2))
    (hx : 4 * q.imI * q.imI = 1 + m 0 0 - m 1 1 - m 2 2)
    (hy : 4 * q.imJ * q.imJ = 1 - m 0 0 + m 1 1 - m 2 2)
    (hz : 4 * q.imK * q.imK = 1 - m 0 0 - m 1 1 + m 2 2)
    (hwx : 4 * q.re * q.imI = m 2 1 - m 1 2) (hwy : 4 * q.re * q.imJ = m 0 2 - m 2 0)
    (hwz : 4 * q.re * q.imK = m 1 0 - m 0 1) (hxy : 4 * q.imI * q.imJ = m 0 1 + m 1 0)
    (hxz : 4 * q.imI * q.imK = m 0 2 + m 2 0) (hyz : 4 * q.imJ * q.imK = m 1 2 + m 2 1) :
    IsUnitQuat q ∧ quatToMatrix q = m := by
  constructor
  · unfold IsUnitQuat
    linear_combination (hw + hx + hy + hz) / 4
  · apply mat_ext <;> simp [quatToMatrix]
    · linear_combination -(hy + hz) / 2
    · linear_combination (hxy - hwz) / 2
    · linear_combination (hxz + hwy) / 2
    · linear_combination (hxy + hwz) / 2
    · linear_combination -(hx + hz) / 2
    · linear_combination (hyz - hwx) / 2
    · linear_combination (hxz - hwy) / 2
    · linear_combination (hyz + hwx) / 2
    · linear_combination -(hx + hy) / 2

theorem key_prod {A B C T t : ℝ} (ht : t * t = T) (hp : 0 < t) (h : A * B = T * C) :
    4 * (A * (1 / 2 / t)) * (B * (1 / 2 / t)) = C := by
  have : 4 * (A * (1 / 2 / t)) * (B * (1 / 2 / t)) = (A * B) / (t * t) := by field_simp; ring
  rw [this, h, ← ht]; field_simp

theorem key_left {A t : ℝ} (hp : 0 < t) : 4 * (t / 2) * (A * (1 / 2 / t)) = A := by field_simp; ring

theorem key_right {A t : ℝ} (hp : 0 < t) : 4 * (A * (1 / 2 / t)) * (t / 2) = A := by field_simp; ring

theorem key_sq {T t : ℝ} (ht : t * t = T) : 4 * (t / 2) * (t / 2) = T := by linear_combination ht

/-- The products of differences and sums of the entries of a rotation matrix. -/
structure Products (m : M3) : Prop where
  ww : 1 + m 0 0 + m 1 1 + m 2 2 + (1 + m 0 0 - m 1 1 - m 2 2) + (1 - m 0 0 + m 1 1 - m 2 2) +
    (1 - m 0 0 - m 1 1 + m 2 2) = 4
  wx : (m 2 1 - m 1 2) * (m 2 1 - m 1 2) = (1 + m 0 0 + m 1 1 + m 2 2) * (1 + m 0 0 - m 1 1 - m 2 2)
  wy : (m 0 2 - m 2 0) * (m 0 2 - m 2 0) = (1 + m 0 0 + m 1 1 + m 2 2) * (1 - m 0 0 + m 1 1 - m 2 2)
  wz : (m 1 0 - m 0 1) * (m 1 0 - m 0 1) = (1 + m 0 0 + m 1 1 + m 2 2) * (1 - m 0 0 - m 1 1 + m 2 2)
  xy : (m 0 1 + m 1 0) * (m 0 1 + m 1 0) = (1 + m 0 0 - m 1 1 - m 2 2) * (1 - m 0 0 + m 1 1 - m 2 2)
  xz : (m 0 2 + m 2 0) * (m 0 2 + m 2 0) = (1 + m 0 0 - m 1 1 - m 2 2) * (1 - m 0 0 - m 1 1 + m 2 2)
  yz : (m 1 2 + m 2 1) * (m 1 2 + m 2 1) = (1 - m 0 0 + m 1 1 - m 2 2) * (1 - m 0 0 - m 1 1 + m 2 2)
  w_xy : (m 2 1 - m 1 2) * (m 0 2 - m 2 0) = (1 + m 0 0 + m 1 1 + m 2 2) * (m 0 1 + m 1 0)
  w_xz : (m 2 1 - m 1 2) * (m 1 0 - m 0 1) = (1 + m 0 0 + m 1 1 + m 2 2) * (m 0 2 + m 2 0)
  w_yz : (m 0 2 - m 2 0) * (m 1 0 - m 0 1) = (1 + m 0 0 + m 1 1 + m 2 2) * (m 1 2 + m 2 1)
  x_wy : (m 2 1 - m 1 2) * (m 0 1 + m 1 0) = (1 + m 0 0 - m 1 1 - m 2 2) * (m 0 2 - m 2 0)
  x_wz : (m 2 1 - m 1 2) * (m 0 2 + m 2 0) = (1 + m 0 0 - m 1 1 - m 2 2) * (m 1 0 - m 0 1)
  x_yz : (m 0 1 + m 1 0) * (m 0 2 + m 2 0) = (1 + m 0 0 - m 1 1 - m 2 2) * (m 1 2 + m 2 1)
  y_wx : (m 0 2 - m 2 0) * (m 0 1 + m 1 0) = (1 - m 0 0 + m 1 1 - m 2 2) * (m 2 1 - m 1 2)
  y_wz : (m 0 2 - m 2 0) * (m 1 2 + m 2 1) = (1 - m 0 0 + m 1 1 - m 2 2) * (m 1 0 - m 0 1)
  y_xz : (m 0 1 + m 1 0) * (m 1 2 + m 2 1) = (1 - m 0 0 + m 1 1 - m 2 2) * (m 0 2 + m 2 0)
  z_wx : (m 1 0 - m 0 1) * (m 0 2 + m 2 0) = (1 - m 0 0 - m 1 1 + m 2 2) * (m 2 1 - m 1 2)
  z_wy : (m 1 0 - m 0 1) * (m 1 2 + m 2 1) = (1 - m 0 0 - m 1 1 + m 2 2) * (m 0 2 - m 2 0)
  z_xy : (m 0 2 + m 2 0) * (m 1 2 + m 2 1) = (1 - m 0 0 - m 1 1 + m 2 2) * (m 0 1 + m 1 0)

theorem products {m : M3} (e : Entries m) : Products m := by
  obtain ⟨c00, c11, c22, c01, c02, c12, r00, r11, r22, r01, r02, r12, k00, k01, k02, k10, k11, k12, k20, k21, k22⟩ := e
  constructor <;> grind

theorem quatOfMatrixAt_0 {m : M3} (e : Products m) (hg : 0 < 1 + m 0 0 - m 1 1 - m 2 2) :
    IsUnitQuat (quatOfMatrixAt m 0) ∧ quatToMatrix (quatOfMatrixAt m 0) = m := by
  have hs : √(m 0 0 - m 1 1 - m 2 2 + 1) * √(m 0 0 - m 1 1 - m 2 2 + 1) = 1 + m 0 0 - m 1 1 - m 2 2 := by
    rw [Real.mul_self_sqrt (by linarith)]; ring
  have hp : 0 < √(m 0 0 - m 1 1 - m 2 2 + 1) := Real.sqrt_pos.2 (by linarith)
  have hq : quatOfMatrixAt m 0 = quat ((m 2 1 - m 1 2) * (1 / 2 / √(m 0 0 - m 1 1 - m 2 2 + 1)))
      (√(m 0 0 - m 1 1 - m 2 2 + 1) / 2)
      ((m 1 0 + m 0 1) * (1 / 2 / √(m 0 0 - m 1 1 - m 2 2 + 1)))
      ((m 2 0 + m 0 2) * (1 / 2 / √(m 0 0 - m 1 1 - m 2 2 + 1))) := rfl
  rw [hq]
  apply quat_of_entries <;> simp only [quat_re, quat_imI, quat_imJ, quat_imK]
  · exact key_prod hs hp (by linear_combination e.wx)
  · exact key_sq hs
  · exact key_prod hs hp (by linear_combination e.xy)
  · exact key_prod hs hp (by linear_combination e.xz)
  · rw [key_right hp]
  · exact key_prod hs hp (by linear_combination e.x_wy)
  · exact key_prod hs hp (by linear_combination e.x_wz)
  · rw [key_left hp]; ring
  · rw [key_left hp]; ring
  · exact key_prod hs hp (by linear_combination e.x_yz)

theorem quatOfMatrixAt_1 {m : M3} (e : Products m) (hg : 0 < 1 - m 0 0 + m 1 1 - m 2 2) :
    IsUnitQuat (quatOfMatrixAt m 1) ∧ quatToMatrix (quatOfMatrixAt m 1) = m := by
  have hs : √(m 1 1 - m 2 2 - m 0 0 + 1) * √(m 1 1 - m 2 2 - m 0 0 + 1) = 1 - m 0 0 + m 1 1 - m 2 2 := by
    rw [Real.mul_self_sqrt (by linarith)]; ring
  have hp : 0 < √(m 1 1 - m 2 2 - m 0 0 + 1) := Real.sqrt_pos.2 (by linarith)
  have hq : quatOfMatrixAt m 1 = quat ((m 0 2 - m 2 0) * (1 / 2 / √(m 1 1 - m 2 2 - m 0 0 + 1)))
      ((m 0 1 + m 1 0) * (1 / 2 / √(m 1 1 - m 2 2 - m 0 0 + 1)))
      (√(m 1 1 - m 2 2 - m 0 0 + 1) / 2)
      ((m 2 1 + m 1 2) * (1 / 2 / √(m 1 1 - m 2 2 - m 0 0 + 1))) := rfl
  rw [hq]
  apply quat_of_entries <;> simp only [quat_re, quat_imI, quat_imJ, quat_imK]
  · exact key_prod hs hp (by linear_combination e.wy)
  · exact key_prod hs hp (by linear_combination e.xy)
  · exact key_sq hs
  · exact key_prod hs hp (by linear_combination e.yz)
  · exact key_prod hs hp (by linear_combination e.y_wx)
  · rw [key_right hp]
  · exact key_prod hs hp (by linear_combination e.y_wz)
  · rw [key_right hp]
  · exact key_prod hs hp (by linear_combination e.y_xz)
  · rw [key_left hp]; ring

theorem quatOfMatrixAt_2 {m : M3} (e : Products m) (hg : 0 < 1 - m 0 0 - m 1 1 + m 2 2) :
    IsUnitQuat (quatOfMatrixAt m 2) ∧ quatToMatrix (quatOfMatrixAt m 2) = m := by
  have hs : √(m 2 2 - m 0 0 - m 1 1 + 1) * √(m 2 2 - m 0 0 - m 1 1 + 1) = 1 - m 0 0 - m 1 1 + m 2 2 := by
    rw [Real.mul_self_sqrt (by linarith)]; ring
  have hp : 0 < √(m 2 2 - m 0 0 - m 1 1 + 1) := Real.sqrt_pos.2 (by linarith)
  have hq : quatOfMatrixAt m 2 = quat ((m 1 0 - m 0 1) * (1 / 2 / √(m 2 2 - m 0 0 - m 1 1 + 1)))
      ((m 0 2 + m 2 0) * (1 / 2 / √(m 2 2 - m 0 0 - m 1 1 + 1)))
      ((m 1 2 + m 2 1) * (1 / 2 / √(m 2 2 - m 0 0 - m 1 1 + 1)))
      (√(m 2 2 - m 0 0 - m 1 1 + 1) / 2) := rfl
  rw [hq]
  apply quat_of_entries <;> simp only [quat_re, quat_imI, quat_imJ, quat_imK]
  · exact key_prod hs hp (by linear_combination e.wz)
  · exact key_prod hs hp (by linear_combination e.xz)
  · exact key_prod hs hp (by linear_combination e.yz)
  · exact key_sq hs
  · exact key_prod hs hp (by linear_combination e.z_wx)
  · exact key_prod hs hp (by linear_combination e.z_wy)
  · rw [key_right hp]
  · exact key_prod hs hp (by linear_combination e.z_xy)
  · rw [key_right hp]
  · rw [key_right hp]

theorem quatOfMatrix_spec {m : M3} (h : IsRotation m) : IsUnitQuat (quatOfMatrix m) ∧ quatToMatrix (quatOfMatrix m) = m := by
  have e := products (entries h)
  by_cases ht : 0 < traceM m
  · unfold quatOfMatrix
    rw [if_pos ht]
    unfold traceM at ht ⊢
    have hs : √(m 0 0 + m 1 1 + m 2 2 + 1) * √(m 0 0 + m 1 1 + m 2 2 + 1) = 1 + m 0 0 + m 1 1 + m 2 2 := by
      rw [Real.mul_self_sqrt (by linarith)]; ring
    have hp : 0 < √(m 0 0 + m 1 1 + m 2 2 + 1) := Real.sqrt_pos.2 (by linarith)
    apply quat_of_entries <;> simp only [quat_re, quat_imI, quat_imJ, quat_imK]
    · exact key_sq hs
    · exact key_prod hs hp e.wx
    · exact key_prod hs hp e.wy
    · exact key_prod hs hp e.wz
    · exact key_left hp
    · exact key_left hp
    · exact key_left hp
    · exact key_prod hs hp e.w_xy
    · exact key_prod hs hp e.w_xz
    · exact key_prod hs hp e.w_yz
  · unfold quatOfMatrix
    rw [if_neg ht]
    unfold traceM at ht
    by_cases h1 : m 1 1 > m 0 0
    · simp only [if_pos h1]
      by_cases h2 : m 2 2 > m 1 1
      · simp only [if_pos h2]
        exact quatOfMatrixAt_2 e (by linarith)
      · simp only [if_neg h2]
        exact quatOfMatrixAt_1 e (by linarith)
    · simp only [if_neg h1]
      by_cases h2 : m 2 2 > m 0 0
      · simp only [if_pos h2]
        exact quatOfMatrixAt_2 e (by linarith)
      · simp only [if_neg h2]
        exact quatOfMatrixAt_0 e (by linarith)

/-! ## Angles -/

theorem atan2_polar {r a : ℝ} (hr : 0 < r) (h1 : -Real.pi < a) (h2 : a ≤ Real.pi) :
    atan2 (r * Real.sin a) (r * Real.cos a) = a := by
  unfold atan2
  have : (⟨r * Real.cos a, r * Real.sin a⟩ : ℂ) = r * (Complex.cos a + Complex.sin a * Complex.I) := by
    apply Complex.ext
    · simp [← Complex.ofReal_cos, ← Complex.ofReal_sin]
    · simp [← Complex.ofReal_cos, ← Complex.ofReal_sin]
  rw [this, Complex.arg_mul_cos_add_sin_mul_I hr ⟨h1, h2⟩]

theorem atan2_coe {r a : ℝ} (hr : 0 < r) : (atan2 (r * Real.sin a) (r * Real.cos a) : Real.Angle) = a := by
  unfold atan2
  have : (⟨r * Real.cos a, r * Real.sin a⟩ : ℂ) = r * (Complex.cos a + Complex.sin a * Complex.I) := by
    apply Complex.ext
    · simp [← Complex.ofReal_cos, ← Complex.ofReal_sin]
    · simp [← Complex.ofReal_cos, ← Complex.ofReal_sin]
  rw [this]
  rw [Complex.arg_real_mul _ hr]
  have := Complex.arg_cos_add_sin_mul_I_coe_angle (a : Real.Angle)
  rwa [Real.Angle.cos_coe, Real.Angle.sin_coe, Complex.ofReal_cos, Complex.ofReal_sin] at this

theorem atan2_range (y x : ℝ) : -Real.pi < atan2 y x ∧ atan2 y x ≤ Real.pi :=
  ⟨Complex.neg_pi_lt_arg _, Complex.arg_le_pi _⟩

theorem atan2_sin {y x c : ℝ} (hc : 0 < c) (h : x ^ 2 + y ^ 2 = c ^ 2) :
    c * Real.sin (atan2 y x) = y ∧ c * Real.cos (atan2 y x) = x := by
  unfold atan2
  have hn : ‖(⟨x, y⟩ : ℂ)‖ = c := by
    rw [Complex.norm_def, Complex.normSq_apply]
    simp only
    rw [show x * x + y * y = c ^ 2 by rw [← h]; ring, Real.sqrt_sq hc.le]
  have hs := Complex.norm_mul_sin_arg (⟨x, y⟩ : ℂ)
  have hk := Complex.norm_mul_cos_arg (⟨x, y⟩ : ℂ)
  rw [hn] at hs hk
  exact ⟨hs, hk⟩

theorem yaw_entries (q : Quat) : yawFromQuaternion q = atan2 (quatToMatrix q 1 0) (quatToMatrix q 0 0) := by
  unfold yawFromQuaternion
  congr 1 <;> simp [quatToMatrix] <;> ring

theorem euler_entries (q : Quat) : getEulerAnglesFromQuaternion q =
    if -quatToMatrix q 2 0 < -1 ∨ 1 < -quatToMatrix q 2 0 then .error .nonfinite
    else .ok ![atan2 (quatToMatrix q 2 1) (quatToMatrix q 2 2), Real.arcsin (-quatToMatrix q 2 0),
      atan2 (quatToMatrix q 1 0) (quatToMatrix q 0 0)] := by
  unfold getEulerAnglesFromQuaternion
  have e0 : 2 * (q.re * q.imJ - q.imK * q.imI) = -quatToMatrix q 2 0 := by simp [quatToMatrix]; ring
  have e1 : 2 * (q.re * q.imI + q.imJ * q.imK) = quatToMatrix q 2 1 := by simp [quatToMatrix]; ring
  have e2 : 1 - 2 * (q.imI * q.imI + q.imJ * q.imJ) = quatToMatrix q 2 2 := by simp [quatToMatrix]; ring
  have e3 : 2 * (q.re * q.imK + q.imI * q.imJ) = quatToMatrix q 1 0 := by simp [quatToMatrix]; ring
  have e4 : 1 - 2 * (q.imJ * q.imJ + q.imK * q.imK) = quatToMatrix q 0 0 := by simp [quatToMatrix]; ring
  rw [e0, e1, e2, e3, e4]

theorem yaw_unit (y : ℝ) : IsUnitQuat (quaternionFromYaw y) := angleAxis_unit (by simp) y

theorem yaw_matrix (y : ℝ) : quatToMatrix (quaternionFromYaw y) = rotZ y := by
  unfold quaternionFromYaw
  rw [← rod_eq]
  apply mat_ext <;> simp [rod, rotZ, skewMatrixFromVector]

theorem roll_matrix (y : ℝ) : quatToMatrix (quatOfAngleAxis y ![1, 0, 0]) = rotX y := by
  rw [← rod_eq]
  apply mat_ext <;> simp [rod, rotX, skewMatrixFromVector]

theorem pitch_matrix (y : ℝ) : quatToMatrix (quatOfAngleAxis y ![0, 1, 0]) = rotY y := by
  rw [← rod_eq]
  apply mat_ext <;> simp [rod, rotY, skewMatrixFromVector]

theorem zyx_entries (f t p : ℝ) (m : M3) (hm : m = rotZ p * rotY t * rotX f) :
    m 2 0 = -Real.sin t ∧ m 2 1 = Real.cos t * Real.sin f ∧ m 2 2 = Real.cos t * Real.cos f ∧
      m 1 0 = Real.cos t * Real.sin p ∧ m 0 0 = Real.cos t * Real.cos p ∧
      m 0 1 = Real.cos p * Real.sin t * Real.sin f - Real.sin p * Real.cos f ∧
      m 0 2 = Real.cos p * Real.sin t * Real.cos f + Real.sin p * Real.sin f ∧
      m 1 1 = Real.sin p * Real.sin t * Real.sin f + Real.cos p * Real.cos f ∧
      m 1 2 = Real.sin p * Real.sin t * Real.cos f - Real.cos p * Real.sin f := by
  subst hm
  simp only [mul3]
  simp [rotX, rotY, rotZ]
  refine ⟨?_, ?_, ?_, ?_, ?_, ?_⟩ <;> ring

/-- A rotation is determined by its first column and last row away from the gimbal lock. -/
theorem zyx_unique {m n : M3} (hm : Entries m) (hn : Entries n) (h20 : m 2 0 = n 2 0) (h21 : m 2 1 = n 2 1)
    (h22 : m 2 2 = n 2 2) (h10 : m 1 0 = n 1 0) (h00 : m 0 0 = n 0 0) (hg : n 2 0 ^ 2 ≠ 1) : m = n := by
  have hd : n 0 0 ^ 2 + n 1 0 ^ 2 ≠ 0 := by
    intro h
    apply hg
    linear_combination hn.c00 - h
  have a1 := hm.c01
  have a2 := hm.k22
  have b1 := hn.c01
  have b2 := hn.k22
  have a3 := hm.c02
  have a4 := hm.k21
  have b3 := hn.c02
  have b4 := hn.k21
  rw [h20, h21, h10, h00] at a1
  rw [h22, h10, h00] at a2
  rw [h20, h22, h10, h00] at a3
  rw [h21, h10, h00] at a4
  apply mat_ext
  · exact h00
  · apply mul_left_cancel₀ hd
    linear_combination n 0 0 * (a1 - b1) + n 1 0 * (a2 - b2)
  · apply mul_left_cancel₀ hd
    linear_combination n 0 0 * (a3 - b3) - n 1 0 * (a4 - b4)
  · exact h10
  · apply mul_left_cancel₀ hd
    linear_combination n 1 0 * (a1 - b1) - n 0 0 * (a2 - b2)
  · apply mul_left_cancel₀ hd
    linear_combination n 1 0 * (a3 - b3) + n 0 0 * (a4 - b4)
  · exact h20
  · exact h21
  · exact h22

theorem rotation_mul {m n : M3} (hm : IsRotation m) (hn : IsRotation n) : IsRotation (m * n) := by
  refine ⟨?_, ?_⟩
  · rw [Matrix.transpose_mul, Matrix.mul_assoc, ← Matrix.mul_assoc mᵀ, hm.1, Matrix.one_mul, hn.1]
  · rw [Matrix.det_mul, hm.2, hn.2, one_mul]

theorem rotX_rotation (a : ℝ) : IsRotation (rotX a) := by
  rw [← roll_matrix]; exact quatToMatrix_rotation (angleAxis_unit (by simp) a)
theorem rotY_rotation (a : ℝ) : IsRotation (rotY a) := by
  rw [← pitch_matrix]; exact quatToMatrix_rotation (angleAxis_unit (by simp) a)
theorem rotZ_rotation (a : ℝ) : IsRotation (rotZ a) := by
  rw [← yaw_matrix]; exact quatToMatrix_rotation (yaw_unit a)

theorem euler_matrix {m : M3} (hm : IsRotation m) (hg : m 2 0 ^ 2 ≠ 1) :
    rotZ (atan2 (m 1 0) (m 0 0)) * rotY (Real.arcsin (-m 2 0)) * rotX (atan2 (m 2 1) (m 2 2)) = m := by
  have e := entries hm
  set f := atan2 (m 2 1) (m 2 2) with hf
  set t := Real.arcsin (-m 2 0) with htt
  set p := atan2 (m 1 0) (m 0 0) with hp
  have hle : m 2 0 ^ 2 ≤ 1 := by nlinarith [e.c00, sq_nonneg (m 0 0), sq_nonneg (m 1 0)]
  have hlt : m 2 0 ^ 2 < 1 := lt_of_le_of_ne hle hg
  have hab : -1 < m 2 0 ∧ m 2 0 < 1 := abs_lt.1 ((sq_lt_one_iff_abs_lt_one _).1 hlt)
  have hst : Real.sin t = -m 2 0 := Real.sin_arcsin (by linarith) (by linarith)
  have hct : 0 < Real.cos t := by
    rw [htt, Real.cos_arcsin]; apply Real.sqrt_pos.2; nlinarith
  have hct2 : Real.cos t ^ 2 = 1 - m 2 0 ^ 2 := by
    have := Real.sin_sq_add_cos_sq t
    rw [hst] at this
    linarith
  obtain ⟨f1, f2⟩ := atan2_sin (y := m 2 1) (x := m 2 2) hct (by rw [hct2]; linarith [e.r22])
  obtain ⟨p1, p2⟩ := atan2_sin (y := m 1 0) (x := m 0 0) hct (by rw [hct2]; linarith [e.c00])
  rw [← hf] at f1 f2
  rw [← hp] at p1 p2
  obtain ⟨n20, n21, n22, n10, n00, -⟩ := zyx_entries f t p _ rfl
  apply zyx_unique (entries (rotation_mul (rotation_mul (rotZ_rotation _) (rotY_rotation _)) (rotX_rotation _))) e
  · rw [n20, hst, neg_neg]
  · rw [n21, f1]
  · rw [n22, f2]
  · rw [n10, p1]
  · rw [n00, p2]
  · exact hg

end Verif.Mav
