import Verif.Lemmas.MavMsgsOmega

/-! # Lemmas about the acceptance test for rotation matrices, transforms, odometry and time stamps -/

namespace Verif.Mav

open Matrix

theorem abs_mul_le {a b x y : ℝ} (ha : |a| ≤ x) (hb : |b| ≤ y) : |a * b| ≤ x * y := by
  rw [abs_mul]
  exact mul_le_mul ha hb (abs_nonneg b) ((abs_nonneg a).trans ha)

/-- The determinant of a matrix close to the identity. -/
theorem det_near {e : M3} {ε : ℝ} (hε : ε ≤ 1 / 100) (h : ∀ i j, |e i j| ≤ ε) : |(1 + e).det - 1| ≤ 4 * ε := by
  have h0 : 0 ≤ ε := (abs_nonneg _).trans (h 0 0)
  have hd : (1 + e).det - 1 = e 0 0 + e 1 1 + e 2 2 + (e 0 0 * e 1 1 - e 0 1 * e 1 0) + (e 0 0 * e 2 2 - e 0 2 * e 2 0) +
      (e 1 1 * e 2 2 - e 1 2 * e 2 1) + (e 0 0 * (e 1 1 * e 2 2 - e 1 2 * e 2 1) -
      e 0 1 * (e 1 0 * e 2 2 - e 1 2 * e 2 0) + e 0 2 * (e 1 0 * e 2 1 - e 1 1 * e 2 0)) := by
    rw [Matrix.det_fin_three]
    simp [Matrix.add_apply]
    ring
  have p (i j k l : Fin 3) : |e i j * e k l| ≤ ε ^ 2 := by rw [pow_two]; exact abs_mul_le (h i j) (h k l)
  have q (i j k l m n o r : Fin 3) : |e i j * e k l - e m n * e o r| ≤ 2 * ε ^ 2 := by
    have a1 := abs_le.1 (p i j k l)
    have a2 := abs_le.1 (p m n o r)
    rw [abs_le]; constructor <;> linarith
  have c (i j k l m n o r s u : Fin 3) : |e s u * (e i j * e k l - e m n * e o r)| ≤ 2 * ε ^ 3 := by
    have := abs_mul_le (h s u) (q i j k l m n o r)
    linarith [this]
  have b00 := abs_le.1 (h 0 0)
  have b11 := abs_le.1 (h 1 1)
  have b22 := abs_le.1 (h 2 2)
  have q1 := abs_le.1 (q 0 0 1 1 0 1 1 0)
  have q2 := abs_le.1 (q 0 0 2 2 0 2 2 0)
  have q3 := abs_le.1 (q 1 1 2 2 1 2 2 1)
  have c1 := abs_le.1 (c 1 1 2 2 1 2 2 1 0 0)
  have c2 := abs_le.1 (c 1 0 2 2 1 2 2 0 0 1)
  have c3 := abs_le.1 (c 1 0 2 1 1 1 2 0 0 2)
  have e2 : ε ^ 2 ≤ ε / 100 := by nlinarith
  have e3 : ε ^ 3 ≤ ε / 10000 := by nlinarith
  rw [hd, abs_le]
  constructor <;> linarith

theorem isRotationMatrix_iff (m : M3) : isRotationMatrix m = true ↔
    normM (mᵀ * m - 1) ≤ kSmallValueCheck ∧ m.det ≤ 1 + kSmallValueCheck := by
  unfold isRotationMatrix
  by_cases h1 : normM (mᵀ * m - 1) > kSmallValueCheck
  · rw [if_pos h1]
    simp only [Bool.false_eq_true, false_iff, not_and]
    intro h; exact absurd h1 (not_lt.2 h)
  · rw [if_neg h1]
    by_cases h2 : m.det - 1 > kSmallValueCheck
    · rw [if_pos h2]
      simp only [Bool.false_eq_true, false_iff, not_and]
      intro _ h; linarith
    · rw [if_neg h2]
      simp only [true_iff]
      exact ⟨not_lt.1 h1, by linarith⟩

theorem det_of_near {m : M3} (h : normM (mᵀ * m - 1) ≤ kSmallValueCheck) :
    1 - 4 * kSmallValueCheck ≤ m.det ^ 2 ∧ m.det ^ 2 ≤ 1 + 4 * kSmallValueCheck := by
  have h1 := det_near (e := mᵀ * m - 1) (ε := kSmallValueCheck) (by unfold kSmallValueCheck; norm_num)
    (fun i j => (entry_le_normM _ i j).trans h)
  rw [add_sub_cancel, Matrix.det_mul, Matrix.det_transpose] at h1
  have := abs_le.1 h1
  constructor <;> nlinarith

/-! ## Rotations applied to vectors -/

theorem rotation_cross {m : M3} (h : IsRotation m) (v w : V3) : m *ᵥ (v ⨯₃ w) = (m *ᵥ v) ⨯₃ (m *ᵥ w) := by
  have e := entries h
  apply vec_ext
  · rw [mulVec3, cross_0, cross_0, cross_1, cross_2]
    simp only [mulVec3]
    linear_combination (v 1 * w 2 - v 2 * w 1) * e.k00 + (v 2 * w 0 - v 0 * w 2) * e.k01 + (v 0 * w 1 - v 1 * w 0) * e.k02
  · rw [mulVec3, cross_1, cross_0, cross_1, cross_2]
    simp only [mulVec3]
    linear_combination (v 1 * w 2 - v 2 * w 1) * e.k10 + (v 2 * w 0 - v 0 * w 2) * e.k11 + (v 0 * w 1 - v 1 * w 0) * e.k12
  · rw [mulVec3, cross_2, cross_0, cross_1, cross_2]
    simp only [mulVec3]
    linear_combination (v 1 * w 2 - v 2 * w 1) * e.k20 + (v 2 * w 0 - v 0 * w 2) * e.k21 + (v 0 * w 1 - v 1 * w 0) * e.k22

theorem rotation_norm {m : M3} (h : IsRotation m) (v : V3) : norm3 (m *ᵥ v) = norm3 v := by
  have e := entries h
  unfold norm3
  congr 1
  simp only [mulVec3]
  linear_combination (v 0 ^ 2) * e.c00 + (v 1 ^ 2) * e.c11 + (v 2 ^ 2) * e.c22 + 2 * v 0 * v 1 * e.c01 +
    2 * v 0 * v 2 * e.c02 + 2 * v 1 * v 2 * e.c12

theorem mulVec_hasDerivAt (m : M3) {f : ℝ → V3} {f' : V3} {t : ℝ} (hf : HasDerivAt f f' t) :
    HasDerivAt (fun s => m *ᵥ f s) (m *ᵥ f') t := by
  rw [hasDerivAt_pi]
  intro i
  have h (j : Fin 3) := (hasDerivAt_pi.1 hf) j
  simp only [mulVec3]
  exact ((((h 0).const_mul (m i 0)).add ((h 1).const_mul (m i 1))).add ((h 2).const_mul (m i 2)))

/-! ## Quaternions -/

theorem unit_inverse {q : Quat} (h : IsUnitQuat q) : quatInverse q = star q := by
  unfold IsUnitQuat at h
  unfold quatInverse
  simp only [h]
  rw [if_pos (by norm_num)]
  ext <;> simp [quat_re, quat_imI, quat_imJ, quat_imK]

theorem star_matrix (q : Quat) : quatToMatrix (star q) = (quatToMatrix q)ᵀ := by
  apply mat_ext <;> simp [quatToMatrix] <;> ring

theorem rotate_inverse {q : Quat} (h : IsUnitQuat q) (v : V3) : quatRotate q (quatRotate (quatInverse q) v) = v := by
  rw [unit_inverse h, ← quatToMatrix_mulVec, ← quatToMatrix_mulVec, star_matrix, Matrix.mulVec_mulVec,
    mul_eq_one_comm.1 (quatToMatrix_rotation h).1, Matrix.one_mulVec]

theorem inverse_rotate {q : Quat} (h : IsUnitQuat q) (v : V3) : quatRotate (quatInverse q) (quatRotate q v) = v := by
  rw [unit_inverse h, ← quatToMatrix_mulVec, ← quatToMatrix_mulVec, star_matrix, Matrix.mulVec_mulVec,
    (quatToMatrix_rotation h).1, Matrix.one_mulVec]

/-- Two unit quaternions with the same rotation matrix are equal up to sign. -/
theorem unit_eq_or_neg {p q : Quat} (hp : IsUnitQuat p) (hq : IsUnitQuat q) (h : quatToMatrix p = quatToMatrix q) :
    p = q ∨ p = -q := by
  -- the rotation matrix determines all products of two components
  have e (i j : Fin 3) := congrFun (congrFun h i) j
  have e00 := e 0 0
  have e11 := e 1 1
  have e22 := e 2 2
  have e01 := e 0 1
  have e10 := e 1 0
  have e02 := e 0 2
  have e20 := e 2 0
  have e12 := e 1 2
  have e21 := e 2 1
  simp [quatToMatrix] at e00 e11 e22 e01 e10 e02 e20 e12 e21
  unfold IsUnitQuat at hp hq
  -- the scalar product of the two has square one
  have xx : p.imI * p.imI = q.imI * q.imI := by linarith
  have yy : p.imJ * p.imJ = q.imJ * q.imJ := by linarith
  have zz : p.imK * p.imK = q.imK * q.imK := by linarith
  have ww : p.re * p.re = q.re * q.re := by linarith
  have xy : p.imI * p.imJ = q.imI * q.imJ := by linarith
  have xz : p.imI * p.imK = q.imI * q.imK := by linarith
  have yz : p.imJ * p.imK = q.imJ * q.imK := by linarith
  have wx : p.re * p.imI = q.re * q.imI := by linarith
  have wy : p.re * p.imJ = q.re * q.imJ := by linarith
  have wz : p.re * p.imK = q.re * q.imK := by linarith
  clear e e00 e11 e22 e01 e10 e02 e20 e12 e21 h
  have hs : (p.re * q.re + p.imI * q.imI + p.imJ * q.imJ + p.imK * q.imK) ^ 2 = 1 := by
    linear_combination (q.re * q.re) * ww + (q.imI * q.imI) * xx + (q.imJ * q.imJ) * yy + (q.imK * q.imK) * zz +
      2 * (q.re * q.imI) * wx + 2 * (q.re * q.imJ) * wy + 2 * (q.re * q.imK) * wz + 2 * (q.imI * q.imJ) * xy +
      2 * (q.imI * q.imK) * xz + 2 * (q.imJ * q.imK) * yz + (q.re ^ 2 + q.imI ^ 2 + q.imJ ^ 2 + q.imK ^ 2 + 1) * hq
  have hz : (p.re * q.re + p.imI * q.imI + p.imJ * q.imJ + p.imK * q.imK - 1) *
      (p.re * q.re + p.imI * q.imI + p.imJ * q.imJ + p.imK * q.imK + 1) = 0 := by linear_combination hs
  clear xx yy zz ww xy xz yz wx wy wz hs
  have four {a b c d : ℝ} (h : a ^ 2 + b ^ 2 + c ^ 2 + d ^ 2 = 0) : a = 0 ∧ b = 0 ∧ c = 0 ∧ d = 0 := by
    have z {y : ℝ} (h : y ^ 2 ≤ 0) : y = 0 := pow_eq_zero_iff two_ne_zero |>.1 (le_antisymm h (sq_nonneg y))
    have := sq_nonneg a
    have := sq_nonneg b
    have := sq_nonneg c
    have := sq_nonneg d
    exact ⟨z (by linarith), z (by linarith), z (by linarith), z (by linarith)⟩
  rcases mul_eq_zero.1 hz with hz | hz
  · left
    obtain ⟨h1, h2, h3, h4⟩ := four (a := p.re - q.re) (b := p.imI - q.imI) (c := p.imJ - q.imJ) (d := p.imK - q.imK)
      (by linear_combination hp + hq - 2 * hz)
    ext
    · linarith
    · linarith
    · linarith
    · linarith
  · right
    obtain ⟨h1, h2, h3, h4⟩ := four (a := p.re + q.re) (b := p.imI + q.imI) (c := p.imJ + q.imJ) (d := p.imK + q.imK)
      (by linear_combination hp + hq + 2 * hz)
    ext
    · rw [Quaternion.re_neg]; linarith
    · rw [Quaternion.imI_neg]; linarith
    · rw [Quaternion.imJ_neg]; linarith
    · rw [Quaternion.imK_neg]; linarith

/-! ## Time stamps -/

theorem truncate_int (n : ℤ) : truncate n = n := by
  unfold truncate; split_ifs <;> simp

theorem truncate_spec (x : ℝ) : |(truncate x : ℝ)| ≤ |x| ∧ |x - truncate x| < 1 ∧ 0 ≤ x * truncate x := by
  unfold truncate
  split_ifs with h
  · have h1 := Int.floor_le x
    have h2 := Int.lt_floor_add_one x
    have h3 : (0 : ℝ) ≤ (⌊x⌋ : ℝ) := by exact_mod_cast Int.floor_nonneg.2 h
    refine ⟨?_, ?_, mul_nonneg h h3⟩
    · rw [abs_of_nonneg h3, abs_of_nonneg h]; exact h1
    · rw [abs_lt]; constructor <;> linarith
  · have h0 : x ≤ 0 := (not_le.1 h).le
    have h1 := Int.le_ceil x
    have h2 := Int.ceil_lt_add_one x
    have h3 : ((⌈x⌉ : ℤ) : ℝ) ≤ 0 := by exact_mod_cast Int.ceil_le.2 (by simpa using h0)
    refine ⟨?_, ?_, mul_nonneg_of_nonpos_of_nonpos h0 h3⟩
    · rw [abs_of_nonpos h3, abs_of_nonpos h0]; linarith
    · rw [abs_lt]; constructor <;> linarith

theorem truncate_mono {x y : ℝ} (h : x ≤ y) : truncate x ≤ truncate y := by
  unfold truncate
  split_ifs with h1 h2 h2
  · exact Int.floor_le_floor h
  · linarith
  · exact (Int.ceil_le.2 (by push_cast; linarith : x ≤ ((0 : ℤ) : ℝ))).trans (Int.floor_nonneg.2 h2)
  · exact Int.ceil_le_ceil h

end Verif.Mav
