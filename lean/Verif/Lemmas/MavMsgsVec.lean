import Verif.Lemmas.MavMsgsRound

/-! # Lemmas about rotation vectors -/

namespace Verif.Mav

open Matrix

theorem normM_zero : normM 0 = 0 := by simp [normM]

theorem normM_sq (m : M3) : normM m ^ 2 = m 0 0 ^ 2 + m 0 1 ^ 2 + m 0 2 ^ 2 + m 1 0 ^ 2 + m 1 1 ^ 2 + m 1 2 ^ 2 +
    m 2 0 ^ 2 + m 2 1 ^ 2 + m 2 2 ^ 2 := by
  have hn : (0 : ℝ) ≤ ∑ i, ∑ j, m i j ^ 2 := Finset.sum_nonneg fun i _ => Finset.sum_nonneg fun j _ => sq_nonneg _
  refine (Real.sq_sqrt hn).trans ?_
  simp only [Fin.sum_univ_three]
  ring

theorem normM_nonneg (m : M3) : 0 ≤ normM m := Real.sqrt_nonneg _

theorem entry_le_normM (m : M3) (i j : Fin 3) : |m i j| ≤ normM m := by
  refine abs_le_of_sq_le_sq ?_ (normM_nonneg m)
  rw [normM_sq]
  have h (a b : Fin 3) : 0 ≤ m a b ^ 2 := sq_nonneg _
  fin_cases i <;> fin_cases j <;> simp <;>
    nlinarith [h 0 0, h 0 1, h 0 2, h 1 0, h 1 1, h 1 2, h 2 0, h 2 1, h 2 2]

theorem isRotationMatrix_true {m : M3} (h : IsRotation m) : isRotationMatrix m = true := by
  unfold isRotationMatrix
  rw [h.1, h.2, sub_self, sub_self, normM_zero]
  have : ¬ (0 : ℝ) > kSmallValueCheck := by unfold kSmallValueCheck; norm_num
  simp [this]

theorem unskew_skew (v : V3) : vectorFromSkewMatrix (skewMatrixFromVector v) = (true, v) := by
  unfold vectorFromSkewMatrix
  have h0 : skewMatrixFromVector v + (skewMatrixFromVector v)ᵀ = 0 := by
    apply mat_ext <;> simp [skewMatrixFromVector]
  rw [h0, normM_zero, if_pos (by unfold kSmallValueCheck; norm_num)]
  congr 1
  apply vec_ext <;> simp [skewMatrixFromVector]

/-- Angle and axis of the rotation given by a unit quaternion with a nonnegative real part. -/
theorem quat_polar {q : Quat} (h : IsUnitQuat q) (hw : 0 ≤ q.re) :
    ∃ k : V3, k 0 ^ 2 + k 1 ^ 2 + k 2 ^ 2 = 1 ∧ quatOfAngleAxis (2 * Real.arccos q.re) k = q := by
  unfold IsUnitQuat at h
  have hle : q.re ≤ 1 := by nlinarith [sq_nonneg q.imI, sq_nonneg q.imJ, sq_nonneg q.imK]
  have hc : Real.cos (Real.arccos q.re) = q.re := Real.cos_arccos (by linarith) hle
  have hs : Real.sin (Real.arccos q.re) = √(1 - q.re ^ 2) := Real.sin_arccos _
  have hs2 : Real.sin (Real.arccos q.re) ^ 2 = q.imI ^ 2 + q.imJ ^ 2 + q.imK ^ 2 := by
    rw [hs, Real.sq_sqrt (by nlinarith)]; linarith
  have hhalf : 2 * Real.arccos q.re / 2 = Real.arccos q.re := by ring
  rcases eq_or_ne (Real.sin (Real.arccos q.re)) 0 with h0 | h0
  · rw [h0] at hs2
    have x0 : q.imI = 0 := by nlinarith [sq_nonneg q.imI, sq_nonneg q.imJ, sq_nonneg q.imK]
    have y0 : q.imJ = 0 := by nlinarith [sq_nonneg q.imI, sq_nonneg q.imJ, sq_nonneg q.imK]
    have z0 : q.imK = 0 := by nlinarith [sq_nonneg q.imI, sq_nonneg q.imJ, sq_nonneg q.imK]
    refine ⟨![1, 0, 0], by simp, ?_⟩
    ext <;> simp only [quatOfAngleAxis, quat_re, quat_imI, quat_imJ, quat_imK, hhalf, hc, h0, x0, y0, z0, zero_mul]
  · refine ⟨![q.imI / Real.sin (Real.arccos q.re), q.imJ / Real.sin (Real.arccos q.re),
      q.imK / Real.sin (Real.arccos q.re)], ?_, ?_⟩
    · simp only [Matrix.cons_val]
      generalize Real.sin (Real.arccos q.re) = s at hs2 h0 ⊢
      field_simp
      linarith
    · ext <;> simp only [quatOfAngleAxis, quat_re, quat_imI, quat_imJ, quat_imK, hhalf, hc, Matrix.cons_val] <;>
        field_simp

/-- Euler's rotation theorem: every rotation is a turn by an angle in `[0, π]` about an axis. -/
theorem rotation_polar {m : M3} (h : IsRotation m) :
    ∃ (a : ℝ) (k : V3), 0 ≤ a ∧ a ≤ Real.pi ∧ k 0 ^ 2 + k 1 ^ 2 + k 2 ^ 2 = 1 ∧ m = rod a k := by
  obtain ⟨hu, hq⟩ := quatOfMatrix_spec h
  obtain ⟨q, hu, hw, hq⟩ : ∃ q : Quat, IsUnitQuat q ∧ 0 ≤ q.re ∧ quatToMatrix q = m := by
    rcases le_total 0 (quatOfMatrix m).re with hw | hw
    · exact ⟨_, hu, hw, hq⟩
    · refine ⟨-quatOfMatrix m, ?_, ?_, by rw [quatToMatrix_neg, hq]⟩
      · unfold IsUnitQuat at hu ⊢
        simpa using hu
      · simpa using hw
  obtain ⟨k, hk, he⟩ := quat_polar hu hw
  refine ⟨2 * Real.arccos q.re, k, ?_, ?_, hk, ?_⟩
  · have := Real.arccos_nonneg q.re; linarith
  · have := (Real.arccos_le_pi_div_two (x := q.re)).2 hw; linarith
  · rw [rod_eq, he, hq]

theorem rod_trace {k : V3} (hk : k 0 ^ 2 + k 1 ^ 2 + k 2 ^ 2 = 1) (a : ℝ) : traceM (rod a k) = 1 + 2 * Real.cos a := by
  unfold traceM rod
  simp [skewMatrixFromVector]
  linear_combination (-2 * (1 - Real.cos a)) * hk

theorem rotation_distance {m : M3} (h : IsRotation m) : normM (m - 1) ^ 2 = 6 - 2 * traceM m := by
  have e := entries h
  rw [normM_sq]
  unfold traceM
  simp [Matrix.sub_apply]
  linear_combination e.c00 + e.c11 + e.c22

theorem rod_skew (a : ℝ) (k : V3) : rod a k - (rod a k)ᵀ = (2 * Real.sin a) • skewMatrixFromVector k := by
  apply mat_ext <;> simp [rod, skewMatrixFromVector] <;> ring

theorem skew_smul (a : ℝ) (k : V3) : a • skewMatrixFromVector k = skewMatrixFromVector (a • k) := by
  apply mat_ext <;> simp [skewMatrixFromVector]

theorem clamp_cos (a : ℝ) : max (-1) (min 1 (Real.cos a)) = Real.cos a := by
  rw [min_eq_right (Real.cos_le_one a), max_eq_right (Real.neg_one_le_cos a)]

/-- What `vectorFromRotationMatrix` computes for the turn by `a` about `k`. -/
theorem vector_of_rod {k : V3} (hk : k 0 ^ 2 + k 1 ^ 2 + k 2 ^ 2 = 1) {a : ℝ} (h0 : 0 ≤ a) (h1 : a ≤ Real.pi) :
    vectorFromRotationMatrix (rod a k) =
      if a < kSmallValueCheck then .ok (true, some 0)
      else if a = Real.pi then .error .nonfinite
      else .ok (true, some (a • k)) := by
  have hrot := rod_rotation hk a
  unfold vectorFromRotationMatrix
  rw [if_neg (by rw [isRotationMatrix_true hrot]; simp)]
  have hd2 : normM (rod a k - 1) ^ 2 = 8 * Real.sin (a / 2) ^ 2 := by
    rw [rotation_distance hrot, rod_trace hk, half_cos a]; ring
  by_cases hd : normM (rod a k - 1) < kSmallValueCheck
  · rw [if_pos hd]
    have hsmall : a < kSmallValueCheck := by
      by_contra hn
      have hlt : normM (rod a k - 1) ^ 2 < kSmallValueCheck ^ 2 := by
        have := normM_nonneg (rod a k - 1)
        nlinarith
      rw [hd2] at hlt
      unfold kSmallValueCheck at hn hlt
      have hx : 0 < a / 2 := by linarith
      rcases le_or_gt (a / 2) 1 with hle | hgt
      · have h3 := Real.sin_gt_sub_cube hx
        have : 5 / 6 * (a / 2) ≤ a / 2 - (a / 2) ^ 3 / 6 := by
          nlinarith [mul_nonneg hx.le (mul_nonneg (sub_nonneg.2 hle) (by linarith : (0 : ℝ) ≤ 1 + a / 2))]
        nlinarith
      · have h3 := Real.mul_le_sin hx.le (by linarith)
        have hpi := Real.pi_le_four
        have h4 : (1 : ℝ) / 2 ≤ 2 / Real.pi := by
          rw [div_le_div_iff₀ (by norm_num) Real.pi_pos]; linarith
        have : 1 / 2 ≤ Real.sin (a / 2) := by nlinarith
        nlinarith
    rw [if_pos hsmall]
  · rw [if_neg hd]
    have hc : (traceM (rod a k) - 1) / 2 = Real.cos a := by rw [rod_trace hk]; ring
    simp only [hc, clamp_cos, Real.arccos_cos h0 h1]
    by_cases hs : a < kSmallValueCheck
    · rw [if_pos hs, if_pos hs]
    rw [if_neg hs, if_neg hs]
    have hpos : 0 < a := by unfold kSmallValueCheck at hs; linarith
    by_cases hp : a = Real.pi
    · rw [if_pos hp, if_pos (by rw [hp, Real.sin_pi, mul_zero])]
    · have hsin : 0 < Real.sin a := Real.sin_pos_of_pos_of_lt_pi hpos (lt_of_le_of_ne h1 hp)
      rw [if_neg hp, if_neg (by linarith), rod_skew, smul_smul, div_mul_cancel₀ _ (by linarith), skew_smul, unskew_skew]

end Verif.Mav
