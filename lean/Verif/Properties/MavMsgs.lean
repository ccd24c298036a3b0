import Mathlib.Analysis.Real.Pi.Bounds
import Verif.Lemmas.MavMsgsMisc
import Verif.Lemmas.NearRotation

/-!
# Properties C69, C70, C88 – C94: rotations, transforms, odometry, time stamps

Specification in `Verif.Spec.MavMsgs`.
-/

namespace Verif.Properties

open Verif Mav Matrix

/-! ## C69: yaw and quaternions -/

/-- `quaternionFromYaw y` is a unit quaternion and turns every vector (by conjugation, and by Eigen's `q * v`) by the
angle `y` about the z axis. -/
theorem C69_rotation (y : ℝ) : IsUnitQuat (quaternionFromYaw y) ∧
    (∀ v : V3, quaternionFromYaw y * pureQuat v * star (quaternionFromYaw y) = pureQuat (rotZ y *ᵥ v)) ∧
    ∀ v : V3, quatRotate (quaternionFromYaw y) v = rotZ y *ᵥ v := by
  have h (v : V3) : quatRotate (quaternionFromYaw y) v = rotZ y *ᵥ v := by
    rw [← quatToMatrix_mulVec, yaw_matrix]
  exact ⟨yaw_unit y, fun v => by rw [← quatRotate_conj (yaw_unit y), h], h⟩

/-- `yawFromQuaternion` gives back an angle in `(-π, π]`. -/
theorem C69_round_trip (y : ℝ) (h1 : -Real.pi < y) (h2 : y ≤ Real.pi) : yawFromQuaternion (quaternionFromYaw y) = y := by
  rw [yaw_entries, yaw_matrix]
  have := atan2_polar (r := 1) one_pos h1 h2
  rw [one_mul, one_mul] at this
  exact this

/-- For any angle it gives the representative in `(-π, π]`. -/
theorem C69_any_angle (y : ℝ) : ∃ k : ℤ, yawFromQuaternion (quaternionFromYaw y) = y + 2 * Real.pi * k ∧
    -Real.pi < yawFromQuaternion (quaternionFromYaw y) ∧ yawFromQuaternion (quaternionFromYaw y) ≤ Real.pi := by
  have h : ((yawFromQuaternion (quaternionFromYaw y) : ℝ) : Real.Angle) = y := by
    rw [yaw_entries, yaw_matrix]
    have := atan2_coe (r := 1) (a := y) one_pos
    rw [one_mul, one_mul] at this
    exact this
  obtain ⟨k, hk⟩ := Real.Angle.angle_eq_iff_two_pi_dvd_sub.1 h
  exact ⟨k, by linarith, atan2_range _ _⟩

/-- The setters of a trajectory point and of an odometry message: what is set is read back, the rest of the orientation
is level, and nothing else changes. -/
theorem C69_setters (p : TrajectoryPoint) (o : Odometry) (y : ℝ) (h1 : -Real.pi < y) (h2 : y ≤ Real.pi) (r a : ℝ) :
    ((p.setFromYaw y).getYaw = y ∧ (p.setFromYawRate r).getYawRate = r ∧ (p.setFromYawAcc a).getYawAcc = a) ∧
    (p.setFromYaw y = { p with orientation := quaternionFromYaw y } ∧
      p.setFromYawRate r = { p with angularVelocity := ![0, 0, r] } ∧
      p.setFromYawAcc a = { p with angularAcceleration := ![0, 0, a] }) ∧
    ((o.setFromYaw y).getYaw = y ∧ (o.setFromYawRate r).getYawRate = r) :=
  ⟨⟨C69_round_trip y h1 h2, rfl, rfl⟩, ⟨rfl, rfl, rfl⟩, C69_round_trip y h1 h2, rfl⟩

/-- Non-vacuity: a quarter turn to the left takes the x axis to the y axis, and reads back as `π / 2`. -/
example : quatRotate (quaternionFromYaw (Real.pi / 2)) ![1, 0, 0] = ![0, 1, 0] ∧
    yawFromQuaternion (quaternionFromYaw (Real.pi / 2)) = Real.pi / 2 := by
  refine ⟨?_, C69_round_trip _ (by linarith [Real.pi_pos]) (by linarith [Real.pi_pos])⟩
  rw [(C69_rotation _).2.2]
  apply vec_ext <;> rw [mulVec3] <;> simp [rotZ]

/-- Non-vacuity: three quarter turns to the left read back as a quarter turn to the right. -/
example : yawFromQuaternion (quaternionFromYaw (3 * Real.pi / 2)) = -(Real.pi / 2) := by
  obtain ⟨k, hk, h1, h2⟩ := C69_any_angle (3 * Real.pi / 2)
  rw [hk] at h1 h2 ⊢
  have hp := Real.pi_pos
  have a1 : (-2 : ℝ) < k := by
    by_contra h
    have : 2 * Real.pi * k ≤ 2 * Real.pi * (-2) := by
      apply mul_le_mul_of_nonneg_left (not_lt.1 h) (by positivity)
    linarith
  have a2 : (k : ℝ) < 0 := by
    by_contra h
    have : 0 ≤ 2 * Real.pi * k := mul_nonneg (by positivity) (not_lt.1 h)
    linarith
  have hk1 : k = -1 := by
    have b1 : -2 < k := by exact_mod_cast a1
    have b2 : k < 0 := by exact_mod_cast a2
    omega
  rw [hk1]; push_cast; ring

/-! ## C70: skew matrices and rotation matrices -/

/-- The skew matrix of a vector acts as the cross product and is skew symmetric; the vector is read back from it. -/
theorem C70_skew (v : V3) : (∀ w : V3, skewMatrixFromVector v *ᵥ w = v ⨯₃ w) ∧
    (skewMatrixFromVector v)ᵀ = -skewMatrixFromVector v ∧
    vectorFromSkewMatrix (skewMatrixFromVector v) = (true, v) := by
  refine ⟨skew_mulVec v, ?_, unskew_skew v⟩
  apply mat_ext <;> simp [skewMatrixFromVector]

/-- Every skew symmetric matrix is accepted and is the skew matrix of the vector returned; a matrix is accepted exactly
when it is within the tolerance of being skew symmetric, and then the vector's skew matrix is within the tolerance of the
matrix; otherwise the zero vector is returned. -/
theorem C70_unskew (m : M3) :
    (mᵀ = -m → ∃ v, vectorFromSkewMatrix m = (true, v) ∧ skewMatrixFromVector v = m) ∧
    ((vectorFromSkewMatrix m).1 = true ↔ normM (m + mᵀ) < 1 / 1000000) ∧
    ((vectorFromSkewMatrix m).1 = true → normM (m - skewMatrixFromVector (vectorFromSkewMatrix m).2) < 1 / 1000000) ∧
    ((vectorFromSkewMatrix m).1 = false → (vectorFromSkewMatrix m).2 = 0) := by
  have hacc : ((vectorFromSkewMatrix m).1 = true ↔ normM (m + mᵀ) < 1 / 1000000) := by
    unfold vectorFromSkewMatrix kSmallValueCheck
    split_ifs with h
    · simpa using h
    · simpa using h
  refine ⟨?_, hacc, ?_, ?_⟩
  · intro h
    have hm : m = skewMatrixFromVector ![m 2 1, m 0 2, m 1 0] := by
      have e (i j : Fin 3) : m j i = -m i j := congrFun (congrFun h i) j
      have e00 := e 0 0
      have e11 := e 1 1
      have e22 := e 2 2
      have e01 := e 1 0
      have e20 := e 0 2
      have e12 := e 2 1
      apply mat_ext <;> simp [skewMatrixFromVector] <;> linarith
    refine ⟨![m 2 1, m 0 2, m 1 0], ?_, hm.symm⟩
    conv_lhs => rw [hm]
    exact unskew_skew _
  · intro h
    have hn := hacc.1 h
    have hv : (vectorFromSkewMatrix m).2 = ![m 2 1, m 0 2, m 1 0] := by
      unfold vectorFromSkewMatrix kSmallValueCheck
      rw [if_pos hn]
    rw [hv]
    refine lt_of_le_of_lt ?_ hn
    apply abs_le_of_sq_le_sq' _ (normM_nonneg _) |>.2
    rw [normM_sq, normM_sq]
    simp [skewMatrixFromVector, Matrix.sub_apply, Matrix.add_apply]
    nlinarith [sq_nonneg (m 0 0), sq_nonneg (m 1 1), sq_nonneg (m 2 2), sq_nonneg (m 0 1 + m 1 0),
      sq_nonneg (m 0 2 + m 2 0), sq_nonneg (m 1 2 + m 2 1)]
  · intro h
    unfold vectorFromSkewMatrix kSmallValueCheck at h ⊢
    split_ifs at h ⊢ with h'
    rfl

/-- `matrixFromRotationVector` returns a rotation: the zero vector gives the identity, and `a` times a unit vector `k`
gives the turn by the angle `a` about `k` (Rodrigues' formula). -/
theorem C70_matrixFromRotationVector :
    (∀ v, IsRotation (matrixFromRotationVector v)) ∧ matrixFromRotationVector 0 = 1 ∧
    (∀ (k : V3) (a : ℝ) (x : V3), k ⬝ᵥ k = 1 → matrixFromRotationVector (a • k) *ᵥ x = turn k a x) := by
  refine ⟨matrix_rotation, matrix_zero, ?_⟩
  intro k a x hk
  rw [dot3] at hk
  have hk : k 0 ^ 2 + k 1 ^ 2 + k 2 ^ 2 = 1 := by linarith
  rw [matrix_smul hk, rod_mulVec hk]

/-- Turns about one axis add up, the opposite vector undoes the turn, and the axis stays fixed. -/
theorem C70_one_axis (k : V3) (hk : k ⬝ᵥ k = 1) (a b : ℝ) :
    matrixFromRotationVector (a • k) * matrixFromRotationVector (b • k) = matrixFromRotationVector ((a + b) • k) ∧
    matrixFromRotationVector (a • k) * matrixFromRotationVector (-(a • k)) = 1 ∧
    matrixFromRotationVector (a • k) *ᵥ k = k ∧
    matrixFromRotationVector ((a + 2 * Real.pi) • k) = matrixFromRotationVector (a • k) := by
  rw [dot3] at hk
  have hk : k 0 ^ 2 + k 1 ^ 2 + k 2 ^ 2 = 1 := by linarith
  refine ⟨?_, ?_, ?_, ?_⟩
  · rw [matrix_smul hk, matrix_smul hk, matrix_smul hk, rod_add hk]
  · rw [← neg_smul, matrix_smul hk, matrix_smul hk, rod_add hk, add_neg_cancel, rod_zero]
  · rw [matrix_smul hk, rod_mulVec hk]
    unfold turn
    rw [cross_self, dot3]
    have : k 0 * k 0 + k 1 * k 1 + k 2 * k 2 = 1 := by linarith
    rw [this, smul_zero, add_zero, mul_one, ← add_smul, add_sub_cancel, one_smul]
  · rw [matrix_smul hk, matrix_smul hk]
    unfold rod
    rw [Real.sin_add_two_pi, Real.cos_add_two_pi]

/-- Non-vacuity: a third of a turn about the diagonal permutes the axes. -/
example : matrixFromRotationVector ((2 * Real.pi / 3) • ![1 / √3, 1 / √3, 1 / √3]) *ᵥ ![1, 0, 0] = ![0, 1, 0] := by
  have h3 : √3 * √3 = 3 := Real.mul_self_sqrt (by norm_num)
  have h0 : √3 ≠ 0 := by positivity
  rw [C70_matrixFromRotationVector.2.2 _ _ _ (by rw [dot3]; simp; field_simp; nlinarith)]
  have hc : Real.cos (2 * Real.pi / 3) = -1 / 2 := by
    rw [show 2 * Real.pi / 3 = Real.pi - Real.pi / 3 by ring, Real.cos_pi_sub, Real.cos_pi_div_three]; ring
  have hs : Real.sin (2 * Real.pi / 3) = √3 / 2 := by
    rw [show 2 * Real.pi / 3 = Real.pi - Real.pi / 3 by ring, Real.sin_pi_sub, Real.sin_pi_div_three]
  unfold turn
  rw [hc, hs, dot3]
  apply vec_ext <;> simp only [Pi.add_apply, Pi.smul_apply, smul_eq_mul, cross_0, cross_1, cross_2] <;> simp <;>
    field_simp <;> nlinarith

/-- `isRotationMatrix` accepts every rotation. -/
theorem C70_accepts_rotations (m : M3) (h : IsRotation m) : isRotationMatrix m = true := isRotationMatrix_true h

/-- The property as stated, that it accepts nothing far from a rotation, fails: the test of the determinant is
one-sided, and the point reflection is accepted, whose determinant is -1. -/
theorem C70_refuted : isRotationMatrix (-1) = true ∧ (-1 : M3).det = -1 := by
  have hd : (-1 : M3).det = -1 := by rw [Matrix.det_fin_three]; simp
  refine ⟨?_, hd⟩
  rw [isRotationMatrix_iff, hd]
  constructor
  · simp [normM_zero]; unfold kSmallValueCheck; norm_num
  · unfold kSmallValueCheck; norm_num

/-- What holds: an accepted matrix is within the tolerance of being orthogonal, and its determinant is close to 1 or
close to -1; with a positive determinant it is close to 1. A matrix whose columns are too far from orthonormal, or whose
determinant is above 1 by more than the tolerance, is refused. -/
theorem C70_isRotationMatrix_partial (m : M3) :
    (isRotationMatrix m = true → normM (mᵀ * m - 1) ≤ 1 / 1000000 ∧
      (|m.det - 1| ≤ 4 / 1000000 ∨ |m.det + 1| ≤ 4 / 1000000) ∧ (0 < m.det → |m.det - 1| ≤ 4 / 1000000)) ∧
    (1 / 1000000 < normM (mᵀ * m - 1) → isRotationMatrix m = false) ∧
    (1 + 1 / 1000000 < m.det → isRotationMatrix m = false) := by
  refine ⟨?_, ?_, ?_⟩
  · intro h
    obtain ⟨h1, h2⟩ := (isRotationMatrix_iff m).1 h
    obtain ⟨d1, d2⟩ := det_of_near h1
    unfold kSmallValueCheck at h1 h2 d1 d2
    have hpos : 0 < m.det → |m.det - 1| ≤ 4 / 1000000 := by
      intro hp
      rw [abs_le]
      constructor <;> nlinarith
    have hneg : m.det ≤ 0 → |m.det + 1| ≤ 4 / 1000000 := by
      intro hp
      rw [abs_le]
      constructor <;> nlinarith
    exact ⟨h1, (lt_or_ge 0 m.det).imp hpos hneg, hpos⟩
  · intro h
    rw [Bool.eq_false_iff]
    intro hc
    have := ((isRotationMatrix_iff m).1 hc).1
    unfold kSmallValueCheck at this
    linarith
  · intro h
    rw [Bool.eq_false_iff]
    intro hc
    have := ((isRotationMatrix_iff m).1 hc).2
    unfold kSmallValueCheck at this
    linarith

/-- What is accepted, in terms of rotations: only matrices within the tolerance of a rotation or of the negative of one (which of the two is told by
the sign of the determinant), and every matrix within four tenths of the tolerance of a rotation. -/
theorem C70_near_rotations_partial (m : M3) :
    (isRotationMatrix m = true → 0 < m.det → ∃ r, IsRotation r ∧ normM (m - r) ≤ 1 / 1000000) ∧
    (isRotationMatrix m = true → m.det ≤ 0 → ∃ r, IsRotation r ∧ normM (m + r) ≤ 1 / 1000000) ∧
    (∀ r, IsRotation r → normM (m - r) ≤ 4 / 10000000 → isRotationMatrix m = true) := by
  have key : isRotationMatrix m = true → ∃ r : M3, rᵀ * r = 1 ∧ normM (m - r) ≤ 1 / 1000000 ∧ ∃ c : ℝ, 0 < c ∧ r.det = m.det * c := by
    intro h
    have h1 := ((isRotationMatrix_iff m).1 h).1
    unfold kSmallValueCheck at h1
    exact polar m _ (by norm_num) h1
  have hdet : ∀ r : M3, rᵀ * r = 1 → r.det * r.det = 1 := by
    intro r hr
    have := congrArg Matrix.det hr
    rwa [Matrix.det_mul, Matrix.det_transpose, Matrix.det_one] at this
  refine ⟨fun h hp => ?_, fun h hp => ?_, fun r hr hn => ?_⟩
  · obtain ⟨r, h1, h2, c, hc, h3⟩ := key h
    have hpos : 0 < r.det := by rw [h3]; positivity
    exact ⟨r, ⟨h1, by nlinarith [hdet r h1]⟩, h2⟩
  · obtain ⟨r, h1, h2, c, hc, h3⟩ := key h
    have hneg : r.det ≤ 0 := by rw [h3]; exact mul_nonpos_of_nonpos_of_nonneg hp hc.le
    refine ⟨-r, ⟨by rw [Matrix.transpose_neg, neg_mul_neg, h1], ?_⟩, by rwa [← sub_eq_add_neg]⟩
    rw [Matrix.det_neg, Fintype.card_fin]
    nlinarith [hdet r h1]
  · have hr' : r * rᵀ = 1 := mul_eq_one_comm.mp hr.1
    have hm : m = r * (1 + rᵀ * (m - r)) := by
      rw [Matrix.mul_add, ← Matrix.mul_assoc, hr', Matrix.mul_one, Matrix.one_mul]; abel
    have hf : normM (rᵀ * (m - r)) ≤ 4 / 10000000 := by rwa [normM_rotate r _ hr']
    have h0 := normM_nonneg (rᵀ * (m - r))
    rw [isRotationMatrix_iff]
    unfold kSmallValueCheck
    constructor
    · have e : mᵀ * m = (1 + rᵀ * (m - r))ᵀ * (1 + rᵀ * (m - r)) := by
        nth_rewrite 1 2 [hm]
        rw [Matrix.transpose_mul, Matrix.mul_assoc, ← Matrix.mul_assoc rᵀ, hr.1, Matrix.one_mul]
      rw [e]
      refine (columns_near _).trans ?_
      nlinarith
    · have := det_near_one _ _ hf (by norm_num)
      rw [hm, Matrix.det_mul, hr.2, one_mul]
      linarith

-- A rotation with a small error is accepted; a reflection with a small error is within the tolerance of the negative of a rotation.
example : isRotationMatrix ((1 : M3) + (1 / 10000000 : ℝ) • !![0, 1, 0; 1, 0, 0; 0, 0, 0]) = true := by
  refine (C70_near_rotations_partial _).2.2 1 (by simp [IsRotation]) ?_
  rw [add_sub_cancel_left]
  refine abs_le_of_sq_le_sq' ?_ (by norm_num) |>.2
  rw [normM_sq]
  simp [Matrix.smul_apply]
  norm_num

/-! ## C88: Euler angles -/

/-- What the rotation of a unit quaternion is: conjugation in the quaternion algebra, whether it is applied to a vector or as a matrix; it is a rotation, and the product
of two quaternions turns by the second one first. -/
theorem C88_rotation_of_quaternion (q : Quat) (hq : IsUnitQuat q) :
    (∀ v : V3, pureQuat (quatRotate q v) = q * pureQuat v * star q ∧ quatToMatrix q *ᵥ v = quatRotate q v) ∧ IsRotation (quatToMatrix q) ∧
      ∀ p : Quat, IsUnitQuat p → quatToMatrix (p * q) = quatToMatrix p * quatToMatrix q :=
  ⟨fun v => ⟨quatRotate_conj hq v, quatToMatrix_mulVec q v⟩, quatToMatrix_rotation hq, fun _ hp => quatToMatrix_mul hp hq⟩

-- A quarter turn about the vertical axis takes x to y.
example : quatRotate (quat (√2 / 2) 0 0 (√2 / 2)) ![1, 0, 0] = ![0, 1, 0] ∧ IsUnitQuat (quat (√2 / 2) 0 0 (√2 / 2)) := by
  have h : √2 * √2 = 2 := Real.mul_self_sqrt (by norm_num)
  constructor
  · apply vec_ext
    · rw [quatRotate_0]; simp [quat]; nlinarith
    · rw [quatRotate_1]; simp [quat]; nlinarith
    · rw [quatRotate_2]; simp [quat]
  · unfold IsUnitQuat; simp [quat]; nlinarith

/-- For every unit quaternion the call returns three angles in the usual ranges, unless rounding is involved; away from
the gimbal lock (pitch `±π/2`) turning by roll about x, then by pitch about y, then by yaw about z is the rotation of the
quaternion. -/
theorem C88_euler_angles (q : Quat) (hq : IsUnitQuat q) :
    ∃ roll pitch yaw : ℝ, getEulerAnglesFromQuaternion q = .ok ![roll, pitch, yaw] ∧
      (-Real.pi < roll ∧ roll ≤ Real.pi) ∧ (-(Real.pi / 2) ≤ pitch ∧ pitch ≤ Real.pi / 2) ∧
      (-Real.pi < yaw ∧ yaw ≤ Real.pi) ∧ yaw = yawFromQuaternion q ∧
      (pitch ≠ Real.pi / 2 → pitch ≠ -(Real.pi / 2) →
        ∀ v : V3, quatRotate q v = rotZ yaw *ᵥ (rotY pitch *ᵥ (rotX roll *ᵥ v))) := by
  have hr := quatToMatrix_rotation hq
  have e := entries hr
  have hle : quatToMatrix q 2 0 ^ 2 ≤ 1 := by
    nlinarith [e.c00, sq_nonneg (quatToMatrix q 0 0), sq_nonneg (quatToMatrix q 1 0)]
  have hab := abs_le.1 ((sq_le_one_iff_abs_le_one _).1 hle)
  refine ⟨atan2 (quatToMatrix q 2 1) (quatToMatrix q 2 2), Real.arcsin (-quatToMatrix q 2 0),
    atan2 (quatToMatrix q 1 0) (quatToMatrix q 0 0), ?_, atan2_range _ _, ⟨Real.neg_pi_div_two_le_arcsin _, Real.arcsin_le_pi_div_two _⟩,
    atan2_range _ _, (yaw_entries q).symm, ?_⟩
  · rw [euler_entries, if_neg (by rintro (h | h) <;> linarith)]
  · intro g1 g2 v
    rw [Matrix.mulVec_mulVec, Matrix.mulVec_mulVec, ← quatToMatrix_mulVec, euler_matrix hr]
    intro hg
    have hz : (quatToMatrix q 2 0 - 1) * (quatToMatrix q 2 0 + 1) = 0 := by linear_combination hg
    rcases mul_eq_zero.1 hz with hz | hz
    · apply g2
      rw [show -quatToMatrix q 2 0 = -1 by linarith, Real.arcsin_neg_one]
    · apply g1
      rw [show -quatToMatrix q 2 0 = 1 by linarith, Real.arcsin_one]

/-- Round trip: the quaternion made of roll, pitch and yaw gives the three angles back. -/
theorem C88_round_trip (roll pitch yaw : ℝ) (hr : -Real.pi < roll ∧ roll ≤ Real.pi)
    (hp : -(Real.pi / 2) < pitch ∧ pitch < Real.pi / 2) (hy : -Real.pi < yaw ∧ yaw ≤ Real.pi) :
    getEulerAnglesFromQuaternion
      (quaternionFromYaw yaw * quatOfAngleAxis pitch ![0, 1, 0] * quatOfAngleAxis roll ![1, 0, 0]) =
      .ok ![roll, pitch, yaw] := by
  have u1 := yaw_unit yaw
  have u2 : IsUnitQuat (quatOfAngleAxis pitch ![0, 1, 0]) := angleAxis_unit (by simp) pitch
  have u3 : IsUnitQuat (quatOfAngleAxis roll ![1, 0, 0]) := angleAxis_unit (by simp) roll
  have hm : quatToMatrix (quaternionFromYaw yaw * quatOfAngleAxis pitch ![0, 1, 0] * quatOfAngleAxis roll ![1, 0, 0]) =
      rotZ yaw * rotY pitch * rotX roll := by
    rw [quatToMatrix_mul (unit_mul u1 u2) u3, quatToMatrix_mul u1 u2, yaw_matrix, pitch_matrix, roll_matrix]
  obtain ⟨n20, n21, n22, n10, n00, -⟩ := zyx_entries roll pitch yaw _ hm
  have hc : 0 < Real.cos pitch := Real.cos_pos_of_mem_Ioo ⟨hp.1, hp.2⟩
  rw [euler_entries, n20, n21, n22, n10, n00, neg_neg, atan2_polar hc hr.1 hr.2, atan2_polar hc hy.1 hy.2,
    Real.arcsin_sin hp.1.le hp.2.le, if_neg]
  rintro (h | h)
  · linarith [Real.neg_one_le_sin pitch]
  · linarith [Real.sin_le_one pitch]

/-- At the gimbal lock (pitch `±π/2`) roll and yaw are lost: the call returns zero for both, whatever they were. -/
theorem C88_gimbal_lock (roll yaw : ℝ) (pitch : ℝ) (hp : pitch = Real.pi / 2 ∨ pitch = -(Real.pi / 2)) :
    getEulerAnglesFromQuaternion
      (quaternionFromYaw yaw * quatOfAngleAxis pitch ![0, 1, 0] * quatOfAngleAxis roll ![1, 0, 0]) = .ok ![0, pitch, 0] := by
  have u1 := yaw_unit yaw
  have u2 : IsUnitQuat (quatOfAngleAxis pitch ![0, 1, 0]) := angleAxis_unit (by simp) pitch
  have u3 : IsUnitQuat (quatOfAngleAxis roll ![1, 0, 0]) := angleAxis_unit (by simp) roll
  have hm : quatToMatrix (quaternionFromYaw yaw * quatOfAngleAxis pitch ![0, 1, 0] * quatOfAngleAxis roll ![1, 0, 0]) =
      rotZ yaw * rotY pitch * rotX roll := by
    rw [quatToMatrix_mul (unit_mul u1 u2) u3, quatToMatrix_mul u1 u2, yaw_matrix, pitch_matrix, roll_matrix]
  obtain ⟨n20, n21, n22, n10, n00, -⟩ := zyx_entries roll pitch yaw _ hm
  have hc : Real.cos pitch = 0 := by
    rcases hp with rfl | rfl
    · exact Real.cos_pi_div_two
    · rw [Real.cos_neg, Real.cos_pi_div_two]
  have hs : -(Real.pi / 2) ≤ pitch ∧ pitch ≤ Real.pi / 2 := by
    have := Real.pi_pos
    rcases hp with rfl | rfl <;> constructor <;> linarith
  have h0 : atan2 0 0 = 0 := by
    unfold atan2
    exact Complex.arg_zero
  rw [euler_entries, n20, n21, n22, n10, n00, neg_neg, hc, Real.arcsin_sin hs.1 hs.2, if_neg]
  · simp [h0]
  rintro (h | h)
  · linarith [Real.neg_one_le_sin pitch]
  · linarith [Real.sin_le_one pitch]

/-- Non-vacuity: a quaternion that is not of unit length may make `asin` return NaN. -/
example : getEulerAnglesFromQuaternion (quat 1 0 1 0) = .error .nonfinite := by
  rw [euler_entries, if_pos]
  right
  simp [quatToMatrix, quat_re, quat_imI, quat_imJ, quat_imK]

/-- Non-vacuity of the round trip. -/
example : getEulerAnglesFromQuaternion (quaternionFromYaw 3 * quatOfAngleAxis 1 ![0, 1, 0] *
    quatOfAngleAxis (-2) ![1, 0, 0]) = .ok ![-2, 1, 3] :=
  C88_round_trip (-2) 1 3 ⟨by linarith [Real.pi_gt_three], by linarith [Real.pi_gt_three]⟩
    ⟨by linarith [Real.pi_gt_three], by linarith [Real.pi_gt_three]⟩
    ⟨by linarith [Real.pi_gt_three], by linarith [Real.pi_gt_three]⟩

/-! ## C89: rotation vectors and matrices -/

/-- The rotation vector is read back from its matrix when it is shorter than `π` and not shorter than the tolerance;
below the tolerance the result is zero; for a half turn the code divides by zero. -/
theorem C89_round_trip (v : V3) :
    (1 / 1000000 ≤ norm3 v → norm3 v < Real.pi →
      vectorFromRotationMatrix (matrixFromRotationVector v) = .ok (true, some v)) ∧
    (norm3 v < 1 / 1000000 → vectorFromRotationMatrix (matrixFromRotationVector v) = .ok (true, some 0)) ∧
    (norm3 v = Real.pi → vectorFromRotationMatrix (matrixFromRotationVector v) = .error .nonfinite) := by
  have hpi := Real.pi_gt_three
  have main (h0 : v ≠ 0) (hle : norm3 v ≤ Real.pi) := vector_of_rod (axis_unit h0) (norm3_nonneg v) hle
  have hax (h0 : v ≠ 0) : norm3 v • axis v = v := by
    funext i
    have := norm3_pos h0
    simp only [axis, Pi.smul_apply, smul_eq_mul]
    field_simp
  have hne (h : 0 < norm3 v) : v ≠ 0 := by
    rintro rfl
    rw [norm3_zero] at h
    exact lt_irrefl _ h
  refine ⟨?_, ?_, ?_⟩
  · intro h1 h2
    have h0 := hne (by linarith)
    rw [matrix_eq_rod v h0, main h0 h2.le, if_neg (by unfold kSmallValueCheck; linarith), if_neg h2.ne, hax h0]
  · intro h1
    rcases eq_or_ne v 0 with rfl | h0
    · rw [matrix_zero]
      have := vector_of_rod (k := ![0, 0, 1]) (by simp) (le_refl (0 : ℝ)) Real.pi_pos.le
      rw [rod_zero, if_pos (by unfold kSmallValueCheck; norm_num)] at this
      exact this
    · rw [matrix_eq_rod v h0, main h0 (by linarith), if_pos (by unfold kSmallValueCheck; linarith)]
  · intro h1
    have h0 := hne (by linarith)
    rw [matrix_eq_rod v h0, main h0 h1.le, if_neg (by unfold kSmallValueCheck; linarith), if_pos h1]

/-- The other way round, for every rotation except half turns: the call succeeds with a vector of length at most `π`
whose rotation matrix is the given one, or within `2·10⁻⁶` of it if the vector returned is zero. -/
theorem C89_matrix_round_trip (m : M3) (h : IsRotation m) (ht : m 0 0 + m 1 1 + m 2 2 ≠ -1) :
    ∃ v, vectorFromRotationMatrix m = .ok (true, some v) ∧ norm3 v < Real.pi ∧
      (v ≠ 0 → matrixFromRotationVector v = m) ∧ normM (matrixFromRotationVector v - m) ≤ 2 / 1000000 := by
  obtain ⟨a, k, h0, h1, hk, rfl⟩ := rotation_polar h
  have htr := rod_trace hk a
  have hd := rotation_distance h
  have hlt : a < Real.pi := by
    refine lt_of_le_of_ne h1 fun e => ht ?_
    unfold traceM at htr
    rw [htr, e, Real.cos_pi]; norm_num
  rw [vector_of_rod hk h0 h1]
  by_cases hs : a < kSmallValueCheck
  · rw [if_pos hs]
    refine ⟨0, rfl, by rw [norm3_zero]; exact Real.pi_pos, fun hc => absurd rfl hc, ?_⟩
    rw [matrix_zero]
    have hneg : normM (1 - rod a k) = normM (rod a k - 1) := by
      unfold normM
      congr 1
      refine Finset.sum_congr rfl fun i _ => Finset.sum_congr rfl fun j _ => ?_
      simp only [Matrix.sub_apply]
      ring
    rw [hneg]
    apply abs_le_of_sq_le_sq' _ (by norm_num) |>.2
    rw [hd, htr]
    have := Real.one_sub_sq_div_two_le_cos (x := a)
    unfold kSmallValueCheck at hs
    nlinarith
  · rw [if_neg hs, if_neg hlt.ne]
    refine ⟨a • k, rfl, ?_, fun _ => matrix_smul hk a, ?_⟩
    · rw [norm3_smul, norm3_unit hk, mul_one, abs_of_nonneg h0]; exact hlt
    · rw [matrix_smul hk, sub_self, normM_zero]; norm_num

/-- A matrix that `isRotationMatrix` refuses gives `false`, and the output is not written. -/
theorem C89_refused (m : M3) (h : isRotationMatrix m = false) : vectorFromRotationMatrix m = .ok (false, none) := by
  unfold vectorFromRotationMatrix
  rw [if_pos h]

/-- Non-vacuity: a quarter turn about z. -/
example : vectorFromRotationMatrix (matrixFromRotationVector ![0, 0, Real.pi / 2]) =
    .ok (true, some ![0, 0, Real.pi / 2]) := by
  have hp := Real.pi_gt_three
  have hn : norm3 ![0, 0, Real.pi / 2] = Real.pi / 2 := by
    unfold norm3
    simp
    rw [Real.sqrt_sq (by positivity)]
  exact (C89_round_trip _).1 (by rw [hn]; linarith) (by rw [hn]; linarith)

/-! ## C90: angular velocity and acceleration -/

/-- Let the rotation vector of a frame move along any differentiable curve. The frame then has exactly one angular
velocity `ω`; for a rotation vector of length at least `10⁻³` `omegaFromRotationVector` returns it, and below that length
it is off by at most `6·10⁻⁴` times the speed of the rotation vector. -/
theorem C90_angular_velocity (r : ℝ → V3) (v : V3) (t : ℝ) (hr : HasDerivAt r v t) :
    ∃ ω : V3, AngularVelocity (fun s => matrixFromRotationVector (r s)) ω t ∧
      (∀ ω', AngularVelocity (fun s => matrixFromRotationVector (r s)) ω' t → ω' = ω) ∧
      (1 / 1000 ≤ norm3 (r t) → omegaFromRotationVector (r t) v = ω) ∧
      norm3 (omegaFromRotationVector (r t) v - ω) ≤ 6 / 10000 * norm3 v := by
  have hex := exact_angular_velocity hr
  refine ⟨exactOmega (r t) v, hex, fun ω' h' => angularVelocity_unique (matrix_rotation _) h' hex, ?_, ?_⟩
  · intro h
    rw [omega_eq, if_neg (not_lt.2 h)]
  · rw [omega_eq]
    split_ifs with h
    · exact exactOmega_error _ _ h
    · rw [sub_self, norm3_zero]
      exact mul_nonneg (by norm_num) (norm3_nonneg v)

/-- `omegaDotFromRotationVector` is the time derivative of what `omegaFromRotationVector` returns along any twice
differentiable curve of rotation vectors, except at the length `10⁻³` where the latter jumps. -/
theorem C90_angular_acceleration (r v : ℝ → V3) (a : V3) (t : ℝ) (hr : HasDerivAt r (v t) t) (hv : HasDerivAt v a t)
    (h : norm3 (r t) ≠ 1 / 1000) :
    HasDerivAt (fun s => omegaFromRotationVector (r s) (v s)) (omegaDotFromRotationVector (r t) (v t) a) t :=
  omega_hasDerivAt hr hv h

/-- Non-vacuity: for a constant spin about z the angular velocity is the spin, and the angular acceleration is zero. -/
example : omegaFromRotationVector ![0, 0, 1] ![0, 0, 5] = ![0, 0, 5] ∧
    omegaDotFromRotationVector ![0, 0, 1] ![0, 0, 5] 0 = 0 := by
  have hn : norm3 ![0, 0, 1] = 1 := by unfold norm3; simp
  constructor
  · rw [omega_eq, if_neg (by rw [hn]; norm_num)]
    unfold exactOmega
    rw [hn]
    apply vec_ext <;> simp only [Pi.add_apply, Pi.smul_apply, smul_eq_mul, cross_0, cross_1, cross_2] <;>
      simp
  · rw [omegaDot_eq, if_neg (by rw [hn]; norm_num), hn]
    apply vec_ext <;> simp [cross_0, cross_1, cross_2]

/-- Non-vacuity: a curve of rotation vectors that meets the hypotheses, turning about a moving axis. -/
example : ∃ (r v : ℝ → V3) (a : V3), HasDerivAt r (v 0) 0 ∧ HasDerivAt v a 0 ∧ norm3 (r 0) ≠ 1 / 1000 ∧
    omegaFromRotationVector (r 0) (v 0) ≠ v 0 := by
  refine ⟨fun s => ![1, s, 0], fun _ => ![0, 1, 0], 0, ?_, hasDerivAt_const _ _, ?_, ?_⟩
  · rw [hasDerivAt_pi]
    intro i
    fin_cases i
    · exact hasDerivAt_const _ _
    · exact hasDerivAt_id _
    · exact hasDerivAt_const _ _
  · have : norm3 ![1, 0, 0] = 1 := by unfold norm3; simp
    rw [this]; norm_num
  · have hn : norm3 ![1, 0, 0] = 1 := by unfold norm3; simp
    rw [omega_eq, if_neg (by rw [hn]; norm_num)]
    intro h
    have h2 := congrFun h 2
    unfold exactOmega at h2
    rw [hn] at h2
    simp only [Pi.add_apply, Pi.smul_apply, smul_eq_mul, cross_1, cross_2] at h2
    simp at h2
    have := Real.cos_one_le
    linarith

/-! ## C91: rigid transforms of trajectory points -/

theorem apply_orientation (a : Affine) (ha : Rigid a) (p : TrajectoryPoint) (hp : IsUnitQuat p.orientation) :
    IsUnitQuat (a.apply p).orientation ∧
      quatToMatrix (a.apply p).orientation = a.linear * quatToMatrix p.orientation := by
  have := quatOfMatrix_spec (rotation_mul ha.1 (quatToMatrix_rotation hp))
  unfold Affine.apply
  simp only [ha.2]
  exact this

/-- What a rigid transform does to a point: the position is moved, all other vectors are turned, the orientation is
turned (and stays a unit quaternion), and the time stamps and the kind of actuation stay. -/
theorem C91_transform (a : Affine) (ha : Rigid a) (p : TrajectoryPoint) (hp : IsUnitQuat p.orientation) :
    (a.apply p).position = a.linear *ᵥ p.position + a.translation ∧
    (a.apply p).velocity = a.linear *ᵥ p.velocity ∧ (a.apply p).acceleration = a.linear *ᵥ p.acceleration ∧
    (a.apply p).jerk = a.linear *ᵥ p.jerk ∧ (a.apply p).snap = a.linear *ᵥ p.snap ∧
    (a.apply p).angularVelocity = a.linear *ᵥ p.angularVelocity ∧
    (a.apply p).angularAcceleration = a.linear *ᵥ p.angularAcceleration ∧
    IsUnitQuat (a.apply p).orientation ∧
    (∀ v, quatRotate (a.apply p).orientation v = a.linear *ᵥ quatRotate p.orientation v) ∧
    (a.apply p).timestampNs = p.timestampNs ∧ (a.apply p).timeFromStartNs = p.timeFromStartNs ∧
    (a.apply p).dof = p.dof := by
  have ho := apply_orientation a ha p hp
  refine ⟨rfl, ?_, ?_, ?_, ?_, ?_, ?_, ho.1, ?_, rfl, rfl, rfl⟩
  all_goals first
    | (unfold Affine.apply; simp only [ha.2]; done)
    | skip
  intro v
  rw [← quatToMatrix_mulVec, ho.2, ← quatToMatrix_mulVec, Matrix.mulVec_mulVec]

/-- Transforms compose, exactly, including the sign of the quaternion. -/
theorem C91_compose (a b : Affine) (ha : Rigid a) (hb : Rigid b) (p : TrajectoryPoint) (hp : IsUnitQuat p.orientation) :
    Rigid (a.compose b) ∧ (a.compose b).apply p = a.apply (b.apply p) := by
  have ho := apply_orientation b hb p hp
  refine ⟨⟨rotation_mul ha.1 hb.1, by unfold Affine.compose; simp only [ha.2, hb.2]⟩, ?_⟩
  have h1 : (a.compose b).apply p =
      { p with
        position := (a.linear * b.linear) *ᵥ p.position + (a.linear *ᵥ b.translation + a.translation)
        velocity := (a.rotation * b.rotation) *ᵥ p.velocity
        acceleration := (a.rotation * b.rotation) *ᵥ p.acceleration
        jerk := (a.rotation * b.rotation) *ᵥ p.jerk
        snap := (a.rotation * b.rotation) *ᵥ p.snap
        orientation := quatOfMatrix (a.rotation * b.rotation * quatToMatrix p.orientation)
        angularVelocity := (a.rotation * b.rotation) *ᵥ p.angularVelocity
        angularAcceleration := (a.rotation * b.rotation) *ᵥ p.angularAcceleration } := rfl
  have h2 : a.apply (b.apply p) =
      { p with
        position := a.linear *ᵥ (b.linear *ᵥ p.position + b.translation) + a.translation
        velocity := a.rotation *ᵥ (b.rotation *ᵥ p.velocity)
        acceleration := a.rotation *ᵥ (b.rotation *ᵥ p.acceleration)
        jerk := a.rotation *ᵥ (b.rotation *ᵥ p.jerk)
        snap := a.rotation *ᵥ (b.rotation *ᵥ p.snap)
        orientation := quatOfMatrix (a.rotation * quatToMatrix (b.apply p).orientation)
        angularVelocity := a.rotation *ᵥ (b.rotation *ᵥ p.angularVelocity)
        angularAcceleration := a.rotation *ᵥ (b.rotation *ᵥ p.angularAcceleration) } := rfl
  rw [h1, h2, ho.2]
  simp only [Matrix.mulVec_mulVec, Matrix.mulVec_add, ← hb.2, Matrix.mul_assoc, add_assoc]

/-- A transform followed by its inverse gives the point back; the quaternion may change its sign, which is the same
orientation. -/
theorem C91_undo (a : Affine) (ha : Rigid a) (p : TrajectoryPoint) (hp : IsUnitQuat p.orientation) :
    Rigid a.undo ∧ (a.undo.apply (a.apply p) = p ∨
      a.undo.apply (a.apply p) = { p with orientation := -p.orientation }) := by
  have hu : Rigid a.undo := by
    refine ⟨⟨?_, ?_⟩, by unfold Affine.undo; simp only [ha.2]⟩
    · unfold Affine.undo
      simp only [Matrix.transpose_transpose]
      exact mul_eq_one_comm.1 ha.1.1
    · unfold Affine.undo
      simp only [Matrix.det_transpose]
      exact ha.1.2
  have ho := apply_orientation a ha p hp
  have ho2 := apply_orientation a.undo hu (a.apply p) ho.1
  have hm : quatToMatrix (a.undo.apply (a.apply p)).orientation = quatToMatrix p.orientation := by
    rw [ho2.2, ho.2, ← Matrix.mul_assoc]
    unfold Affine.undo
    simp only [ha.1.1, Matrix.one_mul]
  have h2 : a.undo.apply (a.apply p) =
      { p with
        position := a.linearᵀ *ᵥ (a.linear *ᵥ p.position + a.translation) + -(a.linearᵀ *ᵥ a.translation)
        velocity := a.rotationᵀ *ᵥ (a.rotation *ᵥ p.velocity)
        acceleration := a.rotationᵀ *ᵥ (a.rotation *ᵥ p.acceleration)
        jerk := a.rotationᵀ *ᵥ (a.rotation *ᵥ p.jerk)
        snap := a.rotationᵀ *ᵥ (a.rotation *ᵥ p.snap)
        orientation := (a.undo.apply (a.apply p)).orientation
        angularVelocity := a.rotationᵀ *ᵥ (a.rotation *ᵥ p.angularVelocity)
        angularAcceleration := a.rotationᵀ *ᵥ (a.rotation *ᵥ p.angularAcceleration) } := rfl
  have h3 : a.undo.apply (a.apply p) = { p with orientation := (a.undo.apply (a.apply p)).orientation } := by
    rw [h2]
    simp only [ha.2, Matrix.mulVec_mulVec, Matrix.mulVec_add, ha.1.1, Matrix.one_mulVec, add_neg_cancel_right]
  refine ⟨hu, ?_⟩
  rcases unit_eq_or_neg ho2.1 hp hm with h | h
  · left
    rw [h3, h]
  · right
    rw [h3, h]

/-- A transform keeps distances, and a trajectory whose fields are derivatives of one another stays one. -/
theorem C91_trajectory (a : Affine) (ha : Rigid a) :
    (∀ p q : TrajectoryPoint, norm3 ((a.apply p).position - (a.apply q).position) = norm3 (p.position - q.position)) ∧
    ∀ (p : ℝ → TrajectoryPoint) (t : ℝ), Kinematic p t → Kinematic (fun s => a.apply (p s)) t := by
  refine ⟨?_, ?_⟩
  · intro p q
    have : (a.apply p).position - (a.apply q).position = a.linear *ᵥ (p.position - q.position) := by
      unfold Affine.apply
      simp only [Matrix.mulVec_sub]
      abel
    rw [this, rotation_norm ha.1]
  · intro p t h
    have hrot : a.rotation = a.linear := ha.2
    refine ⟨h.unit.mono fun s hs => (apply_orientation a ha _ hs).1, ?_, ?_, ?_, ?_, ?_, ?_⟩
    · have := (mulVec_hasDerivAt a.linear h.velocity).add_const a.translation
      unfold Affine.apply
      simp only [hrot]
      exact this
    · unfold Affine.apply; exact mulVec_hasDerivAt _ h.acceleration
    · unfold Affine.apply; exact mulVec_hasDerivAt _ h.jerk
    · unfold Affine.apply; exact mulVec_hasDerivAt _ h.snap
    · intro x
      have hx := mulVec_hasDerivAt a.linear (h.angularVelocity x)
      rw [rotation_cross ha.1] at hx
      have e : (fun s => quatToMatrix (a.apply (p s)).orientation *ᵥ x) =ᶠ[nhds t]
          fun s => a.linear *ᵥ (quatToMatrix (p s).orientation *ᵥ x) :=
        h.unit.mono fun s hs => by
          show quatToMatrix (a.apply (p s)).orientation *ᵥ x = a.linear *ᵥ (quatToMatrix (p s).orientation *ᵥ x)
          rw [(apply_orientation a ha _ hs).2, Matrix.mulVec_mulVec]
      refine HasDerivAt.congr_of_eventuallyEq ?_ e
      have et : quatToMatrix (a.apply (p t)).orientation *ᵥ x = a.linear *ᵥ (quatToMatrix (p t).orientation *ᵥ x) :=
        e.eq_of_nhds
      rw [et]
      have ew : (a.apply (p t)).angularVelocity = a.linear *ᵥ (p t).angularVelocity := by
        unfold Affine.apply; simp only [hrot]
      rw [ew]
      exact hx
    · unfold Affine.apply; exact mulVec_hasDerivAt _ h.angularAcceleration

/-- Non-vacuity: a quarter turn about z and a shift is a rigid motion. -/
example : Rigid ⟨rotZ (Real.pi / 2), ![1, 2, 3], rotZ (Real.pi / 2)⟩ ∧
    ((⟨rotZ (Real.pi / 2), ![1, 2, 3], rotZ (Real.pi / 2)⟩ : Affine).apply { position := ![1, 0, 0] }).position =
      ![1, 3, 3] := by
  refine ⟨⟨rotZ_rotation _, rfl⟩, ?_⟩
  unfold Affine.apply
  apply vec_ext <;> simp only [Pi.add_apply, mulVec3] <;> (simp [rotZ]; try norm_num)

/-! ## C92: odometry -/

/-- The world velocity that is set is read back, the speed in the body frame is the same, and nothing else changes;
setting the world velocity to what it is changes nothing. For unit orientations. -/
theorem C92_world_velocity (o : Odometry) (h : IsUnitQuat o.orientation) (v : V3) :
    (o.setVelocityWorld v).getVelocityWorld = v ∧ norm3 (o.setVelocityWorld v).velocityBody = norm3 v ∧
    o.setVelocityWorld o.getVelocityWorld = o ∧
    (o.setVelocityWorld v).position = o.position ∧ (o.setVelocityWorld v).orientation = o.orientation ∧
    (o.setVelocityWorld v).angularVelocityBody = o.angularVelocityBody ∧
    (o.setVelocityWorld v).timestampNs = o.timestampNs := by
  refine ⟨rotate_inverse h v, ?_, ?_, rfl, rfl, rfl, rfl⟩
  · have : norm3 (quatRotate (quatInverse o.orientation) v) = norm3 v := by
      have hr := rotate_inverse h v
      have hn := rotation_norm (quatToMatrix_rotation h) (quatRotate (quatInverse o.orientation) v)
      rw [quatToMatrix_mulVec, hr] at hn
      exact hn.symm
    exact this
  · have := inverse_rotate h o.velocityBody
    unfold Odometry.setVelocityWorld Odometry.getVelocityWorld
    rw [this]

/-- Non-vacuity: facing along y, driving along y is driving forwards. -/
example : (({ orientation := quaternionFromYaw (Real.pi / 2) } : Odometry).setVelocityWorld ![0, 2, 0]).velocityBody =
    ![2, 0, 0] := by
  have hu := yaw_unit (Real.pi / 2)
  have h : quatRotate (quaternionFromYaw (Real.pi / 2)) ![2, 0, 0] = ![0, 2, 0] := by
    rw [(C69_rotation _).2.2]
    apply vec_ext <;> rw [mulVec3] <;> simp [rotZ]
  have := inverse_rotate hu ![2, 0, 0]
  rw [h] at this
  exact this

/-! ## C93: time stamps -/

/-- Seconds are cut to whole nanoseconds towards zero (undefined behaviour when they do not fit into 64 bits); the
result is less than a nanosecond off, keeps the order, and whole nanoseconds survive the round trip. -/
theorem C93_nanoseconds :
    (∀ s n, secondsToNanoseconds s = .ok n → |nanosecondsToSeconds n| ≤ |s| ∧ |s - nanosecondsToSeconds n| < 1 / 1000000000) ∧
    (∀ s s' n n', s ≤ s' → secondsToNanoseconds s = .ok n → secondsToNanoseconds s' = .ok n' → n ≤ n') ∧
    (∀ s, |s| ≤ 9000000000 → ∃ n, secondsToNanoseconds s = .ok n) ∧
    (∀ n : ℤ, -2 ^ 63 ≤ n → n < 2 ^ 63 → secondsToNanoseconds (nanosecondsToSeconds n) = .ok n) ∧
    secondsToNanoseconds 9300000000 = .error .ub := by
  have hval (s : ℝ) (n : ℤ) (h : secondsToNanoseconds s = .ok n) : n = truncate (s * 1000000000) := by
    unfold secondsToNanoseconds toInt64 at h
    split_ifs at h
    exact (Except.ok.inj h).symm
  refine ⟨?_, ?_, ?_, ?_, ?_⟩
  · intro s n h
    obtain ⟨h1, h2, -⟩ := truncate_spec (s * 1000000000)
    rw [← hval s n h] at h1 h2
    unfold nanosecondsToSeconds
    constructor
    · rw [abs_div, abs_of_pos (by norm_num : (0 : ℝ) < 1000000000), div_le_iff₀ (by norm_num)]
      rwa [abs_mul, abs_of_pos (by norm_num : (0 : ℝ) < 1000000000)] at h1
    · rw [abs_lt] at h2 ⊢
      constructor
      · have := h2.1
        rw [neg_lt, neg_sub, sub_lt_iff_lt_add, div_lt_iff₀ (by norm_num)]
        linarith
      · have := h2.2
        rw [sub_lt_iff_lt_add, ← sub_lt_iff_lt_add', lt_div_iff₀ (by norm_num)]
        linarith
  · intro s s' n n' hs h h'
    rw [hval s n h, hval s' n' h']
    exact truncate_mono (by linarith)
  · intro s hs
    refine ⟨truncate (s * 1000000000), ?_⟩
    unfold secondsToNanoseconds toInt64
    rw [if_pos]
    obtain ⟨h1, -, -⟩ := truncate_spec (s * 1000000000)
    rw [abs_mul, abs_of_pos (by norm_num : (0 : ℝ) < 1000000000)] at h1
    have h2 : |(truncate (s * 1000000000) : ℝ)| ≤ 9000000000000000000 := by linarith
    have h3 := abs_le.1 h2
    constructor
    · have : (-(2 : ℝ) ^ 63) ≤ truncate (s * 1000000000) := by norm_num; linarith
      exact_mod_cast this
    · have : (truncate (s * 1000000000) : ℝ) < (2 : ℝ) ^ 63 := by norm_num; linarith
      exact_mod_cast this
  · intro n h1 h2
    unfold secondsToNanoseconds toInt64 nanosecondsToSeconds
    rw [div_mul_cancel₀ _ (by norm_num), truncate_int, if_pos ⟨h1, h2⟩]
  · unfold secondsToNanoseconds toInt64
    have : (9300000000 : ℝ) * 1000000000 = ((9300000000000000000 : ℤ) : ℝ) := by norm_num
    rw [this, truncate_int, if_neg]
    norm_num

/-- Non-vacuity: one and a half nanoseconds are cut to one, also below zero. -/
example : secondsToNanoseconds (3 / 2000000000) = .ok 1 ∧ secondsToNanoseconds (-(3 / 2000000000)) = .ok (-1) := by
  have h1 : truncate (3 / 2000000000 * 1000000000) = 1 := by
    unfold truncate
    rw [if_pos (by norm_num)]
    rw [Int.floor_eq_iff]; norm_num
  have h2 : truncate (-(3 / 2000000000) * 1000000000) = -1 := by
    unfold truncate
    rw [if_neg (by norm_num)]
    rw [Int.ceil_eq_iff]; norm_num
  unfold secondsToNanoseconds toInt64
  rw [h1, h2]
  constructor <;> rw [if_pos (by norm_num)]

/-! ## C94: rotor speeds and gravity -/

/-- If the matrix handed over is a right inverse of the allocation matrix, the squared rotor speeds returned produce
exactly the torque `J α + ω × J ω` (Euler's equation) and the thrust `m ‖a‖`. -/
theorem C94_rotor_speeds {n : ℕ} (alloc : Matrix (Fin 4) (Fin n) ℝ) (allocInv : Matrix (Fin n) (Fin 4) ℝ)
    (hinv : alloc * allocInv = 1) (inertia : V3) (mass : ℝ) (angVel angAcc acc : V3) :
    let torque : V3 := Matrix.diagonal inertia *ᵥ angAcc + angVel ⨯₃ (Matrix.diagonal inertia *ᵥ angVel)
    alloc *ᵥ getSquaredRotorSpeeds allocInv inertia mass angVel angAcc acc =
      ![torque 0, torque 1, torque 2, mass * norm3 acc] := by
  intro torque
  have hd (v : V3) : Matrix.diagonal inertia *ᵥ v = fun i => inertia i * v i := by
    funext i; rw [Matrix.mulVec_diagonal]
  unfold getSquaredRotorSpeeds
  rw [Matrix.mulVec_mulVec, hinv, Matrix.one_mulVec]
  simp only [torque, hd]

/-- Non-vacuity: a quadrotor in the plus configuration with unit arm length and unit drag ratio; in hover with thrust 4
every rotor gives a quarter. -/
example : let alloc : Matrix (Fin 4) (Fin 4) ℝ := !![0, 1, 0, -1; -1, 0, 1, 0; 1, -1, 1, -1; 1, 1, 1, 1]
    let allocInv : Matrix (Fin 4) (Fin 4) ℝ :=
      !![0, -1/2, 1/4, 1/4; 1/2, 0, -1/4, 1/4; 0, 1/2, 1/4, 1/4; -1/2, 0, -1/4, 1/4]
    alloc * allocInv = 1 ∧ getSquaredRotorSpeeds allocInv ![1, 1, 1] 2 0 0 ![0, 0, 2] = ![1, 1, 1, 1] := by
  intro alloc allocInv
  constructor
  · ext i j
    fin_cases i <;> fin_cases j <;> simp [alloc, allocInv, Matrix.mul_apply, Fin.sum_univ_four] <;> norm_num
  · have hn : norm3 ![0, 0, 2] = 2 := by
      unfold norm3
      simp
    unfold getSquaredRotorSpeeds
    rw [hn]
    funext i
    fin_cases i <;> simp [allocInv] <;> norm_num

/-- Gravity decreases with height, is the same on both hemispheres, and at sea level is between the values at the
equator and at the poles, both of which are attained. -/
theorem C94_gravity (h h' lat : ℝ) :
    (h < h' → magnitudeOfGravity h' lat < magnitudeOfGravity h lat) ∧
    magnitudeOfGravity h (-lat) = magnitudeOfGravity h lat ∧
    magnitudeOfGravity 0 0 ≤ magnitudeOfGravity 0 lat ∧
    magnitudeOfGravity 0 lat ≤ magnitudeOfGravity 0 (Real.pi / 2) ∧ magnitudeOfGravity 0 0 = 9780327 / 1000000 := by
  have hs0 := sq_nonneg (Real.sin lat)
  have hs1 := Real.sin_sq_add_cos_sq lat
  have hc0 := sq_nonneg (Real.cos lat)
  have h2 : Real.sin (2 * lat) = 2 * Real.sin lat * Real.cos lat := Real.sin_two_mul lat
  unfold magnitudeOfGravity
  refine ⟨?_, ?_, ?_, ?_, ?_⟩
  · intro hh; linarith
  · rw [mul_neg, Real.sin_neg, Real.sin_neg]; ring
  · rw [h2, mul_zero, Real.sin_zero]
    nlinarith [mul_nonneg hs0 hc0]
  · rw [h2, show 2 * (Real.pi / 2) = Real.pi by ring, Real.sin_pi, Real.sin_pi_div_two]
    nlinarith [mul_nonneg hs0 hc0]
  · simp

end Verif.Properties
