import Mathlib.Analysis.SpecialFunctions.Trigonometric.Sinc
import Mathlib.Analysis.SpecialFunctions.Trigonometric.Deriv
import Mathlib.Analysis.SpecialFunctions.Sqrt
import Mathlib.Analysis.Calculus.Deriv.Slope
import Mathlib.Analysis.Calculus.Deriv.Prod
import Verif.Lemmas.MavMsgsVec

/-! # Lemmas about angular velocity and acceleration -/

namespace Verif.Mav

open Matrix

theorem skew_sq_mulVec (r x : V3) : (skewMatrixFromVector r * skewMatrixFromVector r) *ᵥ x = r ⨯₃ (r ⨯₃ x) := by
  rw [← Matrix.mulVec_mulVec, skew_mulVec, skew_mulVec]

theorem skew_mul_mulVec (p r x : V3) : (skewMatrixFromVector p * skewMatrixFromVector r) *ᵥ x = p ⨯₃ (r ⨯₃ x) := by
  rw [← Matrix.mulVec_mulVec, skew_mulVec, skew_mulVec]

/-- `matrixFromRotationVector` as a formula in the vector itself. (For the zero vector both sides are the identity.) -/
theorem matrix_mulVec (r x : V3) : matrixFromRotationVector r *ᵥ x =
    x + (Real.sin (norm3 r) / norm3 r) • (r ⨯₃ x) + ((1 - Real.cos (norm3 r)) / norm3 r ^ 2) • (r ⨯₃ (r ⨯₃ x)) := by
  rcases eq_or_ne r 0 with rfl | h
  · rw [matrix_zero]; simp
  · have hp := norm3_pos h
    have hs : skewMatrixFromVector (axis r) = (1 / norm3 r) • skewMatrixFromVector r := by
      rw [skew_smul]
      congr 1
      funext i
      simp only [axis, Pi.smul_apply, smul_eq_mul]
      ring
    rw [matrix_eq_rod r h]
    unfold rod
    rw [hs, Matrix.smul_mul, Matrix.mul_smul, smul_smul, smul_smul, smul_smul, Matrix.add_mulVec, Matrix.add_mulVec,
      Matrix.one_mulVec, Matrix.smul_mulVec, Matrix.smul_mulVec, skew_mulVec, skew_sq_mulVec]
    have e1 : Real.sin (norm3 r) * (1 / norm3 r) = Real.sin (norm3 r) / norm3 r := by ring
    have e2 : (1 - Real.cos (norm3 r)) * (1 / norm3 r) * (1 / norm3 r) = (1 - Real.cos (norm3 r)) / norm3 r ^ 2 := by
      field_simp
    rw [e1, e2]

/-- The exact angular velocity of the frame given by the rotation vector `r` moving with velocity `v`. -/
noncomputable def exactOmega (r v : V3) : V3 :=
  v + ((1 - Real.cos (norm3 r)) / norm3 r ^ 2) • (r ⨯₃ v) +
    ((norm3 r - Real.sin (norm3 r)) / norm3 r ^ 3) • (r ⨯₃ (r ⨯₃ v))

theorem omega_eq (r v : V3) : omegaFromRotationVector r v = if norm3 r < 1 / 1000 then v else exactOmega r v := by
  unfold omegaFromRotationVector
  by_cases h : norm3 r < 1 / 1000
  · rw [if_pos h, if_pos h]
  · rw [if_neg h, if_neg h]
    simp only
    unfold exactOmega
    rw [Matrix.add_mulVec, Matrix.add_mulVec, Matrix.one_mulVec, Matrix.smul_mulVec, Matrix.smul_mulVec, skew_mulVec,
      skew_sq_mulVec]
    congr 2
    · congr 1; field_simp
    · congr 1; field_simp

theorem norm3_hasDerivAt {r : ℝ → V3} {v : V3} {t : ℝ} (hr : HasDerivAt r v t) (h : r t ≠ 0) :
    HasDerivAt (fun s => norm3 (r s)) ((r t ⬝ᵥ v) / norm3 (r t)) t := by
  have h0 := (hasDerivAt_pi.1 hr) 0
  have h1 := (hasDerivAt_pi.1 hr) 1
  have h2 := (hasDerivAt_pi.1 hr) 2
  have hp := norm3_pos h
  have hs : HasDerivAt (fun s => r s 0 ^ 2 + r s 1 ^ 2 + r s 2 ^ 2) (2 * r t 0 * v 0 + 2 * r t 1 * v 1 + 2 * r t 2 * v 2)
      t := by
    refine (((h0.pow 2).add (h1.pow 2)).add (h2.pow 2)).congr_deriv ?_
    push_cast
    ring
  have hne : r t 0 ^ 2 + r t 1 ^ 2 + r t 2 ^ 2 ≠ 0 := by
    rw [← norm3_sq]; positivity
  have hq := HasDerivAt.sqrt hs hne
  have hd : r t ⬝ᵥ v = r t 0 * v 0 + r t 1 * v 1 + r t 2 * v 2 := by simp [dotProduct, Fin.sum_univ_three]
  rw [hd]
  refine hq.congr_deriv ?_
  unfold norm3
  field_simp

/-- The three components of a cross product. -/
theorem cross_0 (v w : V3) : (v ⨯₃ w) 0 = v 1 * w 2 - v 2 * w 1 := by rw [cross3]; rfl
theorem cross_1 (v w : V3) : (v ⨯₃ w) 1 = v 2 * w 0 - v 0 * w 2 := by rw [cross3]; rfl
theorem cross_2 (v w : V3) : (v ⨯₃ w) 2 = v 0 * w 1 - v 1 * w 0 := by rw [cross3]; rfl

theorem cross_hasDerivAt {p q : ℝ → V3} {p' q' : V3} {t : ℝ} (hp : HasDerivAt p p' t) (hq : HasDerivAt q q' t) :
    HasDerivAt (fun s => p s ⨯₃ q s) (p' ⨯₃ q t + p t ⨯₃ q') t := by
  have p0 := (hasDerivAt_pi.1 hp) 0
  have p1 := (hasDerivAt_pi.1 hp) 1
  have p2 := (hasDerivAt_pi.1 hp) 2
  have q0 := (hasDerivAt_pi.1 hq) 0
  have q1 := (hasDerivAt_pi.1 hq) 1
  have q2 := (hasDerivAt_pi.1 hq) 2
  rw [hasDerivAt_pi]
  have c0 : HasDerivAt (fun s => (p s ⨯₃ q s) 0) ((p' ⨯₃ q t + p t ⨯₃ q') 0) t := by
    simp only [Pi.add_apply, cross_0]
    exact ((p1.mul q2).sub (p2.mul q1)).congr_deriv (by ring)
  have c1 : HasDerivAt (fun s => (p s ⨯₃ q s) 1) ((p' ⨯₃ q t + p t ⨯₃ q') 1) t := by
    simp only [Pi.add_apply, cross_1]
    exact ((p2.mul q0).sub (p0.mul q2)).congr_deriv (by ring)
  have c2 : HasDerivAt (fun s => (p s ⨯₃ q s) 2) ((p' ⨯₃ q t + p t ⨯₃ q') 2) t := by
    simp only [Pi.add_apply, cross_2]
    exact ((p0.mul q1).sub (p1.mul q0)).congr_deriv (by ring)
  intro i
  fin_cases i
  exacts [c0, c1, c2]

/-- The algebra behind `Ṙ = [ω] R`. -/
theorem omega_algebra (r v x : V3) {A B b dA dB n σ : ℝ} (hn : n = r 0 ^ 2 + r 1 ^ 2 + r 2 ^ 2)
    (hσ : σ = r 0 * v 0 + r 1 * v 1 + r 2 * v 2) (h1 : 1 - b * n = A) (h2 : A ^ 2 + n * B ^ 2 = 2 * B)
    (hA : dA = σ * (b - A * B - n * B * b)) (hB : dB = σ * (A * b - B ^ 2)) :
    dA • (r ⨯₃ x) + A • (v ⨯₃ x) + (dB • (r ⨯₃ (r ⨯₃ x)) + B • (v ⨯₃ (r ⨯₃ x) + r ⨯₃ (v ⨯₃ x))) =
      (v + B • (r ⨯₃ v) + b • (r ⨯₃ (r ⨯₃ v))) ⨯₃ (x + A • (r ⨯₃ x) + B • (r ⨯₃ (r ⨯₃ x))) := by
  subst hn hσ
  apply vec_ext
  · simp only [Pi.add_apply, Pi.smul_apply, smul_eq_mul, cross_0, cross_1, cross_2]
    linear_combination (r 1 * x 2 - r 2 * x 1) * hA + (r 1 * (r 0 * x 1 - r 1 * x 0) - r 2 * (r 2 * x 0 - r 0 * x 2)) * hB -
      (v 1 * (x 2 + A * (r 0 * x 1 - r 1 * x 0) + B * (r 0 * (r 2 * x 0 - r 0 * x 2) - r 1 * (r 1 * x 2 - r 2 * x 1))) - v 2 * (x 1 + A * (r 2 * x 0 - r 0 * x 2) + B * (r 2 * (r 1 * x 2 - r 2 * x 1) - r 0 * (r 0 * x 1 - r 1 * x 0)))) * h1 -
      (v 1 * (r 0 * x 1 - r 1 * x 0) - v 2 * (r 2 * x 0 - r 0 * x 2)) * h2
  · simp only [Pi.add_apply, Pi.smul_apply, smul_eq_mul, cross_0, cross_1, cross_2]
    linear_combination (r 2 * x 0 - r 0 * x 2) * hA + (r 2 * (r 1 * x 2 - r 2 * x 1) - r 0 * (r 0 * x 1 - r 1 * x 0)) * hB -
      (v 2 * (x 0 + A * (r 1 * x 2 - r 2 * x 1) + B * (r 1 * (r 0 * x 1 - r 1 * x 0) - r 2 * (r 2 * x 0 - r 0 * x 2))) - v 0 * (x 2 + A * (r 0 * x 1 - r 1 * x 0) + B * (r 0 * (r 2 * x 0 - r 0 * x 2) - r 1 * (r 1 * x 2 - r 2 * x 1)))) * h1 -
      (v 2 * (r 1 * x 2 - r 2 * x 1) - v 0 * (r 0 * x 1 - r 1 * x 0)) * h2
  · simp only [Pi.add_apply, Pi.smul_apply, smul_eq_mul, cross_0, cross_1, cross_2]
    linear_combination (r 0 * x 1 - r 1 * x 0) * hA + (r 0 * (r 2 * x 0 - r 0 * x 2) - r 1 * (r 1 * x 2 - r 2 * x 1)) * hB -
      (v 0 * (x 1 + A * (r 2 * x 0 - r 0 * x 2) + B * (r 2 * (r 1 * x 2 - r 2 * x 1) - r 0 * (r 0 * x 1 - r 1 * x 0))) - v 1 * (x 0 + A * (r 1 * x 2 - r 2 * x 1) + B * (r 1 * (r 0 * x 1 - r 1 * x 0) - r 2 * (r 2 * x 0 - r 0 * x 2)))) * h1 -
      (v 0 * (r 2 * x 0 - r 0 * x 2) - v 1 * (r 1 * x 2 - r 2 * x 1)) * h2

theorem dot3 (r v : V3) : r ⬝ᵥ v = r 0 * v 0 + r 1 * v 1 + r 2 * v 2 := by simp [dotProduct, Fin.sum_univ_three]

/-- The derivatives of the coefficients of the rotation matrix and of the angular velocity. -/
theorem coefficient_derivatives {r : ℝ → V3} {v : V3} {t : ℝ} (hr : HasDerivAt r v t) (h : r t ≠ 0) :
    HasDerivAt (fun s => Real.sin (norm3 (r s)) / norm3 (r s))
      ((r t ⬝ᵥ v) * (norm3 (r t) * Real.cos (norm3 (r t)) - Real.sin (norm3 (r t))) / norm3 (r t) ^ 3) t ∧
    HasDerivAt (fun s => (1 - Real.cos (norm3 (r s))) / norm3 (r s) ^ 2)
      ((r t ⬝ᵥ v) * (norm3 (r t) * Real.sin (norm3 (r t)) - 2 + 2 * Real.cos (norm3 (r t))) / norm3 (r t) ^ 4) t ∧
    HasDerivAt (fun s => (norm3 (r s) - Real.sin (norm3 (r s))) / norm3 (r s) ^ 3)
      ((r t ⬝ᵥ v) * (-2 * norm3 (r t) - norm3 (r t) * Real.cos (norm3 (r t)) + 3 * Real.sin (norm3 (r t))) /
        norm3 (r t) ^ 5) t := by
  have hp := norm3_pos h
  have hphi := norm3_hasDerivAt hr h
  refine ⟨?_, ?_, ?_⟩
  · refine ((hphi.sin).div hphi hp.ne').congr_deriv ?_
    field_simp
  · refine (((hasDerivAt_const t (1 : ℝ)).sub hphi.cos).div (hphi.pow 2) (pow_ne_zero 2 hp.ne')).congr_deriv ?_
    simp only [Pi.sub_apply, Pi.pow_apply]
    push_cast
    field_simp
    ring
  · refine ((hphi.sub hphi.sin).div (hphi.pow 3) (pow_ne_zero 3 hp.ne')).congr_deriv ?_
    simp only [Pi.sub_apply, Pi.pow_apply]
    push_cast
    field_simp
    ring

/-- The frame of a moving rotation vector turns with the exact angular velocity, away from the zero vector. -/
theorem exact_ne_zero {r : ℝ → V3} {v : V3} {t : ℝ} (hr : HasDerivAt r v t) (h : r t ≠ 0) :
    AngularVelocity (fun s => matrixFromRotationVector (r s)) (exactOmega (r t) v) t := by
  intro x
  have hp := norm3_pos h
  obtain ⟨hA, hB, -⟩ := coefficient_derivatives hr h
  have hx : HasDerivAt (fun _ : ℝ => x) 0 t := hasDerivAt_const t x
  have hc1 : HasDerivAt (fun s => r s ⨯₃ x) (v ⨯₃ x) t := by
    have := cross_hasDerivAt hr hx
    simpa using this
  have hc2 : HasDerivAt (fun s => r s ⨯₃ (r s ⨯₃ x)) (v ⨯₃ (r t ⨯₃ x) + r t ⨯₃ (v ⨯₃ x)) t := cross_hasDerivAt hr hc1
  have hall := (hx.add (hA.smul hc1)).add (hB.smul hc2)
  simp only [matrix_mulVec]
  unfold exactOmega
  refine (hall.congr_deriv ?_)
  rw [zero_add]
  have e2 := norm3_sq (r t)
  have es := Real.sin_sq_add_cos_sq (norm3 (r t))
  rw [← omega_algebra (r t) v x (A := Real.sin (norm3 (r t)) / norm3 (r t))
    (B := (1 - Real.cos (norm3 (r t))) / norm3 (r t) ^ 2)
    (b := (norm3 (r t) - Real.sin (norm3 (r t))) / norm3 (r t) ^ 3)
    (n := norm3 (r t) ^ 2) (σ := r t ⬝ᵥ v) e2 (dot3 _ _) _ _ rfl rfl]
  · congr 1
    · rw [add_comm]
      congr 2
      field_simp
      ring
    · rw [add_comm]
      congr 2
      field_simp
      linear_combination (r t ⬝ᵥ v) * es
  · field_simp; ring
  · field_simp; linear_combination es

/-- A product with a factor that vanishes at the point only needs the other factor to be continuous. -/
theorem mul_vanishing {f : ℝ → ℝ} {g : ℝ → V3} {g' : V3} {t : ℝ} (hf : ContinuousAt f t) (hg : HasDerivAt g g' t)
    (h0 : g t = 0) : HasDerivAt (fun s => f s • g s) (f t • g') t := by
  rw [hasDerivAt_iff_tendsto_slope] at hg ⊢
  have : slope (fun s => f s • g s) t = fun s => f s • slope g t s := by
    funext s
    simp only [slope, vsub_eq_sub, h0, smul_zero, sub_zero]
    rw [smul_comm]
  rw [this]
  exact (hf.tendsto.mono_left nhdsWithin_le_nhds).smul hg

/-- The rotation matrix with coefficients that are continuous at zero. -/
theorem matrix_mulVec_sinc (r x : V3) : matrixFromRotationVector r *ᵥ x =
    x + Real.sinc (norm3 r) • (r ⨯₃ x) + (Real.sinc (norm3 r / 2) ^ 2 / 2) • (r ⨯₃ (r ⨯₃ x)) := by
  rcases eq_or_ne r 0 with rfl | h
  · rw [matrix_zero]; simp
  · have hp := norm3_pos h
    rw [matrix_mulVec, Real.sinc_of_ne_zero hp.ne', Real.sinc_of_ne_zero (by positivity), half_cos (norm3 r)]
    congr 2
    field_simp
    ring

theorem norm3_continuousAt {r : ℝ → V3} {t : ℝ} (hr : ContinuousAt r t) : ContinuousAt (fun s => norm3 (r s)) t := by
  unfold norm3
  have h (i : Fin 3) : ContinuousAt (fun s => r s i) t := (continuousAt_pi.1 hr) i
  exact Real.continuous_sqrt.continuousAt.comp ((((h 0).pow 2).add ((h 1).pow 2)).add ((h 2).pow 2))

theorem exact_zero {r : ℝ → V3} {v : V3} {t : ℝ} (hr : HasDerivAt r v t) (h : r t = 0) :
    AngularVelocity (fun s => matrixFromRotationVector (r s)) v t := by
  intro x
  have hx : HasDerivAt (fun _ : ℝ => x) 0 t := hasDerivAt_const t x
  have hc1 : HasDerivAt (fun s => r s ⨯₃ x) (v ⨯₃ x) t := by
    have := cross_hasDerivAt hr hx
    simpa using this
  have hc2 : HasDerivAt (fun s => r s ⨯₃ (r s ⨯₃ x)) (v ⨯₃ (r t ⨯₃ x) + r t ⨯₃ (v ⨯₃ x)) t := cross_hasDerivAt hr hc1
  have hn := norm3_continuousAt hr.continuousAt
  have hA : ContinuousAt (fun s => Real.sinc (norm3 (r s))) t := Real.continuous_sinc.continuousAt.comp hn
  have hB : ContinuousAt (fun s => Real.sinc (norm3 (r s) / 2) ^ 2 / 2) t :=
    ((Real.continuous_sinc.continuousAt.comp (hn.div_const 2)).pow 2).div_const 2
  have hall := (hx.add (mul_vanishing hA hc1 (by rw [h]; simp))).add (mul_vanishing hB hc2 (by rw [h]; simp))
  simp only [matrix_mulVec_sinc]
  refine hall.congr_deriv ?_
  rw [h]
  simp [norm3_zero]

theorem exact_angular_velocity {r : ℝ → V3} {v : V3} {t : ℝ} (hr : HasDerivAt r v t) :
    AngularVelocity (fun s => matrixFromRotationVector (r s)) (exactOmega (r t) v) t := by
  by_cases h : r t = 0
  · have : exactOmega (r t) v = v := by unfold exactOmega; rw [h]; simp
    rw [this]
    exact exact_zero hr h
  · exact exact_ne_zero hr h

/-- A frame has only one angular velocity. -/
theorem angularVelocity_unique {R : ℝ → M3} {ω ω' : V3} {t : ℝ} (hR : IsRotation (R t)) (h : AngularVelocity R ω t)
    (h' : AngularVelocity R ω' t) : ω = ω' := by
  have key (y : V3) : ω ⨯₃ y = ω' ⨯₃ y := by
    have h2 : R t * (R t)ᵀ = 1 := mul_eq_one_comm.1 hR.1
    have := (h ((R t)ᵀ *ᵥ y)).unique (h' ((R t)ᵀ *ᵥ y))
    rwa [Matrix.mulVec_mulVec, h2, Matrix.one_mulVec] at this
  have k0 := key ![1, 0, 0]
  have k1 := key ![0, 1, 0]
  have a1 := congrFun k0 1
  have a2 := congrFun k0 2
  have a0 := congrFun k1 2
  simp only [cross_1, cross_2, Matrix.cons_val] at a0 a1 a2
  apply vec_ext <;> linarith

/-- How far the rotation vector's velocity is from the angular velocity. -/
theorem exactOmega_error (r v : V3) (h : norm3 r < 1 / 1000) :
    norm3 (v - exactOmega r v) ≤ 6 / 10000 * norm3 v := by
  rcases eq_or_ne r 0 with rfl | h0
  · have : v - exactOmega 0 v = 0 := by unfold exactOmega; simp
    rw [this, norm3_zero]
    exact mul_nonneg (by norm_num) (norm3_nonneg v)
  have hp := norm3_pos h0
  have hv := norm3_nonneg v
  have hb0 : 0 ≤ (norm3 r - Real.sin (norm3 r)) / norm3 r ^ 3 := by
    have := Real.sin_le hp.le
    exact div_nonneg (by linarith) (by positivity)
  have hb1 : (norm3 r - Real.sin (norm3 r)) / norm3 r ^ 3 ≤ 1 / 6 := by
    have := Real.sin_gt_sub_cube hp
    rw [div_le_iff₀ (by positivity)]
    linarith
  have hB0 : 0 ≤ (1 - Real.cos (norm3 r)) / norm3 r ^ 2 := by
    have := Real.cos_le_one (norm3 r)
    exact div_nonneg (by linarith) (by positivity)
  have hB1 : (1 - Real.cos (norm3 r)) / norm3 r ^ 2 ≤ 1 / 2 := by
    have := Real.one_sub_sq_div_two_le_cos (x := norm3 r)
    rw [div_le_iff₀ (by positivity)]
    linarith
  have hr2 := norm3_sq r
  have hv2 := norm3_sq v
  unfold exactOmega
  generalize (1 - Real.cos (norm3 r)) / norm3 r ^ 2 = B at hB0 hB1 ⊢
  generalize (norm3 r - Real.sin (norm3 r)) / norm3 r ^ 3 = b at hb0 hb1 ⊢
  apply abs_le_of_sq_le_sq' _ (by positivity) |>.2
  rw [norm3_sq]
  simp only [Pi.sub_apply, Pi.add_apply, Pi.smul_apply, smul_eq_mul, cross_0, cross_1, cross_2]
  generalize norm3 r = n at *
  generalize norm3 v = w at *
  have hc : (r 1 * v 2 - r 2 * v 1) ^ 2 + (r 2 * v 0 - r 0 * v 2) ^ 2 + (r 0 * v 1 - r 1 * v 0) ^ 2 ≤ n ^ 2 * w ^ 2 := by
    rw [hr2, hv2]
    nlinarith [sq_nonneg (r 0 * v 0 + r 1 * v 1 + r 2 * v 2)]
  have hcoef : (B ^ 2 + b ^ 2 * n ^ 2) ≤ 36 / 100 := by
    have h1 : B ^ 2 ≤ 1 / 4 := by nlinarith
    have h2 : b ^ 2 ≤ 1 / 36 := by nlinarith
    have h3 : n ^ 2 ≤ 1 := by nlinarith
    nlinarith [mul_le_mul h2 h3 (sq_nonneg n) (by norm_num)]
  have hcoef0 : 0 ≤ B ^ 2 + b ^ 2 * n ^ 2 := by positivity
  have hn2 : n ^ 2 ≤ 1 / 1000000 := by nlinarith
  calc _ = (B ^ 2 + b ^ 2 * n ^ 2) *
      ((r 1 * v 2 - r 2 * v 1) ^ 2 + (r 2 * v 0 - r 0 * v 2) ^ 2 + (r 0 * v 1 - r 1 * v 0) ^ 2) := by rw [hr2]; ring
    _ ≤ (B ^ 2 + b ^ 2 * n ^ 2) * (n ^ 2 * w ^ 2) := mul_le_mul_of_nonneg_left hc hcoef0
    _ ≤ 36 / 100 * (1 / 1000000 * w ^ 2) :=
      mul_le_mul hcoef (mul_le_mul_of_nonneg_right hn2 (sq_nonneg w)) (by positivity) (by norm_num)
    _ = (6 / 10000 * w) ^ 2 := by ring

theorem omegaDot_eq (r v a : V3) : omegaDotFromRotationVector r v a = if norm3 r < 1 / 1000 then a else
    ((norm3 r * Real.sin (norm3 r) - 2 + 2 * Real.cos (norm3 r)) * ((r ⬝ᵥ v) / norm3 r) *
        (1 / norm3 r / norm3 r / norm3 r)) • (r ⨯₃ v) +
      ((-2 * norm3 r - norm3 r * Real.cos (norm3 r) + 3 * Real.sin (norm3 r)) * ((r ⬝ᵥ v) / norm3 r) *
        (1 / norm3 r / norm3 r / norm3 r / norm3 r)) • (r ⨯₃ (r ⨯₃ v)) +
      ((norm3 r - Real.sin (norm3 r)) * (1 / norm3 r / norm3 r / norm3 r)) • (v ⨯₃ (r ⨯₃ v)) +
    (a + ((1 - Real.cos (norm3 r)) * (1 / norm3 r / norm3 r)) • (r ⨯₃ a) +
      ((norm3 r - Real.sin (norm3 r)) * (1 / norm3 r / norm3 r / norm3 r)) • (r ⨯₃ (r ⨯₃ a))) := by
  unfold omegaDotFromRotationVector
  by_cases h : norm3 r < 1 / 1000
  · rw [if_pos h, if_pos h]
  · rw [if_neg h, if_neg h]
    simp only [Matrix.add_mulVec, Matrix.one_mulVec, Matrix.smul_mulVec, skew_mulVec, skew_sq_mulVec, skew_mul_mulVec]

/-- The derivative of the exact angular velocity. -/
theorem exactOmega_hasDerivAt {r v : ℝ → V3} {a : V3} {t : ℝ} (hr : HasDerivAt r (v t) t) (hv : HasDerivAt v a t)
    (h : ¬ norm3 (r t) < 1 / 1000) :
    HasDerivAt (fun s => exactOmega (r s) (v s)) (omegaDotFromRotationVector (r t) (v t) a) t := by
  have hp : 0 < norm3 (r t) := by linarith [not_lt.1 h]
  have h0 : r t ≠ 0 := by
    intro e
    rw [e, norm3_zero] at hp
    exact lt_irrefl _ hp
  obtain ⟨-, hB, hb⟩ := coefficient_derivatives hr h0
  have hc1 := cross_hasDerivAt hr hv
  have hc2 := cross_hasDerivAt hr hc1
  have hall := (hv.add (hB.smul hc1)).add (hb.smul hc2)
  unfold exactOmega
  refine hall.congr_deriv ?_
  rw [omegaDot_eq, if_neg h]
  simp only [cross_self, zero_add]
  apply vec_ext <;> simp only [Pi.add_apply, Pi.smul_apply, smul_eq_mul] <;> field_simp <;> ring

theorem omega_hasDerivAt {r v : ℝ → V3} {a : V3} {t : ℝ} (hr : HasDerivAt r (v t) t) (hv : HasDerivAt v a t)
    (h : norm3 (r t) ≠ 1 / 1000) :
    HasDerivAt (fun s => omegaFromRotationVector (r s) (v s)) (omegaDotFromRotationVector (r t) (v t) a) t := by
  have hn := norm3_continuousAt hr.continuousAt
  rcases lt_or_gt_of_ne h with hl | hg
  · have he : (fun s => omegaFromRotationVector (r s) (v s)) =ᶠ[nhds t] v := by
      filter_upwards [hn.eventually_lt_const hl] with s hs
      rw [omega_eq, if_pos hs]
    have : omegaDotFromRotationVector (r t) (v t) a = a := by rw [omegaDot_eq, if_pos hl]
    rw [this]
    exact hv.congr_of_eventuallyEq he
  · have he : (fun s => omegaFromRotationVector (r s) (v s)) =ᶠ[nhds t] fun s => exactOmega (r s) (v s) := by
      filter_upwards [hn.eventually_const_lt hg] with s hs
      rw [omega_eq, if_neg (not_lt.2 hs.le)]
    exact (exactOmega_hasDerivAt hr hv (not_lt.2 hg.le)).congr_of_eventuallyEq he

end Verif.Mav
