import Mathlib.Analysis.Calculus.MeanValue
import Mathlib.Analysis.SpecialFunctions.Integrals.Basic
import Mathlib.MeasureTheory.Integral.IntervalIntegral.FundThmCalculus
import Verif.Properties.SegmentTimes

/-!
# Property C22: the velocity ramp time is the minimum time of a rest-to-rest motion
-/

namespace Verif.Properties

open Spec Set

/-- A motion of duration `T` with position `x` and velocity `v` that starts and ends at rest, never exceeds the speed `V`, and
whose velocity never changes faster than `A`. -/
structure Motion {E : Type*} [NormedAddCommGroup E] [NormedSpace ℝ E] (x v : ℝ → E) (V A T : ℝ) : Prop where
  nonneg : 0 ≤ T
  deriv : ∀ t ∈ Icc 0 T, HasDerivWithinAt x (v t) (Icc 0 T) t
  start : v 0 = 0
  stop : v T = 0
  speed : ∀ t ∈ Icc 0 T, ‖v t‖ ≤ V
  acc : ∀ s ∈ Icc 0 T, ∀ t ∈ Icc 0 T, ‖v s - v t‖ ≤ A * |s - t|

section
variable {E : Type*} [NormedAddCommGroup E] [NormedSpace ℝ E] {x v : ℝ → E} {V A T : ℝ}

theorem motion_step (m : Motion x v V A T) (a b c0 c1 : ℝ) (ha : 0 ≤ a) (hab : a ≤ b) (hb : b ≤ T)
    (h : ∀ t ∈ Icc a b, ‖v t‖ ≤ c0 + c1 * t) : ‖x b - x a‖ ≤ c0 * (b - a) + c1 * (b ^ 2 - a ^ 2) / 2 := by
  have hsub : Icc a b ⊆ Icc 0 T := Icc_subset_Icc ha hb
  have hd : ∀ t ∈ Icc a b, HasDerivWithinAt (fun t => x t - x a) (v t) (Icc 0 T) t := fun t ht => (m.deriv t (hsub ht)).sub_const _
  have key := image_norm_le_of_norm_deriv_right_le_deriv_boundary (f := fun t => x t - x a) (f' := v) (a := a) (b := b)
    (fun t ht => ((hd t ht).continuousWithinAt).mono hsub)
    (fun t ht => (hd t (Ico_subset_Icc_self ht)).mono_of_mem_nhdsWithin (by
      have h1 : Icc t b ∈ nhdsWithin t (Ici t) := Icc_mem_nhdsGE ht.2
      exact Filter.mem_of_superset h1 (Icc_subset_Icc (ha.trans ht.1) hb)))
    (B := fun t => c0 * (t - a) + c1 * (t ^ 2 - a ^ 2) / 2) (B' := fun t => c0 + c1 * t) (by simp)
    (fun t => by
      have h1 : HasDerivAt (fun t : ℝ => c0 * (t - a)) (c0 * 1) t := ((hasDerivAt_id t).sub_const a).const_mul c0
      have h2 : HasDerivAt (fun t : ℝ => c1 * (t ^ 2 - a ^ 2) / 2) (c1 * (2 * t ^ (2 - 1)) / 2) t := by
        have := (((hasDerivAt_pow 2 t).sub_const (a ^ 2)).const_mul c1).div_const 2
        simpa using this
      exact (h1.add h2).congr_deriv (by norm_num; ring))
    (fun t ht => h t (Ico_subset_Icc_self ht))
  exact key (right_mem_Icc.mpr hab)

theorem motion_speed_start (m : Motion x v V A T) (t : ℝ) (ht : t ∈ Icc 0 T) : ‖v t‖ ≤ A * t := by
  have := m.acc t ht 0 (left_mem_Icc.mpr m.nonneg)
  rwa [m.start, sub_zero, sub_zero, abs_of_nonneg ht.1] at this

theorem motion_speed_stop (m : Motion x v V A T) (t : ℝ) (ht : t ∈ Icc 0 T) : ‖v t‖ ≤ A * (T - t) := by
  have := m.acc t ht T (right_mem_Icc.mpr m.nonneg)
  rwa [m.stop, sub_zero, abs_sub_comm, abs_of_nonneg (by linarith [ht.2])] at this

/-- No admissible motion covers more than `A T² / 4`. -/
theorem motion_short (m : Motion x v V A T) : ‖x T - x 0‖ ≤ A * T ^ 2 / 4 := by
  have h0 := m.nonneg
  have h1 := motion_step m 0 (T / 2) 0 A (le_refl _) (by linarith) (by linarith)
    (fun t ht => by rw [zero_add]; exact motion_speed_start m t ⟨ht.1, by linarith [ht.2]⟩)
  have h2 := motion_step m (T / 2) T (A * T) (-A) (by linarith) (by linarith) (le_refl _)
    (fun t ht => by
      have := motion_speed_stop m t ⟨by linarith [ht.1], ht.2⟩
      linarith)
  calc ‖x T - x 0‖ = ‖(x T - x (T / 2)) + (x (T / 2) - x 0)‖ := by congr 1; abel
    _ ≤ ‖x T - x (T / 2)‖ + ‖x (T / 2) - x 0‖ := norm_add_le _ _
    _ ≤ A * T ^ 2 / 4 := by nlinarith

/-- A motion long enough to reach the speed limit covers at most `V T - V² / A`. -/
theorem motion_long (m : Motion x v V A T) (hA : 0 < A) (hV : 0 < V) (hT : 2 * (V / A) ≤ T) : ‖x T - x 0‖ ≤ V * T - V ^ 2 / A := by
  set r := V / A with hr
  have hr0 : 0 < r := by positivity
  have hVr : V = A * r := by rw [hr]; field_simp
  have h1 := motion_step m 0 r 0 A (le_refl _) hr0.le (by linarith)
    (fun t ht => by rw [zero_add]; exact motion_speed_start m t ⟨ht.1, by linarith [ht.2]⟩)
  have h2 := motion_step m r (T - r) V 0 hr0.le (by linarith) (by linarith)
    (fun t ht => by rw [zero_mul, add_zero]; exact m.speed t ⟨by linarith [ht.1], by linarith [ht.2]⟩)
  have h3 := motion_step m (T - r) T (A * T) (-A) (by linarith) (by linarith) (le_refl _)
    (fun t ht => by
      have := motion_speed_stop m t ⟨by linarith [ht.1], ht.2⟩
      linarith)
  have e : V ^ 2 / A = A * r ^ 2 := by rw [hVr]; field_simp
  calc ‖x T - x 0‖ = ‖(x T - x (T - r)) + (x (T - r) - x r) + (x r - x 0)‖ := by congr 1; abel
    _ ≤ ‖x T - x (T - r)‖ + ‖x (T - r) - x r‖ + ‖x r - x 0‖ :=
        (norm_add_le _ _).trans (add_le_add_left (norm_add_le _ _) _)
    _ ≤ V * T - V ^ 2 / A := by rw [e]; rw [hVr] at h2 ⊢; nlinarith

end

/-- The two cases of the code, as a function of the distance. -/
noncomputable def rampTime (V A d : ℝ) : ℝ := if d < V ^ 2 / A then 2 * Real.sqrt (d / A) else V / A + d / V

theorem computeTimeVelocityRamp_eq (p q : List ℝ) (hl : p.length = q.length) (V A : ℝ) (hV : 0 < V) (hA : 0 < A) :
    computeTimeVelocityRamp p q V A = .ok (rampTime V A (distance p q)) := by
  unfold computeTimeVelocityRamp rampTime
  have e : 2 * (1 / 2 * V * (V / A)) = V ^ 2 / A := by field_simp
  simp only [vsub, if_pos hl, bind, Except.bind, vnorm_vsub, if_neg hA.ne', e]
  by_cases h : distance p q < V ^ 2 / A
  · rw [if_pos h, if_pos h]; rfl
  · rw [if_neg h, if_neg h, if_neg hV.ne']
    simp only [pure, Except.pure]
    congr 1
    field_simp
    ring

/-- C22: no admissible motion, in any number of dimensions, is faster than the returned time. -/
theorem C22_no_motion_is_faster {E : Type*} [NormedAddCommGroup E] [NormedSpace ℝ E] (p q : List ℝ) (hl : p.length = q.length)
    (V A : ℝ) (hV : 0 < V) (hA : 0 < A) (r : ℝ) (hr : computeTimeVelocityRamp p q V A = .ok r)
    (x v : ℝ → E) (T : ℝ) (m : Motion x v V A T) (hdist : ‖x T - x 0‖ = distance p q) : r ≤ T := by
  rw [computeTimeVelocityRamp_eq p q hl V A hV hA] at hr
  rw [← Except.ok.inj hr, ← hdist]
  unfold rampTime
  have hs := motion_short m
  have hT := m.nonneg
  split
  · have h1 : ‖x T - x 0‖ / A ≤ (T / 2) ^ 2 := by rw [div_le_iff₀ hA]; linarith
    have := Real.sqrt_le_sqrt h1
    rw [Real.sqrt_sq (by linarith)] at this
    linarith
  · rename_i h
    have h := not_lt.mp h
    have hlong : 2 * (V / A) ≤ T := by
      have h2 : V ^ 2 / A ≤ A * T ^ 2 / 4 := h.trans hs
      rw [div_le_iff₀ hA] at h2
      have h3 : (2 * V) ^ 2 ≤ (A * T) ^ 2 := by nlinarith
      have h4 : 2 * V ≤ A * T := by
        apply le_of_sq_le_sq h3 (by positivity)
      rw [← mul_div_assoc, div_le_iff₀ hA]
      linarith
    have h5 := motion_long m hA hV hlong
    have : ‖x T - x 0‖ / V ≤ T - V / A := by
      rw [div_le_iff₀ hV]
      have : (T - V / A) * V = V * T - V ^ 2 / A := by field_simp
      rw [this]; exact h5
    linarith

/-- The trapezoidal (or triangular) velocity profile of duration `T`. -/
noncomputable def profile (V A T t : ℝ) : ℝ := min V (min (A * t) (A * (T - t)))

theorem profile_continuous (V A T : ℝ) : Continuous (profile V A T) := by
  unfold profile; fun_prop

theorem profile_lipschitz (V A T s t : ℝ) (hA : 0 ≤ A) : |profile V A T s - profile V A T t| ≤ A * |s - t| := by
  unfold profile
  have h1 : |A * s - A * t| = A * |s - t| := by rw [← mul_sub, abs_mul, abs_of_nonneg hA]
  have h2 : |A * (T - s) - A * (T - t)| = A * |s - t| := by
    rw [← mul_sub, abs_mul, abs_of_nonneg hA, show T - s - (T - t) = -(s - t) by ring, abs_neg]
  have h3 := abs_min_sub_min_le_max (A * s) (A * (T - s)) (A * t) (A * (T - t))
  rw [h1, h2, max_self] at h3
  have h4 := abs_min_sub_min_le_max V (min (A * s) (A * (T - s))) V (min (A * t) (A * (T - t)))
  rw [sub_self, abs_zero] at h4
  exact h4.trans (max_le (by positivity) h3)

theorem profile_integral (V A T c : ℝ) (hA : 0 < A) (h0 : 0 ≤ c) (h1 : 2 * c ≤ T) (hc : A * c ≤ V)
    (hfull : 2 * c = T ∨ A * c = V) :
    ∫ t in (0 : ℝ)..T, profile V A T t = A * c ^ 2 + A * c * (T - 2 * c) := by
  have hint : ∀ a b : ℝ, IntervalIntegrable (profile V A T) MeasureTheory.volume a b :=
    fun a b => (profile_continuous V A T).intervalIntegrable a b
  rw [← intervalIntegral.integral_add_adjacent_intervals (hint 0 c) (hint c T),
    ← intervalIntegral.integral_add_adjacent_intervals (hint c (T - c)) (hint (T - c) T)]
  have i1 : ∫ t in (0 : ℝ)..c, profile V A T t = ∫ t in (0 : ℝ)..c, A * t := by
    apply intervalIntegral.integral_congr
    intro t ht
    rw [Set.uIcc_of_le h0] at ht
    have e1 : A * t ≤ A * (T - t) := mul_le_mul_of_nonneg_left (by linarith [ht.2]) hA.le
    have e2 : A * t ≤ V := (mul_le_mul_of_nonneg_left ht.2 hA.le).trans hc
    simp only [profile]
    rw [min_eq_left e1, min_eq_right e2]
  have i2 : ∫ t in c..(T - c), profile V A T t = ∫ t in c..(T - c), A * c := by
    apply intervalIntegral.integral_congr
    intro t ht
    rw [Set.uIcc_of_le (by linarith)] at ht
    simp only [profile]
    rcases hfull with h | h
    · have : t = c := by linarith [ht.1, ht.2]
      subst this
      rw [show T - t = t by linarith, min_self, min_eq_right hc]
    · rw [← h, min_eq_left]
      apply le_min
      · exact mul_le_mul_of_nonneg_left ht.1 hA.le
      · exact mul_le_mul_of_nonneg_left (by linarith [ht.2]) hA.le
  have i3 : ∫ t in (T - c)..T, profile V A T t = ∫ t in (T - c)..T, A * (T - t) := by
    apply intervalIntegral.integral_congr
    intro t ht
    rw [Set.uIcc_of_le (by linarith)] at ht
    have e1 : A * (T - t) ≤ A * t := mul_le_mul_of_nonneg_left (by linarith [ht.1]) hA.le
    have e2 : A * (T - t) ≤ V := (mul_le_mul_of_nonneg_left (by linarith [ht.1]) hA.le).trans hc
    simp only [profile]
    rw [min_eq_right e1, min_eq_right e2]
  have j1 : ∫ t in (0 : ℝ)..c, A * t = A * (c ^ 2 / 2) := by
    rw [intervalIntegral.integral_const_mul, integral_id]; ring
  rw [i1, i2, i3, j1]
  simp only [intervalIntegral.integral_const_mul, intervalIntegral.integral_const, smul_eq_mul]
  rw [intervalIntegral.integral_sub (by simp) (by simp)]
  simp only [intervalIntegral.integral_const, integral_id, smul_eq_mul]
  ring

/-- C22: the returned time is attained by an admissible motion along the straight line. -/
theorem C22_attained (p q : List ℝ) (hl : p.length = q.length) (V A : ℝ) (hV : 0 < V) (hA : 0 < A) (r : ℝ)
    (hr : computeTimeVelocityRamp p q V A = .ok r) : ∃ x v : ℝ → ℝ, Motion x v V A r ∧ x r - x 0 = distance p q := by
  rw [computeTimeVelocityRamp_eq p q hl V A hV hA] at hr
  rw [← Except.ok.inj hr]
  set d := distance p q with hd
  have hd0 : 0 ≤ d := distance_nonneg p q
  set T := rampTime V A d with hT
  -- the profile accelerates until `c`
  obtain ⟨c, h0, h1, hc, hfull, hval⟩ : ∃ c, 0 ≤ c ∧ 2 * c ≤ T ∧ A * c ≤ V ∧ (2 * c = T ∨ A * c = V) ∧
      A * c ^ 2 + A * c * (T - 2 * c) = d := by
    rw [hT]; unfold rampTime
    split
    · rename_i h
      refine ⟨Real.sqrt (d / A), Real.sqrt_nonneg _, le_refl _, ?_, Or.inl rfl, ?_⟩
      · have h2 : d / A ≤ (V / A) ^ 2 := by
          rw [div_pow, div_le_div_iff₀ hA (by positivity)]
          rw [lt_div_iff₀ hA] at h
          nlinarith
        have := Real.sqrt_le_sqrt h2
        rw [Real.sqrt_sq (by positivity), le_div_iff₀ hA] at this
        linarith
      · rw [Real.sq_sqrt (by positivity)]
        field_simp
        ring
    · rename_i h
      have h := not_lt.mp h
      rw [div_le_iff₀ hA] at h
      refine ⟨V / A, by positivity, ?_, by field_simp; exact le_refl _, Or.inr (by field_simp), ?_⟩
      · have : V / A ≤ d / V := by rw [div_le_div_iff₀ hA hV]; nlinarith
        linarith
      · field_simp
        ring
  have hT0 : 0 ≤ T := by linarith
  refine ⟨fun t => ∫ s in (0 : ℝ)..t, profile V A T s, profile V A T, ?_, ?_⟩
  · refine ⟨hT0, ?_, ?_, ?_, ?_, ?_⟩
    · intro t _
      exact (intervalIntegral.integral_hasDerivAt_right ((profile_continuous V A T).intervalIntegrable 0 t)
        ((profile_continuous V A T).stronglyMeasurableAtFilter _ _) (profile_continuous V A T).continuousAt).hasDerivWithinAt
    · have : 0 ≤ A * T := by positivity
      simp [profile, this, hV.le]
    · have : 0 ≤ A * T := by positivity
      simp [profile, this, hV.le]
    · intro t ht
      rw [Real.norm_eq_abs, abs_of_nonneg]
      · exact min_le_left _ _
      · exact le_min hV.le (le_min (mul_nonneg hA.le ht.1) (mul_nonneg hA.le (by linarith [ht.2])))
    · intro s _ t _
      exact profile_lipschitz V A T s t hA.le
  · simp only [intervalIntegral.integral_same, sub_zero]
    rw [profile_integral V A T c hA h0 h1 hc hfull, hval]

theorem rampTime_mono (V A d e : ℝ) (hV : 0 < V) (hA : 0 < A) (hde : d ≤ e) : rampTime V A d ≤ rampTime V A e := by
  unfold rampTime
  by_cases h1 : d < V ^ 2 / A
  · rw [if_pos h1]
    by_cases h2 : e < V ^ 2 / A
    · rw [if_pos h2]
      have := Real.sqrt_le_sqrt (div_le_div_of_nonneg_right hde hA.le)
      linarith
    · rw [if_neg h2]
      have h2 := not_lt.mp h2
      have h3 : Real.sqrt (d / A) ≤ V / A := by
        rw [Real.sqrt_le_left (by positivity), div_pow, div_le_div_iff₀ hA (by positivity)]
        rw [lt_div_iff₀ hA] at h1
        nlinarith
      have h4 : V / A ≤ e / V := by
        rw [div_le_div_iff₀ hA hV]; rw [div_le_iff₀ hA] at h2; nlinarith
      linarith
  · rw [if_neg h1, if_neg (not_lt.mpr ((not_lt.mp h1).trans hde))]
    have := div_le_div_of_nonneg_right hde hV.le
    linarith

/-- C22: the returned time grows with the distance. -/
theorem C22_monotone (p q p' q' : List ℝ) (hl : p.length = q.length) (hl' : p'.length = q'.length) (V A : ℝ) (hV : 0 < V)
    (hA : 0 < A) (h : distance p q ≤ distance p' q') (r r' : ℝ) (hr : computeTimeVelocityRamp p q V A = .ok r)
    (hr' : computeTimeVelocityRamp p' q' V A = .ok r') : r ≤ r' := by
  rw [computeTimeVelocityRamp_eq p q hl V A hV hA] at hr
  rw [computeTimeVelocityRamp_eq p' q' hl' V A hV hA] at hr'
  rw [← Except.ok.inj hr, ← Except.ok.inj hr']
  exact rampTime_mono V A _ _ hV hA h

/-- C22: the two cases of the code agree at the distance where they meet. -/
theorem ramp_cases_agree (V A : ℝ) (hV : 0 < V) (hA : 0 < A) :
    2 * Real.sqrt (V ^ 2 / A / A) = rampTime V A (V ^ 2 / A) := by
  unfold rampTime
  rw [if_neg (lt_irrefl _)]
  rw [show V ^ 2 / A / A = (V / A) ^ 2 by field_simp, Real.sqrt_sq (by positivity)]
  field_simp
  ring

/-- C22: the returned time is a continuous function of the distance alone, in particular where the two cases of the code meet; it is zero exactly for equal
positions. -/
theorem C22_continuous (V A : ℝ) (hV : 0 < V) (hA : 0 < A) :
    ∃ f : ℝ → ℝ, Continuous f ∧ (∀ d, 0 ≤ d → (f d = 0 ↔ d = 0)) ∧
      ∀ p q : List ℝ, p.length = q.length → computeTimeVelocityRamp p q V A = .ok (f (distance p q)) := by
  refine ⟨rampTime V A, ?_, ?_, fun p q hl => computeTimeVelocityRamp_eq p q hl V A hV hA⟩
  · have e : rampTime V A = fun d => if V ^ 2 / A ≤ d then V / A + d / V else 2 * Real.sqrt (d / A) := by
      funext d; unfold rampTime; split_ifs <;> first | rfl | (exfalso; linarith)
    rw [e]
    refine Continuous.if_le (by fun_prop) (by fun_prop) continuous_const continuous_id ?_
    intro d hd
    have := ramp_cases_agree V A hV hA
    unfold rampTime at this
    rw [if_neg (lt_irrefl _), hd] at this
    exact this.symm
  · intro d hd
    unfold rampTime
    split_ifs with h
    · rw [mul_eq_zero, Real.sqrt_eq_zero (by positivity), div_eq_zero_iff]
      simp [hA.ne']
    · have h1 : 0 < V / A := by positivity
      have h2 : 0 ≤ d / V := by positivity
      have h3 : 0 < V ^ 2 / A := by positivity
      constructor <;> intro h4 <;> linarith

/-- C22: the estimator based on it gives one time per pair of consecutive vertices, each the larger of 0.1 s and the ramp time. -/
theorem C22_estimateSegmentTimesVelocityRamp (V A : ℝ) (hV : 0 < V) (hA : 0 < A) (D : ℕ) (vs : List (Vertex ℝ)) (hn : 2 ≤ vs.length)
    (hpos : ∀ v ∈ vs, ∃ p, v.getConstraint 0 = some p ∧ p.length = D) :
    ∃ ts, estimateSegmentTimesVelocityRamp vs V A = .ok ts ∧ ts.length = vs.length - 1 ∧ (∀ t ∈ ts, 1 / 10 ≤ t) ∧
      ∀ (i : ℕ) (v w : Vertex ℝ) (p q : List ℝ), vs[i]? = some v → vs[i + 1]? = some w → v.getConstraint 0 = some p →
        w.getConstraint 0 = some q → ∃ r, computeTimeVelocityRamp p q V A = .ok r ∧ ts[i]? = some (max (1 / 10) r) := by
  unfold estimateSegmentTimesVelocityRamp
  rw [if_neg (by omega)]
  clear hn
  induction vs with
  | nil => exact ⟨[], rfl, rfl, by simp, by simp⟩
  | cons v vs ih =>
    cases vs with
    | nil => exact ⟨[], rfl, rfl, by simp, by simp⟩
    | cons w vs =>
      obtain ⟨ts, h1, h2, h3, h4⟩ := ih (fun x hx => hpos x (by simp [hx]))
      obtain ⟨p, hp, hpl⟩ := hpos v (by simp)
      obtain ⟨q, hq, hql⟩ := hpos w (by simp)
      have ht := computeTimeVelocityRamp_eq p q (by rw [hpl, hql]) V A hV hA
      refine ⟨max (1 / 10) (rampTime V A (distance p q)) :: ts, ?_, by simp [h2], ?_, ?_⟩
      · unfold rampLoop
        rw [hp, hq]
        simp only [Option.getD_some, ht, h1, bind, Except.bind]; rfl
      · intro t ht
        rcases List.mem_cons.mp ht with rfl | ht
        · exact le_max_left _ _
        · exact h3 t ht
      · intro i a b pa pb ha hb hpa hpb
        cases i with
        | zero =>
          simp at ha hb
          subst ha hb
          rw [hp] at hpa; rw [hq] at hpb
          cases hpa; cases hpb
          exact ⟨_, ht, rfl⟩
        | succ i =>
          obtain ⟨r, hr1, hr2⟩ := h4 i a b pa pb (by simpa using ha) (by simpa using hb) hpa hpb
          exact ⟨r, hr1, by simpa using hr2⟩

-- both cases of the code occur with speed 2 and acceleration 1 (split distance 4)
example : computeTimeVelocityRamp [0] [1] 2 1 = .ok 2 ∧ computeTimeVelocityRamp [0] [10] 2 1 = .ok 7 := by
  constructor
  · rw [computeTimeVelocityRamp_eq [0] [1] rfl 2 1 (by norm_num) (by norm_num)]
    have : distance [0] [1] = 1 := by simp [distance]
    rw [this]; unfold rampTime; norm_num
  · rw [computeTimeVelocityRamp_eq [0] [10] rfl 2 1 (by norm_num) (by norm_num)]
    have : distance [0] [10] = 10 := by
      simp [distance]
    rw [this]; unfold rampTime; norm_num

end Verif.Properties
