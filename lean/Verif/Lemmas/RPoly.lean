import Mathlib.Tactic
import Verif.Model.RPoly
import Verif.Spec.RPoly

/-! # Lemmas about the root finder -/

namespace Verif.RPoly

open Polynomial Spec

/-- The polynomial with coefficients `p 0, …, p N` in decreasing order. -/
noncomputable def arr (p : ℕ → ℝ) : ℕ → ℝ[X]
  | 0 => C (p 0)
  | n + 1 => X * arr p n + C (p (n + 1))

theorem arr_degree (p : ℕ → ℝ) (h : p 0 ≠ 0) : ∀ n, (arr p n).natDegree = n ∧ (arr p n).leadingCoeff = p 0 ∧ arr p n ≠ 0
  | 0 => by simp [arr, h]
  | n + 1 => by
    obtain ⟨hd, hl, h0⟩ := arr_degree p h n
    have hX : (X * arr p n : ℝ[X]).natDegree = n + 1 := by rw [natDegree_X_mul h0, hd]
    have hdeg : (arr p (n + 1)).natDegree = n + 1 := by
      rw [arr, natDegree_add_C, hX]
    have hlead : (arr p (n + 1)).leadingCoeff = p 0 := by
      show (arr p (n + 1)).coeff (arr p (n + 1)).natDegree = _
      rw [hdeg, arr, coeff_add, coeff_X_mul, coeff_C_succ, add_zero]
      rw [← hl]
      show _ = (arr p n).coeff (arr p n).natDegree
      rw [hd]
    refine ⟨hdeg, hlead, fun he => h ?_⟩
    rw [← hlead, he, leadingCoeff_zero]

theorem arr_coeff (p : ℕ → ℝ) : ∀ n k, k ≤ n → (arr p n).coeff k = p (n - k)
  | 0, k, hk => by
    have : k = 0 := by omega
    simp [this, arr]
  | n + 1, 0, _ => by simp [arr]
  | n + 1, k + 1, hk => by
    rw [arr, coeff_add, coeff_X_mul, coeff_C_succ, add_zero, arr_coeff p n k (by omega)]
    congr 1; omega

theorem arr_eval (p : ℕ → ℝ) (s : ℝ) : ∀ n, (arr p n).eval s = horner s p n
  | 0 => by simp [arr, horner]
  | n + 1 => by simp [arr, horner, arr_eval p s n]; ring

theorem arr_mul (p : ℕ → ℝ) (k : ℝ) : ∀ n, arr (fun i => p i * k) n = C k * arr p n
  | 0 => by simp [arr, mul_comm]
  | n + 1 => by simp only [arr, arr_mul p k n, C_mul]; ring

/-- The sum of the absolute values of the terms, by Horner's rule. -/
noncomputable def absSum (p : ℕ → ℝ) (x : ℝ) : ℕ → ℝ
  | 0 => |p 0|
  | n + 1 => absSum p x n * x + |p (n + 1)|

theorem absEval_arr (p : ℕ → ℝ) (h : p 0 ≠ 0) (x : ℝ) (n : ℕ) : absEval (arr p n) x = absSum p x n := by
  unfold absEval
  rw [(arr_degree p h n).1]
  induction n with
  | zero => simp [arr, absSum]
  | succ n ih =>
    rw [Finset.sum_range_succ', absSum, ← ih, Finset.sum_mul]
    congr 1
    · apply Finset.sum_congr rfl
      intro k hk
      have hk' := Finset.mem_range.mp hk
      rw [arr_coeff p _ _ (by omega), arr_coeff p _ _ (by omega), pow_succ, ← mul_assoc]
      congr 4; omega
    · simp [arr]

theorem absSum_nonneg (p : ℕ → ℝ) (x : ℝ) (hx : 0 ≤ x) : ∀ n, 0 ≤ absSum p x n
  | 0 => abs_nonneg _
  | n + 1 => add_nonneg (mul_nonneg (absSum_nonneg p x hx n) hx) (abs_nonneg _)

theorem absSum_step (p : ℕ → ℝ) (x : ℝ) (n : ℕ) : absSum p x n * x ≤ absSum p x (n + 1) := by
  have := abs_nonneg (p (n + 1)); simp only [absSum]; linarith

/-- Synthetic division by `X - s`. -/
theorem horner_division (s : ℝ) (p : ℕ → ℝ) : ∀ n, arr p (n + 1) = (X - C s) * arr (horner s p) n + C (horner s p (n + 1))
  | 0 => by simp only [arr, horner, C_add, C_mul]; ring
  | n + 1 => by
    rw [arr, horner_division s p n, arr, show horner s p (n + 1 + 1) = horner s p (n + 1) * s + p (n + 1 + 1) from rfl]
    simp only [C_add, C_mul]; ring

/-- Synthetic division by `X² + uX + v`. -/
theorem quadSD_division (u v : ℝ) (p : ℕ → ℝ) : ∀ n, arr p (n + 2) = (X ^ 2 + C u * X + C v) * arr (quadSD u v p) n +
    (C (quadSD u v p (n + 1)) * (X + C u) + C (quadSD u v p (n + 2)))
  | 0 => by simp only [arr, quadSD, C_add, C_mul, C_neg]; ring
  | n + 1 => by
    rw [arr, quadSD_division u v p n, arr, show quadSD u v p (n + 1 + 2) = -(quadSD u v p (n + 2) * u + quadSD u v p (n + 1) * v) + p (n + 3) from rfl]
    simp only [C_add, C_mul, C_neg]; ring

/-! ## The quadratic solver -/

theorem discE_spec (a b c : ℝ) (hc : c ≠ 0) :
    ∃ m : ℝ, 0 < m ∧ discE a b c * m = b ^ 2 - a * c ∧ discD a b c ^ 2 = |discE a b c| * m ∧ 0 ≤ discD a b c := by
  unfold discD
  by_cases h : |b| < |c|
  · refine ⟨|c|, abs_pos.mpr hc, ?_, ?_, ?_⟩
    · have hc' : |c| ≠ 0 := abs_ne_zero.mpr hc
      simp only [discE, h, if_true]
      split_ifs with h0
      · rw [abs_of_nonneg h0] at *; field_simp; ring
      · rw [abs_of_neg (not_le.mp h0)] at *; field_simp; ring
    · simp only [h, if_true, mul_pow, Real.sq_sqrt (abs_nonneg _)]
    · simp only [h, if_true]; positivity
  · have hb : b ≠ 0 := by
      rintro rfl
      exact h (by simpa using abs_pos.mpr hc)
    refine ⟨b ^ 2, by positivity, ?_, ?_, ?_⟩
    · simp only [discE, h, if_false]; field_simp; ring
    · simp only [h, if_false, mul_pow, Real.sq_sqrt (abs_nonneg _), sq_abs]
    · simp only [h, if_false]; positivity

/-- The zeros of a quadratic: their sum and product, and that they are real or conjugate. -/
theorem quad_vieta (a b1 c : ℝ) (ha : a ≠ 0) :
    let z := quad a b1 c
    z.sr + z.lr = -b1 / a ∧ z.si + z.li = 0 ∧ z.sr * z.lr - z.si * z.li = c / a ∧ z.sr * z.li + z.si * z.lr = 0 ∧
      (z.si = 0 ∨ z.sr = z.lr) := by
  simp only [quad, ha, if_false]
  by_cases hc : c = 0
  · simp [hc]; ring
  · simp only [hc, if_false]
    obtain ⟨m, hm, h1, h2, h3⟩ := discE_spec a (b1 / 2) c hc
    split_ifs with he hb hl hl
    · set d := discD a (b1 / 2) c
      have hd : d ^ 2 = (b1 / 2) ^ 2 - a * c := by rw [h2, abs_of_nonneg he, h1]
      have hroot : a * ((-(b1 / 2) + -d) / a) ^ 2 + b1 * ((-(b1 / 2) + -d) / a) + c = 0 := by
        field_simp; nlinarith
      set l := (-(b1 / 2) + -d) / a
      refine ⟨?_, by simp, ?_, by simp, Or.inl rfl⟩
      · field_simp; nlinarith
      · field_simp; simp
    · exfalso
      have hd : discD a (b1 / 2) c ^ 2 = (b1 / 2) ^ 2 - a * c := by rw [h2, abs_of_nonneg he, h1]
      have h0 : -(b1 / 2) + -discD a (b1 / 2) c = 0 := by
        by_contra hne
        exact hl (div_ne_zero hne ha)
      have : a * c = 0 := by
        have : discD a (b1 / 2) c = -(b1 / 2) := by linarith
        rw [this] at hd; nlinarith
      rcases mul_eq_zero.mp this with h | h <;> contradiction
    · set d := discD a (b1 / 2) c
      have hd : d ^ 2 = (b1 / 2) ^ 2 - a * c := by rw [h2, abs_of_nonneg he, h1]
      have hroot : a * ((-(b1 / 2) + d) / a) ^ 2 + b1 * ((-(b1 / 2) + d) / a) + c = 0 := by
        field_simp; nlinarith
      set l := (-(b1 / 2) + d) / a
      refine ⟨?_, by simp, ?_, by simp, Or.inl rfl⟩
      · field_simp; nlinarith
      · field_simp; simp
    · exfalso
      have hd : discD a (b1 / 2) c ^ 2 = (b1 / 2) ^ 2 - a * c := by rw [h2, abs_of_nonneg he, h1]
      have h0 : -(b1 / 2) + discD a (b1 / 2) c = 0 := by
        by_contra hne
        exact hl (div_ne_zero hne ha)
      have : a * c = 0 := by
        have : discD a (b1 / 2) c = (b1 / 2) := by linarith
        rw [this] at hd; nlinarith
      rcases mul_eq_zero.mp this with h | h <;> contradiction
    · have hd : discD a (b1 / 2) c ^ 2 = -((b1 / 2) ^ 2 - a * c) := by rw [h2, abs_of_neg (not_le.mp he), ← h1]; ring
      refine ⟨by field_simp; ring, by simp, ?_, by ring, Or.inr rfl⟩
      have : |discD a (b1 / 2) c / a| * |discD a (b1 / 2) c / a| = discD a (b1 / 2) c ^ 2 / a ^ 2 := by
        rw [abs_mul_abs_self]; field_simp
      simp only [mul_neg, sub_neg_eq_add, this, hd]
      field_simp; ring

/-- The two zeros as complex numbers. -/
def Pair.s (z : Pair) : ℂ := ⟨z.sr, z.si⟩
/-- The two zeros as complex numbers. -/
def Pair.l (z : Pair) : ℂ := ⟨z.lr, z.li⟩

theorem quad_sum_prod (a b1 c : ℝ) (ha : a ≠ 0) :
    (quad a b1 c).s + (quad a b1 c).l = ((-b1 / a : ℝ) : ℂ) ∧ (quad a b1 c).s * (quad a b1 c).l = ((c / a : ℝ) : ℂ) := by
  obtain ⟨h1, h2, h3, h4, _⟩ := quad_vieta a b1 c ha
  constructor <;> apply Complex.ext
  · simpa [Pair.s, Pair.l] using h1
  · simpa [Pair.s, Pair.l] using h2
  · simp only [Pair.s, Pair.l, Complex.mul_re, Complex.ofReal_re]; exact h3
  · simp only [Pair.s, Pair.l, Complex.mul_im, Complex.ofReal_im]; exact h4

theorem quad_factors (a b1 c : ℝ) (ha : a ≠ 0) :
    (C (a : ℂ) * ((X - C (quad a b1 c).s) * (X - C (quad a b1 c).l)) : ℂ[X]) = C (a : ℂ) * X ^ 2 + C (b1 : ℂ) * X + C (c : ℂ) := by
  obtain ⟨h1, h2⟩ := quad_sum_prod a b1 c ha
  have : (C (a : ℂ) * ((X - C (quad a b1 c).s) * (X - C (quad a b1 c).l)) : ℂ[X]) =
      C (a : ℂ) * X ^ 2 - C (a * ((quad a b1 c).s + (quad a b1 c).l)) * X + C (a * ((quad a b1 c).s * (quad a b1 c).l)) := by
    simp only [C_mul, C_add]; ring
  have ha' : (a : ℂ) ≠ 0 := by exact_mod_cast ha
  rw [this, h1, h2]
  have e1 : (a : ℂ) * ((-b1 / a : ℝ) : ℂ) = -b1 := by push_cast; field_simp
  have e2 : (a : ℂ) * ((c / a : ℝ) : ℂ) = c := by push_cast; field_simp
  rw [e1, e2, C_neg]; ring

/-! ## The acceptance tests -/

theorem absSum_mono (q : ℕ → ℝ) (x y : ℝ) (hx : 0 ≤ x) (hxy : x ≤ y) : ∀ n, absSum q x n ≤ absSum q y n
  | 0 => le_refl _
  | n + 1 => by
    have h1 := absSum_mono q x y hx hxy n
    have h2 := absSum_nonneg q x hx n
    simp only [absSum]
    nlinarith

theorem errSum_le (k m : ℝ) (q : ℕ → ℝ) (hk : 1 ≤ k) (hm : 0 ≤ m) (c : ℝ) (hc : c ≤ k * |q 0|) : ∀ n, errSum c m q n ≤ k * absSum q m n
  | 0 => hc
  | n + 1 => by
    have h1 := errSum_le k m q hk hm c hc n
    have h2 := abs_nonneg (q (n + 1))
    simp only [absSum, errSum]
    nlinarith

theorem horner_abs_le (s : ℝ) (p : ℕ → ℝ) : ∀ n, |horner s p n| ≤ absSum p |s| n
  | 0 => le_refl _
  | n + 1 => by
    have h1 := horner_abs_le s p n
    simp only [horner, absSum]
    refine (abs_add_le _ _).trans ?_
    rw [abs_mul]
    have := mul_le_mul_of_nonneg_right h1 (abs_nonneg s)
    linarith

theorem absSum_horner_le (s : ℝ) (p : ℕ → ℝ) : ∀ n : ℕ, absSum (horner s p) |s| n ≤ (n + 1) * absSum p |s| n
  | 0 => by simp [absSum, horner]
  | n + 1 => by
    have h1 := absSum_horner_le s p n
    have h2 := horner_abs_le s p (n + 1)
    have h3 := absSum_step p |s| n
    have h4 := abs_nonneg s
    rw [absSum]
    have h5 : absSum (horner s p) |s| n * |s| ≤ (n + 1) * (absSum p |s| n * |s|) := by
      rw [← mul_assoc]; exact mul_le_mul_of_nonneg_right h1 h4
    have h6 : ((n : ℝ) + 1) * (absSum p |s| n * |s|) ≤ (n + 1) * absSum p |s| (n + 1) :=
      mul_le_mul_of_nonneg_left h3 (by positivity)
    push_cast
    linarith

theorem splitsOff_one (p : ℕ → ℝ) (n : ℕ) (s : ℝ) (h0 : p 0 ≠ 0) (h : AcceptsReal (n + 1) p s) :
    SplitsOff (arr p (n + 1)) [(s : ℂ)] (arr (horner s p) n) := by
  refine SplitsOff.one s (horner s p (n + 1)) _ (horner_division s p n) ?_
  rw [arr_eval, absEval_arr p h0, (arr_degree p h0 _).1]
  simp only [AcceptsReal, dblEpsilon] at h
  have h1 := errSum_le 1 |s| (horner s p) le_rfl (abs_nonneg s) (1 / 2 * |horner s p 0|) (by linarith [abs_nonneg (horner s p 0)]) (n + 1)
  have h2 := absSum_horner_le s p (n + 1)
  have h3 := abs_nonneg (horner s p (n + 1))
  rw [one_mul] at h1
  have h4 : |horner s p (n + 1)| ≤ 20 * (1 / 2 ^ 52) * (2 * ((((n + 1 : ℕ) : ℝ) + 1) * absSum p |s| (n + 1))) := by
    refine h.trans (mul_le_mul_of_nonneg_left ?_ (by positivity))
    linarith
  calc |horner s p (n + 1)| ≤ _ := h4
    _ = _ := by ring

/-- Horner's rule over the complex numbers. -/
noncomputable def hc (z : ℂ) (p : ℕ → ℂ) : ℕ → ℂ
  | 0 => p 0
  | n + 1 => hc z p n * z + p (n + 1)

theorem quadSD_eq_hc (u v : ℝ) (z1 z2 : ℂ) (hu : (u : ℂ) = -(z1 + z2)) (hv : (v : ℂ) = z1 * z2) (p : ℕ → ℝ) :
    ∀ n, ((quadSD u v p n : ℝ) : ℂ) = hc z2 (hc z1 (fun i => (p i : ℂ))) n
  | 0 => rfl
  | 1 => by simp only [quadSD, hc]; push_cast; rw [hu]; ring
  | n + 2 => by
    have h1 := quadSD_eq_hc u v z1 z2 hu hv p (n + 1)
    have h2 := quadSD_eq_hc u v z1 z2 hu hv p n
    simp only [quadSD]; push_cast
    rw [h1, h2, hu, hv]
    simp only [hc]; ring

theorem hc_norm_le (z : ℂ) (p : ℕ → ℝ) (r : ℝ) (hz : ‖z‖ ≤ r) (hr : 0 ≤ r) : ∀ n, ‖hc z (fun i => (p i : ℂ)) n‖ ≤ absSum p r n
  | 0 => by simp [hc, absSum]
  | n + 1 => by
    have h1 := hc_norm_le z p r hz hr n
    simp only [hc, absSum]
    refine (norm_add_le _ _).trans ?_
    rw [norm_mul]
    have : ‖hc z (fun i => (p i : ℂ)) n‖ * ‖z‖ ≤ absSum p r n * r := mul_le_mul h1 hz (norm_nonneg _) (absSum_nonneg p r hr n)
    have h2 : ‖(p (n + 1) : ℂ)‖ = |p (n + 1)| := by simp
    linarith

theorem hc_hc_norm_le (z1 z2 : ℂ) (p : ℕ → ℝ) (r : ℝ) (h1 : ‖z1‖ ≤ r) (h2 : ‖z2‖ ≤ r) (hr : 0 ≤ r) :
    ∀ n : ℕ, ‖hc z2 (hc z1 (fun i => (p i : ℂ))) n‖ ≤ (n + 1) * absSum p r n
  | 0 => by simp [hc, absSum]
  | n + 1 => by
    have ih := hc_hc_norm_le z1 z2 p r h1 h2 hr n
    have h3 := hc_norm_le z1 p r h1 hr (n + 1)
    rw [hc]
    refine (norm_add_le _ _).trans ?_
    rw [norm_mul]
    have h4 : ‖hc z2 (hc z1 (fun i => (p i : ℂ))) n‖ * ‖z2‖ ≤ (n + 1) * absSum p r n * r :=
      mul_le_mul ih h2 (norm_nonneg _) (mul_nonneg (by positivity) (absSum_nonneg p r hr n))
    have h5 : ((n : ℝ) + 1) * (absSum p r n * r) ≤ (n + 1) * absSum p r (n + 1) :=
      mul_le_mul_of_nonneg_left (absSum_step p r n) (by positivity)
    push_cast
    linarith

theorem absSum_quot_le (q p : ℕ → ℝ) (r : ℝ) (hr : 0 ≤ r) (hq : ∀ n : ℕ, |q n| ≤ (n + 1) * absSum p r n) :
    ∀ n : ℕ, absSum q r n ≤ (n + 1) * (n + 2) / 2 * absSum p r n
  | 0 => by simpa [absSum] using hq 0
  | n + 1 => by
    have ih := absSum_quot_le q p r hr hq n
    have h1 := hq (n + 1)
    rw [absSum]
    have h2 : absSum q r n * r ≤ (n + 1) * (n + 2) / 2 * (absSum p r n * r) := by
      rw [← mul_assoc]; exact mul_le_mul_of_nonneg_right ih hr
    have h3 : ((n : ℝ) + 1) * (n + 2) / 2 * (absSum p r n * r) ≤ (n + 1) * (n + 2) / 2 * absSum p r (n + 1) :=
      mul_le_mul_of_nonneg_left (absSum_step p r n) (by positivity)
    push_cast at h1 ⊢
    have h4 : ((n : ℝ) + 1 + 1) * (n + 1 + 2) / 2 * absSum p r (n + 1) =
      (n + 1) * (n + 2) / 2 * absSum p r (n + 1) + (n + 1 + 1) * absSum p r (n + 1) := by ring
    rw [h4]
    linarith

/-- The polynomial over the complex numbers. -/
theorem arr_map_division (u v : ℝ) (z1 z2 : ℂ) (hu : (u : ℂ) = -(z1 + z2)) (hv : (v : ℂ) = z1 * z2) (p : ℕ → ℝ) (n : ℕ) :
    (arr p (n + 2)).map Complex.ofRealHom = (X - C z1) * (X - C z2) * (arr (quadSD u v p) n).map Complex.ofRealHom +
      (C (quadSD u v p (n + 1)) * (X + C u) + C (quadSD u v p (n + 2))).map Complex.ofRealHom := by
  rw [quadSD_division u v p n]
  simp only [Polynomial.map_add, Polynomial.map_mul, Polynomial.map_pow, map_X, map_C, Complex.ofRealHom_eq_coe, hu, hv]
  simp only [C_neg, C_add, C_mul]
  ring

theorem splitsOff_two (p : ℕ → ℝ) (n : ℕ) (u v : ℝ) (h0 : p 0 ≠ 0)
    (hclose : ¬|(|(quad 1 u v).sr| - |(quad 1 u v).lr|)| > 1 / 100 * |(quad 1 u v).lr|)
    (h : AcceptsPair (n + 2) p u v (quad 1 u v)) :
    SplitsOff (arr p (n + 2)) [(quad 1 u v).s, (quad 1 u v).l] (arr (quadSD u v p) n) := by
  obtain ⟨hsum, hprod⟩ := quad_sum_prod 1 u v one_ne_zero
  obtain ⟨_, hi, _, him, hreal⟩ := quad_vieta 1 u v one_ne_zero
  simp only [div_one] at hsum hprod
  generalize quad 1 u v = z at *
  have hu : (u : ℂ) = -(z.s + z.l) := by rw [hsum]; push_cast; ring
  have hv : (v : ℂ) = z.s * z.l := hprod.symm
  set r := max ‖z.s‖ ‖z.l‖ with hr
  have hr0 : 0 ≤ r := (norm_nonneg _).trans (le_max_left _ _)
  have hd := arr_map_division u v z.s z.l hu hv p n
  set q := quadSD u v p with hqdef
  have hq : ∀ m : ℕ, |q m| ≤ (m + 1) * absSum p r m := by
    intro m
    have := hc_hc_norm_le z.s z.l p r (le_max_left _ _) (le_max_right _ _) hr0 m
    rw [← quadSD_eq_hc u v z.s z.l hu hv p m] at this
    simpa using this
  have hT := absSum_quot_le q p r hr0 hq (n + 2)
  have hzm : √|v| ≤ r := by
    apply Real.sqrt_le_iff.mpr ⟨hr0, ?_⟩
    have : |v| = ‖z.s‖ * ‖z.l‖ := by rw [← norm_mul, ← hv]; simp
    rw [this, sq]
    exact mul_le_mul (le_max_left _ _) (le_max_right _ _) (norm_nonneg _) hr0
  refine SplitsOff.two z.s z.l _ _ hd ?_ ?_ ?_
  · refine natDegree_add_le_of_degree_le ?_ ?_
    · refine natDegree_mul_le.trans ?_
      rw [natDegree_C, zero_add]
      exact (natDegree_X_add_C u).le
    · rw [natDegree_C]; omega
  · rcases hreal with hsi | hsr
    · right
      refine ⟨hsi, by show z.li = 0; linarith, ?_⟩
      have e1 : ‖z.s‖ = |z.sr| := by
        have : z.s = (z.sr : ℂ) := Complex.ext rfl hsi
        rw [this]; simp
      have e2 : ‖z.l‖ = |z.lr| := by
        have : z.l = (z.lr : ℂ) := Complex.ext rfl (by show z.li = 0; linarith)
        rw [this]; simp
      rw [e1, e2]; exact not_lt.mp hclose
    · left
      exact Complex.ext (by simp [Pair.s, Pair.l, hsr]) (by simp [Pair.s, Pair.l]; linarith)
  · rw [(arr_degree p h0 _).1, absEval_arr p h0]
    have hval : ((arr p (n + 2)).map Complex.ofRealHom).eval z.l = q (n + 2) - q (n + 1) * z.s := by
      rw [hd]
      simp only [eval_add, eval_mul, eval_sub, eval_X, eval_C, sub_self, mul_zero, zero_mul, zero_add, Polynomial.map_add,
        Polynomial.map_mul, map_X, map_C, Complex.ofRealHom_eq_coe, hu]
      ring
    have hle : ‖((arr p (n + 2)).map Complex.ofRealHom).eval z.l‖ ≤ |-(z.sr * q (n + 1)) + q (n + 2)| + |z.si * q (n + 1)| := by
      rw [hval]
      refine (Complex.norm_le_abs_re_add_abs_im _).trans (le_of_eq ?_)
      congr 1
      · simp [Pair.s]; congr 1; ring
      · simp [Pair.s, mul_comm]
    refine hle.trans ?_
    simp only [AcceptsPair, dblEpsilon] at h
    rw [show n + 2 - 1 = n + 1 from rfl] at h
    rw [← hqdef] at h
    have hz0 := Real.sqrt_nonneg |v|
    have b1 := errSum_le 2 (√|v|) q (by norm_num) hz0 (2 * |q 0|) le_rfl (n + 1)
    have b2 := absSum_mono q _ _ hz0 hzm (n + 1)
    have b3 := absSum_nonneg q _ hr0 (n + 1)
    have b4 : |q (n + 1)| ≤ absSum q r (n + 1) := by
      rw [absSum]; have := mul_nonneg (absSum_nonneg q _ hr0 n) hr0; linarith
    have hsr : |z.sr| ≤ r := (Complex.abs_re_le_norm z.s).trans (le_max_left _ _)
    have b5 : |-(z.sr * q (n + 1))| ≤ r * absSum q r (n + 1) := by
      rw [abs_neg, abs_mul]; exact mul_le_mul hsr b4 (abs_nonneg _) hr0
    have b6 : errSum (2 * |q 0|) (√|v|) q (n + 1) * √|v| ≤ 2 * (r * absSum q r (n + 1)) := by
      have : errSum (2 * |q 0|) (√|v|) q (n + 1) * √|v| ≤ 2 * absSum q r (n + 1) * √|v| :=
        mul_le_mul_of_nonneg_right (by linarith) hz0
      have : 2 * absSum q r (n + 1) * √|v| ≤ 2 * absSum q r (n + 1) * r := mul_le_mul_of_nonneg_left hzm (by linarith)
      linarith
    have b7 := abs_add_le (q (n + 2)) (-(z.sr * q (n + 1)))
    have b8 : absSum q r (n + 2) = r * absSum q r (n + 1) + |q (n + 2)| := by rw [absSum]; ring
    have b9 := abs_nonneg (q (n + 2) + -(z.sr * q (n + 1)))
    have b10 := mul_nonneg hz0 (abs_nonneg (q (n + 1)))
    refine h.trans ?_
    have h580 : (9 * (errSum (2 * |q 0|) (√|v|) q (n + 1) * √|v| + |q (n + 2) + -(z.sr * q (n + 1))|) + 2 * |-(z.sr * q (n + 1))| -
        7 * (|q (n + 2) + -(z.sr * q (n + 1))| + √|v| * |q (n + 1)|)) ≤ 29 * absSum q r (n + 2) := by
      have := abs_nonneg (q (n + 2))
      rw [b8]; linarith
    calc _ ≤ 20 * (29 * absSum q r (n + 2) * (1 / 2 ^ 52)) := by
          refine mul_le_mul_of_nonneg_left (mul_le_mul_of_nonneg_right h580 (by positivity)) (by norm_num)
      _ ≤ 20 * (29 * (((n + 2 : ℕ) + 1) * ((n + 2 : ℕ) + 2) / 2 * absSum p r (n + 2)) * (1 / 2 ^ 52)) := by
          refine mul_le_mul_of_nonneg_left (mul_le_mul_of_nonneg_right (mul_le_mul_of_nonneg_left hT (by norm_num)) (by positivity)) (by norm_num)
      _ = _ := by ring

/-! ## What the iterations end with -/

/-- The zeros passed an acceptance test and the quotient is that of the division. -/
def Good (N : ℕ) (p : ℕ → ℝ) : Stage3 → Prop
  | .one s qp => AcceptsReal N p s ∧ qp = horner s p
  | .two z qp => ∃ u v, z = quad 1 u v ∧ (¬|(|z.sr| - |z.lr|)| > 1 / 100 * |z.lr|) ∧ AcceptsPair N p u v z ∧ qp = quadSD u v p
  | _ => True

/-- Zeros were found. -/
def Found : Stage3 → Prop
  | .one _ _ => True
  | .two _ _ => True
  | _ => False

theorem realLoop_good (N : ℕ) (p : ℕ → ℝ) : ∀ n j K s t omp, Good N p (realLoop N p n j K s t omp)
  | 0, _, _, _, _, _ => trivial
  | n + 1, j, K, s, t, omp => by
    unfold realLoop
    simp only
    split_ifs with h1 h2 h3
    · exact ⟨h1, rfl⟩
    · trivial
    · trivial
    all_goals exact realLoop_good N p n _ _ _ _ _

theorem quadLoop_good (N : ℕ) (p : ℕ → ℝ) : ∀ n j tried K u v relstp omp st, quadLoop N p n j tried K u v relstp omp = .ok st → Good N p st
  | 0, _, _, _, _, _, _, _, st, h => by
    rw [quadLoop] at h; rw [← Except.ok.inj h]; trivial
  | n + 1, j, tried, K, u, v, relstp, omp, st, h => by
    unfold quadLoop at h
    simp only at h
    split at h
    · rw [← Except.ok.inj h]; trivial
    · rename_i h1
      split at h
      · rename_i h2
        rw [← Except.ok.inj h]
        exact ⟨u, v, rfl, h1, h2, rfl⟩
      · split at h
        · rw [← Except.ok.inj h]; trivial
        · split at h
          · exact absurd h (by simp)
          · split at h
            · exact quadLoop_good N p n _ _ _ _ _ _ _ st h
            · rw [← Except.ok.inj h]; trivial

theorem realIT_good (N : ℕ) (p K : ℕ → ℝ) (s : ℝ) : Good N p (realIT N p K s) := realLoop_good ..
theorem quadIT_good {N : ℕ} {p K : ℕ → ℝ} {u v : ℝ} {st : Stage3} (h : quadIT N p K u v = .ok st) : Good N p st := quadLoop_good _ _ _ _ _ _ _ _ _ _ _ h

theorem quad_then_good {N : ℕ} {p K : ℕ → ℝ} {u v : ℝ} {r : Stage3 → Retry} {st : Stage3}
    (h : (do match ← quadIT N p K u v with
      | .two z qp => return (Sum.inl (.two z qp))
      | x => return Sum.inr (r x) : Res (Stage3 ⊕ Retry)) = .ok (.inl st)) : Good N p st ∧ Found st := by
  cases hq : quadIT N p K u v with
  | error e => rw [hq] at h; exact absurd h (by intro h; cases h)
  | ok x =>
    rw [hq] at h
    have := quadIT_good hq
    cases x <;> first | (cases h; exact ⟨this, trivial⟩) | cases h

theorem tryStage3_good {N : ℕ} {p K : ℕ → ℝ} {ss ui vi : ℝ} {spass vpass rf : Bool} {bv bs : ℝ} {st : Stage3}
    (h : tryStage3 N p K ss ui vi spass vpass rf bv bs = .ok (.inl st)) : Good N p st ∧ Found st := by
  unfold tryStage3 at h
  have hr := realIT_good N p K ss
  split at h
  · cases hx : realIT N p K ss with
    | one s qp => rw [hx] at h hr; cases h; exact ⟨hr, trivial⟩
    | two s qp => rw [hx] at h hr; cases h; exact ⟨hr, trivial⟩
    | cluster s K1 =>
      rw [hx] at h
      cases vpass
      · cases h
      · exact quad_then_good (r := fun _ => ⟨K, bv * (1 / 4), bs * (1 / 4)⟩) (by
          rw [← h]; simp only [if_true]; congr 1)
    | failed K1 =>
      rw [hx] at h
      cases vpass
      · cases h
      · exact quad_then_good (r := fun _ => ⟨K, bv * (1 / 4), bs * (1 / 4)⟩) (by
          rw [← h]; simp only [if_true]; congr 1)
  · cases hq : quadIT N p K ui vi with
    | error e => rw [hq] at h; cases h
    | ok x =>
      rw [hq] at h
      have hgq := quadIT_good hq
      cases x with
      | two z qp => cases h; exact ⟨hgq, trivial⟩
      | _ =>
        cases spass
        · cases h
        · cases hx : realIT N p K ss with
          | one s qp => simp only [hx] at h hr; cases h; exact ⟨hr, trivial⟩
          | two s qp => simp only [hx] at h hr; cases h; exact ⟨hr, trivial⟩
          | cluster s K1 => simp only [hx] at h; cases h
          | failed K1 => simp only [hx] at h; cases h

theorem fxLoop_good (N : ℕ) (p : ℕ → ℝ) (u v : ℝ) : ∀ left j K bv bs ovv oss otv ots st,
    fxLoop N p u v left j K bv bs ovv oss otv ots = .ok (some st) → Good N p st ∧ Found st
  | 0, _, _, _, _, _, _, _, _, st, h => by rw [fxLoop] at h; cases h
  | left + 1, j, K, bv, bs, ovv, oss, otv, ots, st, h => by
    unfold fxLoop at h
    simp only at h
    generalize hK : nextK (calcSC N (quadSD u v p N) (quadSD u v p (N - 1)) K u v) (quadSD u v p N) (quadSD u v p (N - 1)) (quadSD u v K)
      (quadSD u v p) = K1 at h
    cases he : newest N (calcSC N (quadSD u v p N) (quadSD u v p (N - 1)) K1 u v) (quadSD u v p N) (quadSD u v p (N - 1)) u v K1 p with
    | error e => rw [he] at h; cases h
    | ok e =>
      rw [he] at h
      simp only [bind, Except.bind] at h
      generalize (if K1 (N - 1) ≠ 0 then -(p N / K1 (N - 1)) else 0) = ss at h
      generalize (if e.2 ≠ 0 then |(e.2 - ovv) / e.2| else 1) = tv at h
      generalize (if ss ≠ 0 then |(ss - oss) / ss| else 1) = ts at h
      generalize (if tv < otv then tv * otv else 1) = tvv at h
      generalize (if ts < ots then ts * ots else 1) = tss at h
      split at h
      · split at h
        · split at h
          · cases h
          · rename_i x hx
            cases x with
            | inl z => cases h; exact tryStage3_good hx
            | inr r => exact fxLoop_good N p u v left _ _ _ _ _ _ _ _ st h
        · exact fxLoop_good N p u v left _ _ _ _ _ _ _ _ st h
      · exact fxLoop_good N p u v left _ _ _ _ _ _ _ _ st h

theorem shiftLoop_good (N : ℕ) (p K : ℕ → ℝ) (bnd : ℝ) : ∀ left jj xx yy st d,
    shiftLoop N p K bnd left jj xx yy = .ok (some st, d) → Good N p st ∧ Found st
  | 0, _, _, _, st, d, h => by rw [shiftLoop] at h; cases h
  | left + 1, jj, xx, yy, st, d, h => by
    unfold shiftLoop at h
    simp only at h
    cases hf : fxshfr (20 * jj) (bnd * (-(sinr * yy) + cosr * xx)) bnd N p K with
    | error e => rw [hf] at h; cases h
    | ok o =>
      rw [hf] at h
      cases o with
      | none => exact shiftLoop_good N p K bnd left _ _ _ st d h
      | some z => cases h; exact fxLoop_good N p _ _ _ _ _ _ _ _ _ _ _ _ hf

/-! ## Scaling -/

theorem absEval_smul (k : ℝ) (hk : k ≠ 0) (P : ℝ[X]) (x : ℝ) : absEval (C k * P) x = |k| * absEval P x := by
  unfold absEval
  rw [natDegree_C_mul hk, Finset.mul_sum]
  refine Finset.sum_congr rfl fun i _ => ?_
  rw [coeff_C_mul, abs_mul]; ring

theorem splitsOff_smul {P Q : ℝ[X]} {zs : List ℂ} (k : ℝ) (hk : k ≠ 0) (h : SplitsOff P zs Q) : SplitsOff (C k * P) zs (C k * Q) := by
  have hk' : 0 < |k| := abs_pos.mpr hk
  cases h with
  | one s r Q h1 h2 =>
    refine SplitsOff.one s (k * r) _ ?_ ?_
    · rw [h1, C_mul]; ring
    · rw [eval_mul, eval_C, abs_mul, natDegree_C_mul hk, absEval_smul k hk]
      calc |k| * |eval s P| ≤ |k| * (40 / 2 ^ 52 * (P.natDegree + 1) * absEval P |s|) := mul_le_mul_of_nonneg_left h2 hk'.le
        _ = _ := by ring
  | two s l Q R h1 h2 h3 h4 =>
    refine SplitsOff.two s l _ (C k * R) ?_ ((natDegree_C_mul hk).trans_le h2) h3 ?_
    · simp only [Polynomial.map_mul, map_C, h1]; ring
    · rw [natDegree_C_mul hk, absEval_smul k hk, Polynomial.map_mul, map_C, eval_mul, eval_C, norm_mul]
      have : ‖Complex.ofRealHom k‖ = |k| := by simp
      rw [this]
      calc |k| * ‖(P.map Complex.ofRealHom).eval l‖ ≤ |k| * (290 / 2 ^ 52 * ((P.natDegree + 1) * (P.natDegree + 2)) * absEval P (max ‖s‖ ‖l‖)) :=
            mul_le_mul_of_nonneg_left h4 hk'.le
        _ = _ := by ring

theorem answer_smul {P : ℝ[X]} {zs : List ℂ} {b : Bool} (k : ℝ) (hk : k ≠ 0) (h : Answer P zs b) : Answer (C k * P) zs b := by
  induction h with
  | @origin Q zs b _ ih =>
    have : C k * (X * Q) = X * (C k * Q) := by ring
    rw [this]; exact .origin ih
  | exact P zs h0 h1 h2 =>
    refine .exact _ _ (mul_ne_zero (C_ne_zero.mpr hk) h0) ((natDegree_C_mul hk).trans_le h1) ?_
    rw [Polynomial.map_mul, map_C, h2, leadingCoeff_mul, leadingCoeff_C]
    simp only [Complex.ofRealHom_eq_coe, Complex.ofReal_mul, C_mul]; ring
  | split h1 h2 h3 h4 _ ih =>
    refine .split (by rwa [natDegree_C_mul hk]) (splitsOff_smul k hk h2) (by rwa [natDegree_C_mul hk, natDegree_C_mul hk]) ?_ ih
    rw [leadingCoeff_mul, leadingCoeff_mul, h4]
  | gaveUp P h => exact .gaveUp _ (by rwa [natDegree_C_mul hk])

theorem scaleFactor_ne_zero (N : ℕ) (p : ℕ → ℝ) : scaleFactor N p ≠ 0 := by
  unfold scaleFactor
  simp only
  split
  · exact zpow_ne_zero _ two_ne_zero
  · exact one_ne_zero

/-! ## The main loop -/

theorem quad_answer (p : ℕ → ℝ) (h0 : p 0 ≠ 0) :
    Answer (arr p 2) [(quad (p 0) (p 1) (p 2)).s, (quad (p 0) (p 1) (p 2)).l] true := by
  obtain ⟨hd, hl, hn⟩ := arr_degree p h0 2
  refine .exact _ _ hn hd.le ?_
  rw [hl]
  have := quad_factors (p 0) (p 1) (p 2) h0
  simp only [List.map_cons, List.map_nil, List.prod_cons, List.prod_nil, mul_one, this]
  simp only [arr, Polynomial.map_add, Polynomial.map_mul, map_X, map_C, Complex.ofRealHom_eq_coe]
  ring

theorem linear_answer (p : ℕ → ℝ) (h0 : p 0 ≠ 0) : Answer (arr p 1) [((-(p 1 / p 0) : ℝ) : ℂ)] true := by
  obtain ⟨hd, hl, hn⟩ := arr_degree p h0 1
  refine .exact _ _ hn (by omega) ?_
  rw [hl]
  simp only [List.map_cons, List.map_nil, List.prod_cons, List.prod_nil, mul_one]
  simp only [arr, Polynomial.map_add, Polynomial.map_mul, map_X, map_C, Complex.ofRealHom_eq_coe]
  rw [mul_sub, ← C_mul]
  have h0' : (p 0 : ℂ) ≠ 0 := by exact_mod_cast h0
  have : (p 0 : ℂ) * ((-(p 1 / p 0) : ℝ) : ℂ) = -(p 1 : ℂ) := by push_cast; field_simp
  rw [this, C_neg]; ring

theorem constant_answer (p : ℕ → ℝ) (h0 : p 0 ≠ 0) : Answer (arr p 0) [] true := by
  obtain ⟨hd, hl, hn⟩ := arr_degree p h0 0
  refine .exact _ _ hn (by omega) ?_
  rw [hl]; simp [arr]

theorem toC_pair_s (z : Pair) : toC (z.sr, z.si) = z.s := rfl
theorem toC_pair_l (z : Pair) : toC (z.lr, z.li) = z.l := rfl
theorem toC_real (s : ℝ) : toC (s, 0) = (s : ℂ) := rfl

theorem mainLoop_answer (fuel : ℕ) : ∀ n N p xx yy zs, N < n → p 0 ≠ 0 → mainLoop fuel n N p xx yy = .ok zs →
    ∃ b, Answer (arr p N) (zs.map toC) b
  | 0, _, _, _, _, _, h, _, _ => absurd h (Nat.not_lt_zero _)
  | n + 1, N, p, xx, yy, zs, hn, h0, h => by
    unfold mainLoop at h
    split at h
    · rename_i hN
      have : N = 0 := by omega
      subst this
      cases h
      exact ⟨_, constant_answer p h0⟩
    · split at h
      · have : N = 1 := by omega
        subst this
        cases h
        exact ⟨_, by simpa [toC_real] using linear_answer p h0⟩
      · split at h
        · rename_i hN; subst hN
          cases h
          exact ⟨_, quad_answer p h0⟩
        · have hN : 3 ≤ N := by omega
          simp only at h
          set k := scaleFactor N p with hk
          have hk0 : k ≠ 0 := scaleFactor_ne_zero N p
          set p' : ℕ → ℝ := fun i => p i * k with hp'
          have h0' : p' 0 ≠ 0 := mul_ne_zero h0 hk0
          have hd := arr_degree p' h0'
          suffices ∃ b, Answer (arr p' N) (zs.map toC) b by
            obtain ⟨b, hb⟩ := this
            refine ⟨b, ?_⟩
            have := answer_smul k⁻¹ (inv_ne_zero hk0) hb
            rwa [hp', arr_mul, ← mul_assoc, ← C_mul, inv_mul_cancel₀ hk0, C_1, one_mul] at this
          cases hb : lowerBound fuel N p' with
          | error e => rw [hb] at h; cases h
          | ok bnd =>
            rw [hb] at h
            simp only [bind, Except.bind] at h
            cases hs : shiftLoop N p' (startK N p') bnd 20 1 xx yy with
            | error e => rw [hs] at h; cases h
            | ok r =>
              rw [hs] at h
              obtain ⟨o, d⟩ := r
              obtain ⟨M, rfl⟩ : ∃ M, N = M + 3 := ⟨N - 3, by omega⟩
              cases o with
              | none => cases h; exact ⟨_, .gaveUp _ (by rw [(hd _).1]; exact hN)⟩
              | some st =>
                obtain ⟨hg, hf⟩ := shiftLoop_good _ _ _ _ _ _ _ _ _ _ hs
                cases st with
                | one s qp =>
                  simp only [pure, Except.pure] at h
                  obtain ⟨hacc, rfl⟩ := hg
                  split at h
                  · cases h
                  · rename_i zs' hm
                    cases h
                    have hq0 : horner s p' 0 ≠ 0 := h0'
                    obtain ⟨b, ih⟩ := mainLoop_answer fuel n _ _ _ _ _ (by omega) hq0 hm
                    refine ⟨b, Answer.split (by rw [(hd _).1]; exact hN) (splitsOff_one p' (M + 2) s h0' hacc) ?_ ?_ ih⟩
                    · rw [(hd _).1, (arr_degree _ hq0 _).1]; rfl
                    · rw [(hd _).2.1, (arr_degree _ hq0 _).2.1]; rfl
                | two z qp =>
                  simp only [pure, Except.pure] at h
                  obtain ⟨u, v, rfl, hclose, hacc, rfl⟩ := hg
                  split at h
                  · cases h
                  · rename_i zs' hm
                    cases h
                    have hq0 : quadSD u v p' 0 ≠ 0 := h0'
                    obtain ⟨b, ih⟩ := mainLoop_answer fuel n _ _ _ _ _ (by omega) hq0 hm
                    refine ⟨b, Answer.split (by rw [(hd _).1]; exact hN) (splitsOff_two p' (M + 1) u v h0' hclose hacc) ?_ ?_ ih⟩
                    · rw [(hd _).1, (arr_degree _ hq0 _).1]; rfl
                    · rw [(hd _).2.1, (arr_degree _ hq0 _).2.1]; rfl
                | cluster s K => exact absurd hf id
                | failed K => exact absurd hf id

end Verif.RPoly
