import Mathlib.Analysis.SpecificLimits.Basic
import Mathlib.Topology.Order.OrderClosed
import Mathlib.Analysis.SpecialFunctions.Pow.Real
import Verif.Lemmas.RPoly

/-!
# The loops of the root finder that no counter bounds

The interval is chopped until the value is not positive; Newton's iteration from a point where the value is not negative decreases towards the positive zero.
-/

namespace Verif.RPoly

theorem horner_continuous (q : ℕ → ℝ) : ∀ n, Continuous fun x => horner x q n
  | 0 => continuous_const
  | n + 1 => ((horner_continuous q n).mul continuous_id).add continuous_const

theorem horner_zero (q : ℕ → ℝ) : ∀ n, horner 0 q n = q n
  | 0 => rfl
  | n + 1 => by simp [horner]

theorem chop_mono (N : ℕ) (pt : ℕ → ℝ) : ∀ f x y k, chop N pt f x = .ok y → chop N pt (f + k) x = .ok y
  | 0, x, y, k, h => by rw [chop] at h; cases h
  | f + 1, x, y, k, h => by
    rw [chop] at h
    rw [show f + 1 + k = (f + k) + 1 by omega, chop]
    split at h
    · rw [if_pos (by assumption)]; exact chop_mono N pt f _ y k h
    · rw [if_neg (by assumption)]; exact h

theorem newton_mono (N : ℕ) (pt : ℕ → ℝ) : ∀ f x dx r k, newton N pt f x dx = r → r ≠ .error .hang → newton N pt (f + k) x dx = r
  | 0, x, dx, r, k, h, hr => by rw [newton] at h; exact absurd h.symm hr
  | f + 1, x, dx, r, k, h, hr => by
    rw [newton] at h
    rw [show f + 1 + k = (f + k) + 1 by omega, newton]
    split at h
    · rw [if_pos (by assumption)]
      simp only at h ⊢
      split at h
      · rw [if_pos (by assumption)]; exact h
      · rw [if_neg (by assumption)]; exact newton_mono N pt f _ _ r k h hr
    · rw [if_neg (by assumption)]; exact h

/-- Chopping ends when the value at 0 is negative, and keeps the value at the point it ends with non-negative. -/
theorem chop_ends (N : ℕ) (pt : ℕ → ℝ) (h : pt N < 0) (x : ℝ) : ∃ f y, chop N pt f x = .ok y := by
  have h1 : Filter.Tendsto (fun k : ℕ => (1 / 10 : ℝ) ^ k * x) Filter.atTop (nhds 0) := by
    have := (tendsto_pow_atTop_nhds_zero_of_lt_one (r := (1 / 10 : ℝ)) (by norm_num) (by norm_num)).mul_const x
    rwa [zero_mul] at this
  have h2 := ((horner_continuous pt N).tendsto 0).comp h1
  rw [horner_zero] at h2
  obtain ⟨k, hk⟩ := (h2.eventually_lt_const h).exists_forall_of_atTop
  have key : ∀ m j : ℕ, j + m = k → ∃ f y, chop N pt f ((1 / 10 : ℝ) ^ j * x) = .ok y := by
    intro m
    induction m with
    | zero =>
      intro j hj
      refine ⟨1, (1 / 10 : ℝ) ^ j * x, ?_⟩
      rw [chop, if_neg]
      have := hk (j + 1) (by omega)
      simp only [Function.comp] at this
      rw [← mul_assoc, ← pow_succ']
      exact not_lt.mpr this.le
    | succ m ih =>
      intro j hj
      obtain ⟨f, y, hf⟩ := ih (j + 1) (by omega)
      by_cases hp : horner (1 / 10 * ((1 / 10 : ℝ) ^ j * x)) pt N > 0
      · refine ⟨f + 1, y, ?_⟩
        rw [chop, if_pos hp, ← mul_assoc, ← pow_succ']; exact hf
      · exact ⟨1, _, by rw [chop, if_neg hp]⟩
  simpa using key k 0 (by omega)

theorem chop_keeps (N : ℕ) (pt : ℕ → ℝ) : ∀ f x y, 0 < x → 0 ≤ horner x pt N → chop N pt f x = .ok y → 0 < y ∧ 0 ≤ horner y pt N
  | 0, x, y, _, _, h => by rw [chop] at h; cases h
  | f + 1, x, y, hx, hv, h => by
    rw [chop] at h
    split at h
    · rename_i hp
      exact chop_keeps N pt f _ y (by linarith) hp.le h
    · cases h; exact ⟨hx, hv⟩

theorem hornerDeriv_fst (x : ℝ) (q : ℕ → ℝ) : ∀ n, (hornerDeriv x q n).1 = horner x q n
  | 0 => rfl
  | n + 1 => by simp only [hornerDeriv, horner, hornerDeriv_fst x q n]; ring

theorem horner_nonneg (x : ℝ) (q : ℕ → ℝ) (hx : 0 ≤ x) : ∀ n, (∀ i ≤ n, 0 ≤ q i) → 0 ≤ horner x q n
  | 0, h => h 0 le_rfl
  | n + 1, h => add_nonneg (mul_nonneg (horner_nonneg x q hx n fun i hi => h i (by omega)) hx) (h _ le_rfl)

theorem hornerDeriv_nonneg (x : ℝ) (q : ℕ → ℝ) (hx : 0 ≤ x) : ∀ n, (∀ i ≤ n, 0 ≤ q i) → 0 ≤ (hornerDeriv x q n).2
  | 0, h => h 0 le_rfl
  | n + 1, h => by
    have h1 := hornerDeriv_nonneg x q hx n fun i hi => h i (by omega)
    have h2 := horner_nonneg x q hx (n + 1) h
    have h3 := hornerDeriv_fst x q (n + 1)
    simp only [hornerDeriv] at h3 ⊢
    rw [h3]; positivity

theorem hornerDeriv_pos (x : ℝ) (q : ℕ → ℝ) (hx : 0 < x) (h0 : 0 < q 0) : ∀ n, (∀ i ≤ n, 0 ≤ q i) → 0 < (hornerDeriv x q n).2
  | 0, _ => h0
  | n + 1, h => by
    have h1 := hornerDeriv_pos x q hx h0 n fun i hi => h i (by omega)
    have h2 := horner_nonneg x q hx.le (n + 1) h
    have h3 := hornerDeriv_fst x q (n + 1)
    simp only [hornerDeriv] at h3 ⊢
    rw [h3]; positivity

/-- The polynomial lies above its tangents. -/
theorem tangent (x r : ℝ) (q : ℕ → ℝ) (hx : 0 ≤ x) (hr : 0 ≤ r) :
    ∀ n, (∀ i ≤ n, 0 ≤ q i) → horner x q (n + 1) + (hornerDeriv x q n).2 * (r - x) ≤ horner r q (n + 1)
  | 0, _ => by simp only [horner, hornerDeriv]; linarith
  | n + 1, h => by
    have hn : ∀ i ≤ n, 0 ≤ q i := fun i hi => h i (by omega)
    have ih := tangent x r q hx hr n hn
    have h1 := hornerDeriv_nonneg x q hx n hn
    have h3 := hornerDeriv_fst x q (n + 1)
    have e1 : horner x q (n + 1 + 1) = horner x q (n + 1) * x + q (n + 2) := rfl
    have e2 : horner r q (n + 1 + 1) = horner r q (n + 1) * r + q (n + 2) := rfl
    have e3 : (hornerDeriv x q (n + 1)).2 = x * (hornerDeriv x q n).2 + horner x q (n + 1) := by
      rw [← h3]; simp only [hornerDeriv]
    rw [e1, e2, e3]
    have h4 := mul_le_mul_of_nonneg_right ih hr
    nlinarith [mul_nonneg h1 (sq_nonneg (r - x))]

/-- One Newton step from a positive point with a non-negative value stays right of any `δ` with negative value, and keeps the value non-negative. -/
theorem newton_step (n : ℕ) (q : ℕ → ℝ) (hq : ∀ i ≤ n, 0 ≤ q i) (h0 : 0 < q 0) (δ : ℝ) (hδ : 0 < δ) (hneg : horner δ q (n + 1) < 0) (x : ℝ) (hx : 0 < x)
    (hv : 0 ≤ horner x q (n + 1)) :
    δ < x - horner x q (n + 1) / (hornerDeriv x q n).2 ∧ 0 ≤ horner (x - horner x q (n + 1) / (hornerDeriv x q n).2) q (n + 1) ∧
      0 ≤ horner x q (n + 1) / (hornerDeriv x q n).2 := by
  have hD := hornerDeriv_pos x q hx h0 n hq
  have h1 := tangent x δ q hx.le hδ.le n hq
  set D := (hornerDeriv x q n).2
  set v := horner x q (n + 1)
  have h2 : δ < x - v / D := by
    have : v / D < x - δ := by rw [div_lt_iff₀ hD]; linarith
    linarith
  refine ⟨h2, ?_, by positivity⟩
  have h3 := tangent x (x - v / D) q hx.le (by linarith) n hq
  have : D * (x - v / D - x) = -v := by field_simp; ring
  linarith

theorem newton_ends (n : ℕ) (q : ℕ → ℝ) (hq : ∀ i ≤ n, 0 ≤ q i) (h0 : 0 < q 0) (δ : ℝ) (hδ : 0 < δ) (hneg : horner δ q (n + 1) < 0) :
    ∀ (m : ℕ) (x dx : ℝ), 0 < x → 0 ≤ horner x q (n + 1) → x < δ + m * (5 / 1000 * δ) → ∃ y, newton (n + 1) q (m + 2) x dx = .ok y ∧ 0 < y := by
  intro m
  induction m with
  | zero =>
    intro x dx hx hv hm
    have hD := hornerDeriv_pos x q hx h0 n hq
    rw [newton]
    split
    · obtain ⟨h1, h2, h3⟩ := newton_step n q hq h0 δ hδ hneg x hx hv
      simp at hm
      linarith
    · exact ⟨x, rfl, hx⟩
  | succ m ih =>
    intro x dx hx hv hm
    have hD := hornerDeriv_pos x q hx h0 n hq
    rw [newton]
    split
    · obtain ⟨h1, h2, h3⟩ := newton_step n q hq h0 δ hδ hneg x hx hv
      have e : x * (hornerDeriv x q (n + 1 - 1)).1 + q (n + 1) = horner x q (n + 1) := by
        rw [hornerDeriv_fst, horner]; simp [mul_comm]
      simp only [show n + 1 - 1 = n from rfl] at e ⊢
      rw [if_neg hD.ne', e]
      set d := horner x q (n + 1) / (hornerDeriv x q n).2
      by_cases hs : x - d ≠ 0 ∧ |d / (x - d)| > 5 / 1000
      · refine ih _ d (by linarith) h2 ?_
        have hpos : 0 < x - d := by linarith
        have : d / (x - d) > 5 / 1000 := by rw [← abs_of_nonneg (div_nonneg h3 hpos.le)]; exact hs.2
        rw [gt_iff_lt, lt_div_iff₀ hpos] at this
        push_cast at hm
        nlinarith
      · refine ⟨x - d, ?_, by linarith⟩
        rw [newton, if_neg hs]
    · exact ⟨x, rfl, hx⟩

theorem moduli_nonneg (N : ℕ) (p : ℕ → ℝ) (i : ℕ) (h : i < N) : 0 ≤ moduli N p i := by
  unfold moduli; rw [if_neg (by omega)]; exact abs_nonneg _

theorem horner_ge_last (x : ℝ) (q : ℕ → ℝ) (hx : 0 ≤ x) (n : ℕ) (h : ∀ i ≤ n, 0 ≤ q i) : q n * x + q (n + 1) ≤ horner x q (n + 1) := by
  rw [horner]
  have : q n ≤ horner x q n := by
    cases n with
    | zero => exact le_rfl
    | succ n =>
      rw [horner]
      have := mul_nonneg (horner_nonneg x q hx n fun i hi => h i (by omega)) hx
      linarith
  have := mul_le_mul_of_nonneg_right this hx
  linarith

theorem horner_ge_first (x : ℝ) (q : ℕ → ℝ) (hx : 0 ≤ x) : ∀ n, (∀ i ≤ n, 0 ≤ q i) → q 0 * x ^ n ≤ horner x q n
  | 0, _ => by simp [horner]
  | n + 1, h => by
    have h1 := horner_ge_first x q hx n fun i hi => h i (by omega)
    rw [horner, pow_succ, ← mul_assoc]
    have := mul_le_mul_of_nonneg_right h1 hx
    have := h (n + 1) le_rfl
    linarith

/-- The upper estimate is positive and the value there is not negative. -/
theorem upperEstimate_spec (n : ℕ) (p : ℕ → ℝ) (h0 : p 0 ≠ 0) (hN : p (n + 1) ≠ 0) :
    0 < upperEstimate (n + 1) p ∧ 0 ≤ horner (upperEstimate (n + 1) p) (moduli (n + 1) p) (n + 1) := by
  have hq : ∀ i ≤ n, 0 ≤ moduli (n + 1) p i := fun i hi => moduli_nonneg _ p i (by omega)
  have e0 : moduli (n + 1) p 0 = |p 0| := by unfold moduli; rw [if_neg (by omega)]
  have eN : moduli (n + 1) p (n + 1) = -|p (n + 1)| := by unfold moduli; rw [if_pos rfl]
  have a0 := abs_pos.mpr h0
  have aN := abs_pos.mpr hN
  set x := Real.exp ((Real.log (-moduli (n + 1) p (n + 1)) - Real.log (moduli (n + 1) p 0)) / ((n + 1 : ℕ) : ℝ)) with hx
  have hxpos : 0 < x := Real.exp_pos _
  have hxv : 0 ≤ horner x (moduli (n + 1) p) (n + 1) := by
    have h1 := horner_ge_first x (moduli (n + 1) p) hxpos.le n hq
    have h2 : moduli (n + 1) p 0 * x ^ n * x ≤ horner x (moduli (n + 1) p) n * x := mul_le_mul_of_nonneg_right h1 hxpos.le
    rw [horner, eN]
    have h3 : x ^ (n + 1) = |p (n + 1)| / |p 0| := by
      rw [hx, ← Real.exp_nat_mul, mul_div_cancel₀ _ (by positivity), Real.exp_sub, eN, e0, neg_neg, Real.exp_log aN, Real.exp_log a0]
    have h4 : moduli (n + 1) p 0 * x ^ n * x = |p (n + 1)| := by
      rw [mul_assoc, ← pow_succ, h3, e0]; field_simp
    linarith
  unfold upperEstimate
  simp only [if_neg hN]
  rw [show n + 1 - 1 = n from rfl, ← hx]
  split
  · rename_i hn
    have hn' : 0 < moduli (n + 1) p n := lt_of_le_of_ne (hq n le_rfl) (Ne.symm hn)
    have hxm : 0 < -moduli (n + 1) p (n + 1) / moduli (n + 1) p n := by rw [eN, neg_neg]; positivity
    split
    · refine ⟨hxm, ?_⟩
      have := horner_ge_last _ (moduli (n + 1) p) hxm.le n hq
      rw [mul_div_cancel₀ _ hn] at this
      linarith
    · exact ⟨hxpos, hxv⟩
  · exact ⟨hxpos, hxv⟩

theorem upperEstimate_zero (n : ℕ) (p : ℕ → ℝ) (hN : p (n + 1) = 0) : upperEstimate (n + 1) p = 0 := by
  unfold upperEstimate
  have eN : moduli (n + 1) p (n + 1) = 0 := by unfold moduli; rw [if_pos rfl, hN]; simp
  simp only [if_pos hN, eN, neg_zero, zero_div, lt_self_iff_false, ite_self]

/-- The lower bound is computed within a number of rounds that depends on the polynomial only; it is positive unless the constant coefficient is zero. -/
theorem lowerBound_ends (n : ℕ) (p : ℕ → ℝ) (h0 : p 0 ≠ 0) :
    ∃ F y, (∀ fuel ≥ F, lowerBound fuel (n + 1) p = .ok y) ∧ 0 ≤ y ∧ (p (n + 1) ≠ 0 → 0 < y) := by
  have hq : ∀ i ≤ n, 0 ≤ moduli (n + 1) p i := fun i hi => moduli_nonneg _ p i (by omega)
  have e0 : moduli (n + 1) p 0 = |p 0| := by unfold moduli; rw [if_neg (by omega)]
  have eN : moduli (n + 1) p (n + 1) = -|p (n + 1)| := by unfold moduli; rw [if_pos rfl]
  have a0 : 0 < moduli (n + 1) p 0 := by rw [e0]; exact abs_pos.mpr h0
  by_cases hN : p (n + 1) = 0
  · refine ⟨1, 0, ?_, le_rfl, fun h => absurd hN h⟩
    intro fuel hf
    obtain ⟨f, rfl⟩ : ∃ f, fuel = f + 1 := ⟨fuel - 1, by omega⟩
    unfold lowerBound
    rw [upperEstimate_zero n p hN, chop, if_neg]
    · simp only [bind, Except.bind]; rw [newton, if_neg (by simp)]
    · rw [mul_zero, horner_zero, eN, hN]; simp
  · have hneg : moduli (n + 1) p (n + 1) < 0 := by rw [eN]; exact neg_neg_of_pos (abs_pos.mpr hN)
    obtain ⟨hx, hv⟩ := upperEstimate_spec n p h0 hN
    obtain ⟨f, y, hf⟩ := chop_ends (n + 1) _ hneg (upperEstimate (n + 1) p)
    obtain ⟨hy, hvy⟩ := chop_keeps _ _ _ _ _ hx hv hf
    obtain ⟨δ, hδ, hδn⟩ : ∃ δ : ℝ, 0 < δ ∧ horner δ (moduli (n + 1) p) (n + 1) < 0 := by
      have h2 := (horner_continuous (moduli (n + 1) p) (n + 1)).tendsto 0
      rw [horner_zero] at h2
      have h3 := h2.eventually_lt_const hneg
      obtain ⟨ε, hε, hb⟩ := Metric.eventually_nhds_iff.mp h3
      exact ⟨ε / 2, by positivity, hb (by rw [Real.dist_eq, sub_zero, abs_of_pos (by positivity)]; linarith)⟩
    obtain ⟨m, hm⟩ := exists_nat_gt ((y - δ) / (5 / 1000 * δ))
    rw [div_lt_iff₀ (by positivity)] at hm
    obtain ⟨r, hr, hrp⟩ := newton_ends n _ hq a0 δ hδ hδn m y y hy hvy (by linarith)
    refine ⟨f + (m + 2), r, ?_, hrp.le, fun _ => hrp⟩
    intro fuel hfu
    unfold lowerBound
    obtain ⟨k, rfl⟩ : ∃ k, fuel = f + k := ⟨fuel - f, by omega⟩
    rw [chop_mono _ _ _ _ _ k hf]
    simp only [bind, Except.bind]
    obtain ⟨k', hk'⟩ : ∃ k', f + k = m + 2 + k' := ⟨f + k - (m + 2), by omega⟩
    rw [hk', newton_mono _ _ _ _ _ _ k' hr (by simp)]

/-- The only way for the iterations to fail is a zero constant coefficient. -/
def OnlyZeroConstant (N : ℕ) (p : ℕ → ℝ) {α : Type} (r : Res α) : Prop := ∀ e, r = .error e → e = .nonfinite ∧ p N = 0

theorem newest_error (N : ℕ) (sc : Scalars) (a b u v : ℝ) (K p : ℕ → ℝ) : OnlyZeroConstant N p (newest N sc a b u v K p) := by
  unfold newest OnlyZeroConstant
  simp only
  generalize (if sc.flag ≠ 2 then a + u * b + sc.h * sc.f else (a + sc.g) * sc.f + sc.h) = a4
  generalize (if sc.flag ≠ 2 then sc.c + (u + v * sc.f) * sc.d else (sc.f + u) * sc.c + v * sc.d) = a5
  intro e
  split
  · exact nofun
  · split
    · rename_i h; intro he; cases he; exact ⟨rfl, h⟩
    · split <;> exact nofun

theorem quadLoop_error (N : ℕ) (p : ℕ → ℝ) : ∀ n j tried K u v relstp omp, OnlyZeroConstant N p (quadLoop N p n j tried K u v relstp omp)
  | 0, _, _, _, _, _, _, _ => by rw [quadLoop]; exact nofun
  | n + 1, j, tried, K, u, v, relstp, omp => by
    intro err
    unfold quadLoop
    simp only
    split
    · exact nofun
    · split
      · exact nofun
      · split
        · exact nofun
        · split
          · rename_i h; intro e; cases e; exact newest_error _ _ _ _ _ _ _ _ _ h
          · split
            · exact quadLoop_error N p n _ _ _ _ _ _ _ err
            · exact nofun

theorem tryStage3_error (N : ℕ) (p K : ℕ → ℝ) (ss ui vi : ℝ) (spass vpass rf : Bool) (bv bs : ℝ) :
    OnlyZeroConstant N p (tryStage3 N p K ss ui vi spass vpass rf bv bs) := by
  have hquad : ∀ (K : ℕ → ℝ) (u v : ℝ), OnlyZeroConstant N p (quadIT N p K u v) := fun K u v => quadLoop_error N p 42 0 false K u v 0 0
  intro err
  unfold tryStage3
  split
  · cases realIT N p K ss with
    | one s qp => exact nofun
    | two s qp => exact nofun
    | cluster s K1 =>
      cases vpass
      · exact nofun
      · simp only [if_true, bind, Except.bind]
        cases hq : quadIT N p K1 (-(s + s)) (s * s) with
        | error e => simp only; intro h; cases h; exact hquad _ _ _ _ hq
        | ok x => cases x <;> exact nofun
    | failed K1 =>
      cases vpass
      · exact nofun
      · simp only [if_true, bind, Except.bind]
        cases hq : quadIT N p K ui vi with
        | error e => simp only; intro h; cases h; exact hquad _ _ _ _ hq
        | ok x => cases x <;> exact nofun
  · simp only [bind, Except.bind]
    cases hq : quadIT N p K ui vi with
    | error e => simp only; intro h; cases h; exact hquad _ _ _ _ hq
    | ok x =>
      cases x with
      | two z qp => exact nofun
      | _ =>
        cases spass
        · exact nofun
        · cases hx : realIT N p K ss <;> (simp only [if_true]; exact nofun)

theorem fxLoop_error (N : ℕ) (p : ℕ → ℝ) (u v : ℝ) : ∀ left j K bv bs ovv oss otv ots,
    OnlyZeroConstant N p (fxLoop N p u v left j K bv bs ovv oss otv ots)
  | 0, _, _, _, _, _, _, _, _ => by rw [fxLoop]; exact nofun
  | left + 1, j, K, bv, bs, ovv, oss, otv, ots => by
    intro err
    unfold fxLoop
    simp only
    generalize hK : nextK (calcSC N (quadSD u v p N) (quadSD u v p (N - 1)) K u v) (quadSD u v p N) (quadSD u v p (N - 1)) (quadSD u v K)
      (quadSD u v p) = K1
    cases he : newest N (calcSC N (quadSD u v p N) (quadSD u v p (N - 1)) K1 u v) (quadSD u v p N) (quadSD u v p (N - 1)) u v K1 p with
    | error e => intro h; cases h; exact newest_error _ _ _ _ _ _ _ _ _ he
    | ok e =>
      simp only [bind, Except.bind]
      generalize (if K1 (N - 1) ≠ 0 then -(p N / K1 (N - 1)) else 0) = ss
      generalize (if e.2 ≠ 0 then |(e.2 - ovv) / e.2| else 1) = tv
      generalize (if ss ≠ 0 then |(ss - oss) / ss| else 1) = ts
      generalize (if tv < otv then tv * otv else 1) = tvv
      generalize (if ts < ots then ts * ots else 1) = tss
      split
      · split
        · split
          · rename_i h; intro e; cases e; exact tryStage3_error _ _ _ _ _ _ _ _ _ _ _ _ h
          · rename_i x hx
            cases x with
            | inl z => exact nofun
            | inr r => exact fxLoop_error N p u v left _ _ _ _ _ _ _ _ err
        · exact fxLoop_error N p u v left _ _ _ _ _ _ _ _ err
      · exact fxLoop_error N p u v left _ _ _ _ _ _ _ _ err

theorem shiftLoop_error (N : ℕ) (p K : ℕ → ℝ) (bnd : ℝ) : ∀ left jj xx yy, OnlyZeroConstant N p (shiftLoop N p K bnd left jj xx yy)
  | 0, _, _, _ => by rw [shiftLoop]; exact nofun
  | left + 1, jj, xx, yy => by
    intro err
    unfold shiftLoop
    simp only
    cases hf : fxshfr (20 * jj) (bnd * (-(sinr * yy) + cosr * xx)) bnd N p K with
    | error e => intro h; cases h; exact fxLoop_error _ _ _ _ _ _ _ _ _ _ _ _ _ _ hf
    | ok o =>
      cases o with
      | none => exact shiftLoop_error N p K bnd left _ _ _ err
      | some z => exact nofun

/-- The main loop ends, with an answer that does not depend on the number of rounds granted to the inner loops. It fails only when a constant coefficient
becomes zero, which takes a division: not for a polynomial of degree at most three that has no zero at the origin. -/
theorem mainLoop_ends : ∀ n N p xx yy, p 0 ≠ 0 → ∃ F r, (∀ fuel ≥ F, mainLoop fuel n N p xx yy = r) ∧
    ∀ e, r = .error e → e = .nonfinite ∧ (N ≤ 3 → p N = 0 ∧ N = 3)
  | 0, _, _, _, _, _ => ⟨0, .ok [], fun _ _ => rfl, nofun⟩
  | n + 1, N, p, xx, yy, h0 => by
    by_cases hN1 : N < 1
    · exact ⟨0, .ok [], fun _ _ => by rw [mainLoop, if_pos hN1], nofun⟩
    by_cases hN2 : N < 2
    · exact ⟨0, .ok [(-(p 1 / p 0), 0)], fun _ _ => by rw [mainLoop, if_neg hN1, if_pos hN2], nofun⟩
    by_cases hN3 : N = 2
    · exact ⟨0, .ok [((quad (p 0) (p 1) (p 2)).sr, (quad (p 0) (p 1) (p 2)).si), ((quad (p 0) (p 1) (p 2)).lr, (quad (p 0) (p 1) (p 2)).li)],
        fun _ _ => by rw [mainLoop, if_neg hN1, if_neg hN2, if_pos hN3], nofun⟩
    obtain ⟨M, rfl⟩ : ∃ M, N = M + 3 := ⟨N - 3, by omega⟩
    set k := scaleFactor (M + 3) p with hk
    have hk0 : k ≠ 0 := scaleFactor_ne_zero _ p
    set p' : ℕ → ℝ := fun i => p i * k with hp'
    have h0' : p' 0 ≠ 0 := mul_ne_zero h0 hk0
    obtain ⟨F, y, hF, _⟩ := lowerBound_ends (M + 2) p' h0'
    have hstep : ∀ fuel ≥ F, mainLoop fuel (n + 1) (M + 3) p xx yy = (do
      let r ← shiftLoop (M + 3) p' (startK (M + 3) p') y 20 1 xx yy
      match r.1 with
      | some (.one s qp) => do
        let zs ← mainLoop fuel n (M + 3 - 1) qp r.2.1 r.2.2
        return (s, 0) :: zs
      | some (.two z qp) => do
        let zs ← mainLoop fuel n (M + 3 - 2) qp r.2.1 r.2.2
        return (z.sr, z.si) :: (z.lr, z.li) :: zs
      | _ => .ok []) := by
      intro fuel hfu
      rw [mainLoop, if_neg hN1, if_neg hN2, if_neg hN3]
      simp only
      rw [← hk, hF fuel hfu]
      rfl
    cases hs : shiftLoop (M + 3) p' (startK (M + 3) p') y 20 1 xx yy with
    | error e =>
      refine ⟨F, .error e, fun fuel hfu => by rw [hstep fuel hfu, hs]; rfl, ?_⟩
      intro e' h; cases h
      obtain ⟨h1, h2⟩ := shiftLoop_error _ _ _ _ _ _ _ _ _ hs
      exact ⟨h1, fun hM => ⟨(mul_eq_zero.mp h2).resolve_right hk0, by omega⟩⟩
    | ok r =>
      obtain ⟨o, d⟩ := r
      cases o with
      | none => exact ⟨F, .ok [], fun fuel hfu => by rw [hstep fuel hfu, hs]; rfl, nofun⟩
      | some st =>
        obtain ⟨hg, hf⟩ := shiftLoop_good _ _ _ _ _ _ _ _ _ _ hs
        cases st with
        | one s qp =>
          obtain ⟨_, rfl⟩ := hg
          obtain ⟨F', r, hr, hrh⟩ := mainLoop_ends n (M + 3 - 1) (horner s p') d.1 d.2 h0'
          refine ⟨max F F', (do let zs ← r; return (s, 0) :: zs), fun fuel hfu => ?_, ?_⟩
          · rw [hstep fuel ((le_max_left _ _).trans hfu), hs, ← hr fuel ((le_max_right _ _).trans hfu)]; rfl
          · cases r with
            | error e =>
              intro e' h; cases h
              obtain ⟨h1, h2⟩ := hrh e rfl
              exact ⟨h1, fun hM => by have := (h2 (by omega)).2; omega⟩
            | ok zs => exact nofun
        | two z qp =>
          obtain ⟨u, v, _, _, _, rfl⟩ := hg
          obtain ⟨F', r, hr, hrh⟩ := mainLoop_ends n (M + 3 - 2) (quadSD u v p') d.1 d.2 h0'
          refine ⟨max F F', (do let zs ← r; return (z.sr, z.si) :: (z.lr, z.li) :: zs), fun fuel hfu => ?_, ?_⟩
          · rw [hstep fuel ((le_max_left _ _).trans hfu), hs, ← hr fuel ((le_max_right _ _).trans hfu)]; rfl
          · cases r with
            | error e =>
              intro e' h; cases h
              obtain ⟨h1, h2⟩ := hrh e rfl
              exact ⟨h1, fun hM => by have := (h2 (by omega)).2; omega⟩
            | ok zs => exact nofun
        | cluster s K => exact absurd hf id
        | failed K => exact absurd hf id

end Verif.RPoly
