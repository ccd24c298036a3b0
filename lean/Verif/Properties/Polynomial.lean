import Mathlib.Analysis.Calculus.IteratedDeriv.Defs
import Mathlib.Tactic.NormNum
import Mathlib.Algebra.Polynomial.Roots
import Verif.Lemmas.Extremum

/-!
# Properties C01–C04: polynomials

Each theorem is stated with Mathlib's polynomials, derivatives and intervals (`Verif.Spec`).
-/

namespace Verif.Properties

open Polynomial Verif.Spec

variable {K : Type*} [CommRing K]

/-! ## C01 evaluation -/

/-- C01: evaluation for derivative order `d` at `t` is the value of the `d`-th derivative, for every coefficient vector that
fits the precomputed table. -/
theorem C01_evaluate (c : List K) (t : K) (d : ℕ) (h : c.length ≤ 22) :
    Poly.evaluate c t d = .ok ((derivative^[d] (ofCoeffs c)).eval t) :=
  evaluate_eq c t d h

/-- C01 in terms of real analysis: the returned value is the `d`-th iterated derivative at `t` of the function
`x ↦ c₀ + c₁ x + ... + c_{N-1} x^{N-1}`. -/
theorem C01_evaluate_iteratedDeriv (c : List ℝ) (t : ℝ) (d : ℕ) (h : c.length ≤ 22) :
    Poly.evaluate c t d =
      .ok (iteratedDeriv d (fun x => ∑ i ∈ Finset.range c.length, c.getD i 0 * x ^ i) t) := by
  rw [C01_evaluate c t d h]
  congr 1
  have hfun : (fun x : ℝ => ∑ i ∈ Finset.range c.length, c.getD i 0 * x ^ i) = fun x => (ofCoeffs c).eval x := by
    funext x; simp [ofCoeffs, eval_finsetSum]
  rw [hfun]
  generalize ofCoeffs c = p
  induction d generalizing t p with
  | zero => simp
  | succ d ih =>
    rw [iteratedDeriv_succ', Function.iterate_succ_apply, ih]
    congr 1
    funext x
    simp

/-- C01: orders at or above the number of coefficients evaluate to zero, without touching the table. -/
theorem C01_evaluate_high_order (c : List K) (t : K) (d : ℕ) (h : c.length ≤ d) :
    Poly.evaluate c t d = .ok 0 := by
  unfold Poly.evaluate; rw [if_pos h]

/-- C01: more than 22 coefficients make every other evaluation read outside the table. -/
theorem C01_evaluate_out_of_table (c : List K) (t : K) (d : ℕ) (h : 22 < c.length) (hd : d < c.length) :
    Poly.evaluate c t d = .error .ub := by
  unfold Poly.evaluate; rw [if_neg (by omega), if_pos (by unfold kMaxConvolutionSize; omega)]

/-- C01: the bulk overload returns derivatives `0 .. m-1`, and aborts when asked for more than `N` of them. -/
theorem C01_evaluateAll (c : List K) (t : K) (m : ℕ) (h : c.length ≤ 22) :
    Poly.evaluateAll c t m =
      if m ≤ c.length then .ok ((List.range m).map fun k => (derivative^[k] (ofCoeffs c)).eval t)
      else .error .check := by
  split
  · rename_i hm; exact evaluateAll_eq c t m h hm
  · unfold Poly.evaluateAll; rw [if_pos (by omega)]

/-- C01: `getCoefficients d` has the same length and is the coefficient list of the `d`-th derivative; orders above `N` abort. -/
theorem C01_getCoefficients (c : List K) (d : ℕ) (h : c.length ≤ 22) :
    (d ≤ c.length → ∃ r, Poly.getCoefficients c d = .ok r ∧ r.length = c.length ∧
      ofCoeffs r = derivative^[d] (ofCoeffs c)) ∧
    (c.length < d → Poly.getCoefficients c d = .error .check) :=
  ⟨fun hd => getCoefficients_eq c d h hd, fun hd => by unfold Poly.getCoefficients; rw [if_pos hd]⟩

-- non-trivial instances: a cubic at 2, second derivative; and a vector beyond the table
example : Poly.evaluate ([1, -2, 0, 5] : List ℚ) 2 2 = .ok 60 := by decide +kernel
example : ([1, -2, 0, 5] : List ℚ).length ≤ 22 := by decide
example : 22 < (List.replicate 23 (1 : ℚ)).length ∧ 3 < (List.replicate 23 (1 : ℚ)).length := by decide

/-! ## C02 convolution -/

/-- C02: the product operator returns `n + m - 1` coefficients, and its value at every `t` is the product of the values. -/
theorem C02_convolve (p q : List K) (hp : p ≠ []) (hq : q ≠ []) :
    ∃ r, Poly.convolve p q = .ok r ∧ r.length = p.length + q.length - 1 ∧
      ∀ t, (ofCoeffs r).eval t = (ofCoeffs p).eval t * (ofCoeffs q).eval t := by
  obtain ⟨r, h1, h2, h3⟩ := ofCoeffs_convolve p q hp hq
  exact ⟨r, h1, h2, fun t => by rw [h3, eval_mul]⟩

/-- C02: every coefficient is the discrete convolution `Σ d[i-n] k[n]` announced in the header. -/
theorem C02_convolve_coeff (p q : List K) (hp : p ≠ []) (hq : q ≠ []) (r : List K)
    (hr : Poly.convolve p q = .ok r) (i : ℕ) :
    r.getD i 0 = ∑ n ∈ Finset.range (i + 1), p.getD (i - n) 0 * q.getD n 0 := by
  obtain ⟨r', h1, _, h3⟩ := ofCoeffs_convolve p q hp hq
  rw [h1] at hr
  cases hr
  rw [← coeff_ofCoeffs, h3, mul_comm, coeff_mul, Finset.Nat.sum_antidiagonal_eq_sum_range_succ_mk]
  apply Finset.sum_congr rfl
  intro n _
  simp only [coeff_ofCoeffs]
  ring

example : Poly.convolve ([1, 2, 3] : List ℚ) [4, 5] = .ok [4, 13, 22, 15] := by decide +kernel

/-! ## C03 arithmetic, padding, offset, time scaling -/

/-- C03: sum of polynomials of equal length; unequal lengths are undefined behaviour. -/
theorem C03_add (p q : List K) :
    (p.length = q.length → ∃ r, Poly.add p q = .ok r ∧ r.length = p.length ∧
      ∀ t, (ofCoeffs r).eval t = (ofCoeffs p).eval t + (ofCoeffs q).eval t) ∧
    (p.length ≠ q.length → Poly.add p q = .error .ub) := by
  constructor
  · intro h
    refine ⟨_, by unfold Poly.add; rw [if_pos h], by simp [h], fun t => ?_⟩
    rw [ofCoeffs_zipWith_add p q h, eval_add]
  · intro h; unfold Poly.add; rw [if_neg h]

/-- C03: scalar multiple. -/
theorem C03_smul (p : List K) (a t : K) :
    (ofCoeffs (Poly.smul p a)).eval t = a * (ofCoeffs p).eval t ∧ (Poly.smul p a).length = p.length := by
  constructor
  · rw [Poly.smul, ofCoeffs_map_mul]; simp
  · simp [Poly.smul]

/-- C03: padding to `n` coefficients keeps every value and derivative; shortening is refused and changes nothing. -/
theorem C03_appendCoefficients (p : List K) (n : ℕ) :
    (p.length ≤ n → ∃ r, Poly.appendCoefficients p n = (true, r) ∧ r.length = n ∧
      ∀ k t, derivAt r k t = derivAt p k t) ∧
    (n < p.length → Poly.appendCoefficients p n = (false, p)) := by
  constructor
  · intro h
    unfold Poly.appendCoefficients
    split
    · rename_i he; exact ⟨p, rfl, he.symm, fun _ _ => rfl⟩
    · rw [if_neg (by omega)]
      refine ⟨_, rfl, by simp; omega, fun k t => ?_⟩
      rw [derivAt, ofCoeffs_append_zeros, derivAt]
  · intro h
    unfold Poly.appendCoefficients
    rw [if_neg (by omega), if_pos h]

/-- C03: offsetting a non-empty polynomial adds the constant to the value and leaves all derivatives alone. -/
theorem C03_offset (p : List K) (hp : p ≠ []) (o t : K) :
    derivAt (Poly.offset p o) 0 t = derivAt p 0 t + o ∧
    (∀ k, 0 < k → derivAt (Poly.offset p o) k t = derivAt p k t) ∧ (Poly.offset p o).length = p.length := by
  refine ⟨by simp [derivAt, ofCoeffs_offset p o hp], fun k hk => ?_, by simp⟩
  obtain ⟨k, rfl⟩ := Nat.exists_eq_succ_of_ne_zero hk.ne'
  rw [derivAt, ofCoeffs_offset p o hp, derivAt, Function.iterate_succ_apply, Function.iterate_succ_apply]
  simp

/-- C03: scaling in time with factor `b`: the `k`-th derivative at `t` is `b^k` times the old one at `b t`; in particular the
value is `p(b t)`. -/
theorem C03_scaleInTime (p : List K) (b t : K) (k : ℕ) :
    derivAt (Poly.scaleInTime p b) k t = b ^ k * derivAt p k (b * t) ∧
    (Poly.scaleInTime p b).length = p.length :=
  ⟨derivAt_scaleInTime p b t k, by simp⟩

example : Poly.scaleInTime ([1, 2, 3] : List ℚ) 2 = [1, 4, 12] := by decide +kernel
example : Poly.appendCoefficients ([1, 2] : List ℚ) 4 = (true, [1, 2, 0, 0]) := by decide +kernel

/-! ## C04 minimum and maximum over an interval -/

/-- C04: for an interval and an order below `N`, `computeMinMax` returns an attained global minimum and maximum of the
`d`-th derivative over the whole interval. The root finder must be complete on the derivative's coefficients, and the values
must be within the range of `double` (the code starts its search from ±DBL_MAX). -/
theorem C04_computeMinMax (rf : List ℝ → List (ℝ × ℝ)) (c : List ℝ) (a b : ℝ) (d : ℕ)
    (hN : c.length ≤ 22) (hd : d < c.length) (hab : a ≤ b)
    (hrf : ∀ r, ofCoeffs r = derivative^[d + 1] (ofCoeffs c) → r.length = c.length → FindsRealRoots r (rf r))
    (hrange : ∀ x ∈ Set.Icc a b, |derivAt c d x| ≤ (2 - 1 / 2 ^ 52) * 2 ^ 1023) :
    ∃ mn mx : ℝ × ℝ, Poly.computeMinMax rf c a b d = .ok (some (mn, mx)) ∧
      (mn.1 ∈ Set.Icc a b ∧ mn.2 = derivAt c d mn.1 ∧ ∀ x ∈ Set.Icc a b, mn.2 ≤ derivAt c d x) ∧
      (mx.1 ∈ Set.Icc a b ∧ mx.2 = derivAt c d mx.1 ∧ ∀ x ∈ Set.Icc a b, derivAt c d x ≤ mx.2) := by
  have hrange : ∀ x ∈ Set.Icc a b, |derivAt c d x| ≤ Poly.dblMax := hrange
  obtain ⟨r, hr, hrl, hrp⟩ := getCoefficients_eq c (d + 1) hN (by omega)
  have hcomplete := hrf r hrp hrl
  set cs : List ℝ := (rf r).filter (fun z => ¬ (Poly.dblEps < |z.2|) ∧ ¬ (z.1 < a ∨ b < z.1)) |>.map Prod.fst with hcs
  have hcand : Poly.computeMinMaxCandidates rf c a b (d + 1) = .ok (some (a :: b :: cs)) := by
    unfold Poly.computeMinMaxCandidates
    rw [if_neg (by omega), hr]
    simp [Poly.selectMinMaxCandidatesFromRoots, not_lt.mpr hab, hcs, pure, Except.pure, bind, Except.bind]
  have hmem : ∀ t ∈ a :: b :: cs, t ∈ Set.Icc a b := by
    intro t ht
    simp only [List.mem_cons] at ht
    rcases ht with rfl | rfl | ht
    · exact Set.left_mem_Icc.mpr hab
    · exact Set.right_mem_Icc.mpr hab
    · rw [hcs] at ht
      simp only [List.mem_map, List.mem_filter, decide_eq_true_eq] at ht
      obtain ⟨z, ⟨_, _, hz⟩, rfl⟩ := ht
      push Not at hz
      exact hz
  obtain ⟨res, h1, h2, h3, h4, h5, h6, h7, h8, h9⟩ := minMaxLoop_spec c d hN (Set.Icc a b) (a :: b :: cs) hmem
    ((a, Poly.dblMax), (a, -Poly.dblMax)) (Set.left_mem_Icc.mpr hab) (Set.left_mem_Icc.mpr hab)
  have hS : (∃ x, derivAt c (d + 1) x ≠ 0) → ∀ x ∈ Set.Icc a b, derivAt c (d + 1) x = 0 → x ∈ {t | t ∈ a :: b :: cs} := by
    rintro ⟨y, hy⟩ x hx h0
    have hne : ofCoeffs r ≠ 0 := by
      intro he; apply hy; rw [derivAt, ← hrp, he, eval_zero]
    obtain ⟨z, hz, hz1, hz2⟩ := hcomplete hne x (by rw [hrp]; exact h0)
    simp only [Set.mem_ofPred_eq, List.mem_cons, hcs, List.mem_map, List.mem_filter, decide_eq_true_eq]
    right; right
    refine ⟨z, ⟨hz, not_lt.mpr hz2, ?_⟩, hz1⟩
    rw [hz1]; push Not; exact hx
  refine ⟨res.1, res.2, ?_, ⟨h2, ?_, ?_⟩, ⟨h3, ?_, ?_⟩⟩
  · unfold Poly.computeMinMax
    rw [hcand]
    simp only [bind, Except.bind, Poly.selectMinMaxFromCandidates, h1, pure, Except.pure]
  · rcases h4 with h4 | h4
    · have e1 : res.1.1 = a := by rw [h4]
      have e2 : res.1.2 = Poly.dblMax := by rw [h4]
      rw [e1, e2]
      have := h8 a (by simp)
      rw [e2] at this
      exact le_antisymm this ((abs_le.mp (hrange a (Set.left_mem_Icc.mpr hab))).2)
    · exact h4.2
  · obtain ⟨x, hxS, _, hx⟩ := exists_min_candidate hab (hasDerivAt_derivAt c d) (S := {t | t ∈ a :: b :: cs})
      (by simp) (by simp) hS
    intro y hy
    exact (h8 x hxS).trans (hx y hy)
  · rcases h5 with h4 | h4
    · have e1 : res.2.1 = a := by rw [h4]
      have e2 : res.2.2 = -Poly.dblMax := by rw [h4]
      rw [e1, e2]
      have := h9 a (by simp)
      rw [e2] at this
      exact le_antisymm ((abs_le.mp (hrange a (Set.left_mem_Icc.mpr hab))).1) this
    · exact h4.2
  · obtain ⟨x, hxS, _, hx⟩ := exists_max_candidate hab (hasDerivAt_derivAt c d) (S := {t | t ∈ a :: b :: cs})
      (by simp) (by simp) hS
    intro y hy
    exact (hx y hy).trans (h9 x hxS)

/-- C04: the call reports failure exactly when the interval is reversed or the order is not below `N`. -/
theorem C04_computeMinMax_fails_iff (rf : List ℝ → List (ℝ × ℝ)) (c : List ℝ) (a b : ℝ) (d : ℕ)
    (hN : c.length ≤ 22) :
    Poly.computeMinMax rf c a b d = .ok none ↔ (b < a ∨ c.length ≤ d) := by
  constructor
  · intro h
    by_contra hcon
    push Not at hcon
    obtain ⟨r, hr, _, _⟩ := getCoefficients_eq c (d + 1) hN (by omega)
    obtain ⟨res, h1, _⟩ := minMaxLoop_spec c d hN Set.univ
      (a :: b :: ((rf r).filter (fun z => ¬ (Poly.dblEps < |z.2|) ∧ ¬ (z.1 < a ∨ b < z.1)) |>.map Prod.fst))
      (by simp) ((a, Poly.dblMax), (a, -Poly.dblMax)) (by simp) (by simp)
    unfold Poly.computeMinMax Poly.computeMinMaxCandidates at h
    rw [if_neg (by omega), hr] at h
    simp only [Poly.selectMinMaxCandidatesFromRoots, gt_iff_lt, not_lt.mpr hcon.1, if_false, bind, Except.bind, pure,
      Except.pure, Poly.selectMinMaxFromCandidates, h1] at h
    simp at h
  · intro h
    unfold Poly.computeMinMax Poly.computeMinMaxCandidates
    by_cases hd : c.length < d + 1
    · rw [if_pos hd]; rfl
    · rw [if_neg hd]
      obtain ⟨r, hr, _, _⟩ := getCoefficients_eq c (d + 1) hN (by omega)
      rw [hr]
      have hba : b < a := h.resolve_right (by omega)
      simp [Poly.selectMinMaxCandidatesFromRoots, hba, bind, Except.bind, pure, Except.pure]

/-- C04: given the real critical points, `selectMinMaxFromRoots` returns the same attained global minimum and maximum; a reversed interval is reported as failure. -/
theorem C04_selectMinMaxFromRoots (c : List ℝ) (a b : ℝ) (d : ℕ) (roots : List (ℝ × ℝ)) (hN : c.length ≤ 22) (hd : d < c.length)
    (hroots : ∀ r, ofCoeffs r = derivative^[d + 1] (ofCoeffs c) → r.length = c.length → FindsRealRoots r roots)
    (hrange : ∀ x ∈ Set.Icc a b, |derivAt c d x| ≤ (2 - 1 / 2 ^ 52) * 2 ^ 1023) :
    (a ≤ b → ∃ mn mx : ℝ × ℝ, Poly.selectMinMaxFromRoots c a b d roots = .ok (some (mn, mx)) ∧
      (mn.1 ∈ Set.Icc a b ∧ mn.2 = derivAt c d mn.1 ∧ ∀ x ∈ Set.Icc a b, mn.2 ≤ derivAt c d x) ∧
      (mx.1 ∈ Set.Icc a b ∧ mx.2 = derivAt c d mx.1 ∧ ∀ x ∈ Set.Icc a b, derivAt c d x ≤ mx.2)) ∧
    (b < a → Poly.selectMinMaxFromRoots c a b d roots = .ok none) := by
  have heq : Poly.selectMinMaxFromRoots c a b d roots = Poly.computeMinMax (fun _ => roots) c a b d := by
    obtain ⟨r, hr, _, _⟩ := getCoefficients_eq c (d + 1) hN (by omega)
    unfold Poly.selectMinMaxFromRoots Poly.computeMinMax Poly.computeMinMaxCandidates
    rw [if_neg (by omega), hr]
    rfl
  rw [heq]
  exact ⟨fun hab => C04_computeMinMax _ c a b d hN hd hab hroots hrange, fun h => (C04_computeMinMax_fails_iff _ c a b d hN).mpr (.inl h)⟩

/-- A complete root finder exists, so the contract used above is satisfiable for all inputs at once. -/
theorem exists_complete_rootFinder : ∃ rf : List ℝ → List (ℝ × ℝ), ∀ r, FindsRealRoots r (rf r) := by
  refine ⟨fun r => (ofCoeffs r).roots.toList.map (fun x => (x, 0)), fun r hne x hx => ?_⟩
  refine ⟨(x, 0), ?_, rfl, by simp⟩
  simp only [List.mem_map, Multiset.mem_toList, Prod.mk.injEq, and_true, exists_eq_right]
  exact (mem_roots hne).mpr hx

-- a concrete case meeting the hypotheses of `C04_computeMinMax`: t³ - 3t on [-2, 3], order 0
example : ∃ rf : List ℝ → List (ℝ × ℝ), ([0, -3, 0, 1] : List ℝ).length ≤ 22 ∧ 0 < ([0, -3, 0, 1] : List ℝ).length ∧
    (-2 : ℝ) ≤ 3 ∧
    (∀ r, ofCoeffs r = derivative^[0 + 1] (ofCoeffs ([0, -3, 0, 1] : List ℝ)) → r.length = 4 → FindsRealRoots r (rf r)) ∧
    (∀ x ∈ Set.Icc (-2 : ℝ) 3, |derivAt ([0, -3, 0, 1] : List ℝ) 0 x| ≤ (2 - 1 / 2 ^ 52) * 2 ^ 1023) := by
  obtain ⟨rf, hrf⟩ := exists_complete_rootFinder
  refine ⟨rf, by simp, by simp, by norm_num, fun r _ _ => hrf r, fun x hx => ?_⟩
  have hv : derivAt ([0, -3, 0, 1] : List ℝ) 0 x = x ^ 3 - 3 * x := by
    simp [derivAt, ofCoeffs, Finset.sum_range_succ]; ring
  obtain ⟨h1, h2⟩ := hx
  have : |x ^ 3 - 3 * x| ≤ 100 := by
    rw [abs_le]; constructor <;> nlinarith [sq_nonneg x, mul_nonneg (sub_nonneg.mpr h2) (sq_nonneg x), mul_nonneg (by linarith : 0 ≤ x + 2) (sq_nonneg x)]
  rw [hv]
  refine this.trans ?_
  have h3 : (100 : ℝ) ≤ 2 ^ 1023 := by
    calc (100 : ℝ) ≤ 2 ^ 7 := by norm_num
      _ ≤ 2 ^ 1023 := pow_le_pow_right₀ (by norm_num) (by norm_num)
  have h4 : (1 : ℝ) ≤ 2 - 1 / 2 ^ 52 := by norm_num
  calc (100 : ℝ) ≤ 2 ^ 1023 := h3
    _ = 1 * 2 ^ 1023 := (one_mul _).symm
    _ ≤ _ := mul_le_mul_of_nonneg_right h4 (by positivity)

end Verif.Properties
