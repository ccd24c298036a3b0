import Verif.Lemmas.RPolyAnswer
import Verif.Properties.Polynomial

/-!
# Properties C71, C96: the root finder

Polynomials over ℝ and ℂ are Mathlib's. `toC`, `descending`, `Trimmed`, `ExactZeros`, `SplitsOff` and `Answer` are in `Spec/RPoly`.
-/

namespace Verif.Properties

open Polynomial Verif.Spec Verif.RPoly

/-! ## C71 the quadratic solver -/

/-- C71: for `a ≠ 0` the two complex numbers returned are the zeros of `a X² + b X + c`, with multiplicity. -/
theorem C71_quadratic (a b c : ℝ) (ha : a ≠ 0) :
    (C (a : ℂ) * X ^ 2 + C (b : ℂ) * X + C (c : ℂ) : ℂ[X]) =
      C (a : ℂ) * ((X - C (toC ((quad a b c).sr, (quad a b c).si))) * (X - C (toC ((quad a b c).lr, (quad a b c).li)))) :=
  (quad_factors a b c ha).symm

/-- C71: without a quadratic term the first number is the zero of the linear polynomial; the second is always 0, whether or not it is a zero. -/
theorem C71_quadratic_degenerate (b c : ℝ) :
    (b ≠ 0 → b * (quad 0 b c).sr + c = 0 ∧ (quad 0 b c).si = 0) ∧ (b = 0 → (quad 0 b c).sr = 0 ∧ (quad 0 b c).si = 0) ∧
      (quad 0 b c).lr = 0 ∧ (quad 0 b c).li = 0 := by
  unfold quad
  rw [if_pos rfl]
  refine ⟨fun h => ⟨?_, rfl⟩, fun h => ⟨?_, rfl⟩, rfl, rfl⟩
  · simp only [if_pos h]; field_simp; ring
  · simp only [h, ne_eq, not_true_eq_false, if_false]

example : (1 : ℝ) ≠ 0 ∧ quad 1 0 1 = ⟨0, 1, 0, -1⟩ := by
  refine ⟨one_ne_zero, ?_⟩
  unfold quad discE discD discE
  norm_num

/-! ## C71 synthetic division -/

/-- C71: `QuadSD_ak1` divides by `X² + u X + v`: its array holds the quotient, and its last two entries `b` and `a` give the remainder `b (X + u) + a`; no other
quotient and remainder of degree below two exist. -/
theorem C71_divisionQuadratic (u v : ℝ) (p : ℕ → ℝ) (n : ℕ) :
    let q := quadSD u v p
    descending p (n + 2) = (X ^ 2 + C u * X + C v) * descending q n + (C (q (n + 1)) * (X + C u) + C (q (n + 2))) ∧
      ∀ Q R : ℝ[X], descending p (n + 2) = (X ^ 2 + C u * X + C v) * Q + R → R.degree < 2 →
        Q = descending q n ∧ R = C (q (n + 1)) * (X + C u) + C (q (n + 2)) := by
  intro q
  have h1 : descending p (n + 2) = (X ^ 2 + C u * X + C v) * descending q n + (C (q (n + 1)) * (X + C u) + C (q (n + 2))) := by
    rw [← arr_eq_descending, ← arr_eq_descending]; exact quadSD_division u v p n
  refine ⟨h1, fun Q R h hR => ?_⟩
  have hd : (C u * X + C v : ℝ[X]).degree < 2 := lt_of_le_of_lt degree_linear_le (by decide)
  have hm : (X ^ 2 + C u * X + C v : ℝ[X]).Monic := by
    rw [add_assoc]; exact monic_X_pow_add hd
  have hdeg : (X ^ 2 + C u * X + C v : ℝ[X]).degree = 2 := by
    rw [add_assoc, degree_add_eq_left_of_degree_lt]
    · exact degree_X_pow 2
    · rw [degree_X_pow]; exact hd
  have hr : (C (q (n + 1)) * (X + C u) + C (q (n + 2)) : ℝ[X]).degree < 2 := by
    have : (C (q (n + 1)) * (X + C u) + C (q (n + 2)) : ℝ[X]) = C (q (n + 1)) * X + C (q (n + 1) * u + q (n + 2)) := by
      simp only [C_add, C_mul]; ring
    rw [this]; exact lt_of_le_of_lt degree_linear_le (by decide)
  obtain ⟨e1, e2⟩ := div_modByMonic_unique (f := descending p (n + 2)) Q R hm ⟨by rw [h]; ring, by rw [hdeg]; exact hR⟩
  obtain ⟨e3, e4⟩ := div_modByMonic_unique (f := descending p (n + 2)) (descending q n) (C (q (n + 1)) * (X + C u) + C (q (n + 2))) hm ⟨by rw [h1]; ring, by rw [hdeg]; exact hr⟩
  exact ⟨e1.symm.trans e3, e2.symm.trans e4⟩

/-- C71: Horner's rule divides by `X - s`: its array holds the quotient, its last entry is the value at `s`. -/
theorem C71_divisionLinear (s : ℝ) (p : ℕ → ℝ) (n : ℕ) :
    descending p (n + 1) = (X - C s) * descending (horner s p) n + C (horner s p (n + 1)) ∧
      (descending p (n + 1)).eval s = horner s p (n + 1) := by
  rw [← arr_eq_descending, ← arr_eq_descending]
  exact ⟨horner_division s p n, arr_eval p s (n + 1)⟩

/-! ## C71 the wrapper: negligible coefficients, constants, zeros at the origin -/

/-- C71: coefficients below the smallest normal number at the high end do not matter. -/
theorem C71_trailing (fuel : ℕ) (c d : List ℝ) (hd : ∀ x ∈ d, |x| < 1 / 2 ^ 1022) : findRoots fuel (c ++ d) = findRoots fuel c :=
  findRoots_append fuel c d hd

/-- C71: what is left being constant, there are no roots, and the call succeeds. -/
theorem C71_constant (fuel : ℕ) (c t : List ℝ) (ht : Trimmed c t) (hl : t.length ≤ 1) : findRoots fuel c = .ok (true, some []) := by
  rw [trimmed_findRoots ht]
  match t, hl with
  | [], _ => rfl
  | [x], _ =>
    unfold findRoots
    have := trimmed_last ht 0 rfl
    rw [List.length_singleton, findLastNonZeroCoeff, if_pos this]
    rfl

/-- C71: a factor `X^k` contributes `k` zeros at the origin, in front of the zeros of the other factor. -/
theorem C71_origin (fuel k : ℕ) (t : List ℝ) (ht : Trimmed t t) (h0 : t.getD 0 0 ≠ 0) (hl : t.length + k ≤ 101) :
    rootsOf fuel (List.replicate k 0 ++ t) = (do return List.replicate k (0, 0) ++ (← rootsOf fuel t)) := by
  obtain ⟨n, hn⟩ : ∃ n, t.length = n + 1 := by
    cases t with
    | nil => exact absurd rfl h0
    | cons a t => exact ⟨t.length, rfl⟩
  rcases Nat.eq_zero_or_pos k with rfl | hk
  · simp only [List.replicate_zero, List.nil_append]
    cases rootsOf fuel t <;> rfl
  have hlast := trimmed_last ht n hn
  have hlt := last_ne_zero ht n hn
  set t' := List.replicate k (0 : ℝ) ++ t with ht'
  have hlen : t'.length = n + k + 1 := by simp [ht', hn]; omega
  have hlast' : dblMin ≤ |t'.getD (n + k) 0| := by
    rw [ht', List.getD_append_right _ _ _ _ (by simp)]
    simpa using hlast
  have hop : (fun i => t'.reverse.getD i 0) = fun i => t.reverse.getD i 0 := by
    funext i
    rw [ht', List.reverse_append, List.reverse_replicate]
    by_cases hi : i < t.reverse.length
    · rw [List.getD_append _ _ _ _ hi]
    · rw [List.getD_append_right _ _ _ _ (by omega), List.getD_eq_default _ _ (not_lt.mp hi)]
      rw [List.getD_eq_getElem?_getD, List.getElem?_replicate]; split <;> rfl
  set op : ℕ → ℝ := fun i => t.reverse.getD i 0 with hopd
  have hop0 : op 0 ≠ 0 := by
    show t.reverse.getD 0 0 ≠ 0
    rw [reverse_getD t n 0 hn (by omega)]; exact hlt
  have hopn : op n ≠ 0 := by
    show t.reverse.getD n 0 ≠ 0
    rw [reverse_getD t n n hn le_rfl]; simpa using h0
  have hstrip : ∀ j, stripZeros op (n + j) = n := by
    intro j
    induction j with
    | zero =>
      cases n with
      | zero => rfl
      | succ m => show stripZeros op (m + 1) = m + 1; rw [stripZeros, if_neg hopn]
    | succ j ih =>
      rw [← add_assoc, stripZeros, if_pos, ih]
      exact List.getD_eq_default _ _ (by rw [List.length_reverse, hn]; omega)
  have hrp : ∀ j, n + j ≤ 100 → rpoly fuel op (n + j) = (do
      let zs ← mainLoop fuel (n + 1) n op (√(1 / 2)) (-√(1 / 2))
      return some (List.replicate j (0, 0) ++ zs)) := by
    intro j hj
    unfold rpoly
    rw [if_neg (by omega), if_pos hop0, hstrip j]
    simp only [show n + j - n = j by omega]
  obtain ⟨m, rfl⟩ : ∃ m, k = m + 1 := ⟨k - 1, by omega⟩
  have e1 := findRoots_eq fuel (n + m) t' (by omega) (by rw [← add_assoc] at hlast'; exact hlast') (by omega)
  rw [hop, add_assoc n m 1, hrp (m + 1) (by omega)] at e1
  have hlhs : rootsOf fuel t' = (do
      let zs ← mainLoop fuel (n + 1) n op (√(1 / 2)) (-√(1 / 2))
      return List.replicate (m + 1) (0, 0) ++ zs) := by
    unfold rootsOf
    rw [e1]
    cases mainLoop fuel (n + 1) n op (√(1 / 2)) (-√(1 / 2)) with
    | error e => rfl
    | ok zs => simp [bind, Except.bind, pure, Except.pure]
  have hrhs : rootsOf fuel t = mainLoop fuel (n + 1) n op (√(1 / 2)) (-√(1 / 2)) := by
    cases n with
    | zero =>
      unfold rootsOf
      rw [C71_constant fuel t t ht (by omega)]
      rfl
    | succ n =>
      unfold rootsOf
      rw [findRoots_eq fuel n t hn hlast (by omega), hrp 0 (by omega)]
      cases mainLoop fuel (n + 1 + 1) (n + 1) op (√(1 / 2)) (-√(1 / 2)) with
      | error e => rfl
      | ok zs => cases zs <;> simp [bind, Except.bind, pure, Except.pure]
  rw [hlhs, hrhs]

-- (X² - 1) X³: the hypotheses of `C71_origin` and of `C71_constant`
example : Trimmed [-1, 0, 1] [-1, 0, 1] ∧ ([-1, 0, 1] : List ℝ).getD 0 0 ≠ 0 ∧ ([-1, 0, 1] : List ℝ).length + 3 ≤ 101 ∧
    Trimmed [5, 0, 1 / 2 ^ 1023] [5] := by
  refine ⟨⟨[], rfl, by simp, ?_⟩, by norm_num, by norm_num, ⟨[0, 1 / 2 ^ 1023], rfl, ?_, ?_⟩⟩
  · intro x hx
    have : x = 1 := by simpa using hx.symm
    rw [this, abs_one]
    exact div_le_one_of_le₀ (one_le_pow₀ (by norm_num)) (by positivity)
  · intro x hx
    simp only [List.mem_cons, List.not_mem_nil, or_false] at hx
    rcases hx with rfl | rfl
    · rw [abs_zero]; positivity
    · rw [abs_of_pos (by positivity)]
      exact one_div_lt_one_div_of_lt (by positivity) (pow_lt_pow_right₀ (by norm_num) (by norm_num))
  · intro x hx
    have : x = 5 := by simpa using hx.symm
    rw [this, abs_of_pos (by norm_num)]
    refine (div_le_one_of_le₀ (one_le_pow₀ (by norm_num)) (by positivity)).trans (by norm_num)

/-! ## C96 the answer -/

/-- C96: what is returned for a polynomial of positive degree. If the call succeeds, the roots are an `Answer`; it reports failure, and leaves the caller's vector
as it is, exactly when it found none. -/
theorem C96_answer (fuel : ℕ) (c t : List ℝ) (ht : Trimmed c t) (h2 : 2 ≤ t.length) (hmax : t.length ≤ 101) (flag : Bool) (out : Option (List (ℝ × ℝ)))
    (h : findRoots fuel c = .ok (flag, out)) :
    ∃ zs complete, Answer (ofCoeffs t) (zs.map toC) complete ∧ (zs ≠ [] → flag = true ∧ out = some zs) ∧ (zs = [] → flag = false ∧ out = none) := by
  obtain ⟨n, hn⟩ : ∃ n, t.length = n + 2 := ⟨t.length - 2, by omega⟩
  rw [trimmed_findRoots ht, findRoots_eq fuel n t hn (trimmed_last ht (n + 1) hn) (by omega)] at h
  have h0 : t.reverse.getD 0 0 ≠ 0 := by rw [reverse_getD t (n + 1) 0 hn (by omega)]; exact last_ne_zero ht (n + 1) hn
  cases hr : rpoly fuel (fun i => t.reverse.getD i 0) (n + 1) with
  | error e => rw [hr] at h; cases h
  | ok o =>
    obtain ⟨zs, b, rfl, ha⟩ := rpoly_answer fuel _ (n + 1) h0 (by omega) o hr
    rw [hr] at h
    refine ⟨zs, b, by rw [ofCoeffs_eq_descending t (n + 1) hn]; exact ha, ?_, ?_⟩
    · intro hz
      simp only [bind, Except.bind, pure, Except.pure, List.length_pos_iff.mpr hz, if_true] at h
      cases h; exact ⟨rfl, rfl⟩
    · rintro rfl
      simp only [bind, Except.bind, pure, Except.pure, List.length_nil, lt_irrefl, if_false] at h
      cases h; exact ⟨rfl, rfl⟩

/-- C96: the number of roots never exceeds the degree, and it is the degree unless the search was given up. -/
theorem C96_number {P : ℝ[X]} {zs : List ℂ} {complete : Bool} (h : Answer P zs complete) :
    zs.length ≤ P.natDegree ∧ (complete = true ↔ zs.length = P.natDegree) := by
  obtain ⟨_, h1, h2⟩ := answer_length h
  cases complete
  · have := h2 rfl
    exact ⟨this.le, by simp; omega⟩
  · exact ⟨(h1 rfl).le, by simp [h1 rfl]⟩

/-- C96: the roots returned come in conjugate pairs. -/
theorem C96_conjugate (fuel : ℕ) (c : List ℝ) (flag : Bool) (zs : List (ℝ × ℝ)) (h : findRoots fuel c = .ok (flag, some zs)) :
    (zs.map fun z => (z.1, -z.2)).Perm zs := by
  obtain ⟨t, ht⟩ := trimmed_exists c
  by_cases h1 : t.length ≤ 1
  · rw [C71_constant fuel c t ht h1] at h; cases h; simp
  by_cases h3 : t.length ≤ 101
  · obtain ⟨zs', b, ha, hs, hn⟩ := C96_answer fuel c t ht (by omega) h3 flag _ h
    by_cases hz : zs' = []
    · exact absurd (hn hz).2 (by simp)
    · have he := (hs hz).2
      rw [Option.some.injEq] at he
      subst he
      have hc := answer_conj ha
      have hm : (zs.map fun z => (z.1, -z.2)).map toC = (zs.map toC).map (starRingEnd ℂ) := by
        rw [List.map_map, List.map_map]; congr 1
      rw [← hm] at hc
      have hback := hc.map fun z : ℂ => (z.re, z.im)
      simp only [List.map_map, Function.comp_def] at hback
      have e1 : (List.map (fun x : ℝ × ℝ => ((toC (x.1, -x.2)).re, (toC (x.1, -x.2)).im)) zs) = zs.map fun z => (z.1, -z.2) := rfl
      have e2 : (List.map (fun x : ℝ × ℝ => ((toC x).re, (toC x).im)) zs) = zs := List.map_id zs
      rw [e2] at hback
      exact hback
  · exfalso
    obtain ⟨n, hn⟩ : ∃ n, t.length = n + 1 := ⟨t.length - 1, by omega⟩
    rw [trimmed_findRoots ht] at h
    unfold findRoots at h
    rw [hn, findLastNonZeroCoeff, if_pos (trimmed_last ht n hn)] at h
    simp only at h
    rw [if_neg (by omega), if_pos (by omega)] at h
    cases h

/-- C96: more than 101 coefficients are written past the end of an array. -/
theorem C96_too_long (fuel : ℕ) (c t : List ℝ) (ht : Trimmed c t) (h : 101 < t.length) : findRoots fuel c = .error .ub := by
  obtain ⟨n, hn⟩ : ∃ n, t.length = n + 1 := ⟨t.length - 1, by omega⟩
  rw [trimmed_findRoots ht]
  unfold findRoots
  rw [hn, findLastNonZeroCoeff, if_pos (trimmed_last ht n hn)]
  simp only
  rw [if_neg (by omega), if_pos (by omega)]

/-- C96: the search always ends, with an answer or, when the division leaves a polynomial without constant coefficient, with values that are not finite; the
latter never happens for a polynomial of degree at most three without zero at the origin. -/
theorem C96_terminates (c t : List ℝ) (ht : Trimmed c t) (hmax : t.length ≤ 101) :
    ∃ F r, (∀ fuel ≥ F, findRoots fuel c = r) ∧ (r = .error .nonfinite ∨ ∃ a, r = .ok a) ∧
      (t.length ≤ 4 → t.getD 0 0 ≠ 0 → ∃ a, r = .ok a) := by
  by_cases h1 : t.length ≤ 1
  · exact ⟨0, _, fun fuel _ => C71_constant fuel c t ht h1, .inr ⟨_, rfl⟩, fun _ _ => ⟨_, rfl⟩⟩
  obtain ⟨n, hn⟩ : ∃ n, t.length = n + 2 := ⟨t.length - 2, by omega⟩
  set op : ℕ → ℝ := fun i => t.reverse.getD i 0 with hop
  have h0 : op 0 ≠ 0 := by
    show t.reverse.getD 0 0 ≠ 0
    rw [reverse_getD t (n + 1) 0 hn (by omega)]; exact last_ne_zero ht (n + 1) hn
  obtain ⟨F, r, hF, hr⟩ := mainLoop_ends (stripZeros op (n + 1) + 1) (stripZeros op (n + 1)) op (√(1 / 2)) (-√(1 / 2)) h0
  have hfind : ∀ fuel ≥ F, findRoots fuel c = (do
      let zs ← r
      if 0 < (List.replicate (n + 1 - stripZeros op (n + 1)) ((0, 0) : ℝ × ℝ) ++ zs).length then
        return (true, some (List.replicate (n + 1 - stripZeros op (n + 1)) (0, 0) ++ zs))
      else return (false, none)) := by
    intro fuel hf
    rw [trimmed_findRoots ht, findRoots_eq fuel n t hn (trimmed_last ht (n + 1) hn) (by omega)]
    unfold rpoly
    rw [if_neg (by omega), if_pos h0]
    simp only
    rw [hF fuel hf]
    cases r <;> rfl
  refine ⟨F, _, hfind, ?_, ?_⟩
  · cases r with
    | error e => left; rw [(hr e rfl).1]; rfl
    | ok zs => right; simp only [bind, Except.bind]; split <;> exact ⟨_, rfl⟩
  · intro h4 ht0
    have hle := stripZeros_le op (n + 1)
    cases r with
    | error e =>
      exfalso
      exact stripZeros_ne op h0 (n + 1) ((hr e rfl).2 (by omega)).1
    | ok zs => simp only [bind, Except.bind]; split <;> exact ⟨_, rfl⟩

/-- C96: when what is left after removing zeros at the origin has degree at most two (all coefficients but three consecutive ones vanish), the roots are exact,
with multiplicity. -/
theorem C96_exact (fuel k : ℕ) (c t : List ℝ) (ht : Trimmed c t) (h2 : 2 ≤ t.length) (hmax : t.length ≤ 101)
    (hk : ∀ i, i < k → t.getD i 0 = 0) (hk' : t.length ≤ k + 3) :
    ∃ zs, findRoots fuel c = .ok (true, some zs) ∧ ExactZeros (ofCoeffs t) (zs.map toC) := by
  obtain ⟨n, hn⟩ : ∃ n, t.length = n + 2 := ⟨t.length - 2, by omega⟩
  set op : ℕ → ℝ := fun i => t.reverse.getD i 0 with hop
  have h0 : op 0 ≠ 0 := by
    show t.reverse.getD 0 0 ≠ 0
    rw [reverse_getD t (n + 1) 0 hn (by omega)]; exact last_ne_zero ht (n + 1) hn
  obtain ⟨zs, hz, he⟩ := rpoly_small fuel op (n + 1) h0 (by omega) (by
    intro i hi hi'
    show t.reverse.getD i 0 = 0
    rw [reverse_getD t (n + 1) i hn hi']
    exact hk _ (by omega))
  rw [← ofCoeffs_eq_descending t (n + 1) hn] at he
  obtain ⟨hd, _, hne⟩ := trimmed_degree ht (n + 1) hn
  have hlen := exactZeros_length hne he
  rw [hd, List.length_map] at hlen
  refine ⟨zs, ?_, he⟩
  rw [trimmed_findRoots ht, findRoots_eq fuel n t hn (trimmed_last ht (n + 1) hn) (by omega), hz]
  simp only [bind, Except.bind, pure, Except.pure]
  rw [if_pos (by omega)]

-- X (X² + 2X + 5): the hypotheses of the theorems above are met; the search ends with an answer
theorem sample_trimmed : Trimmed [0, 5, 2, 1, 0] [0, 5, 2, 1] := by
  refine ⟨[0], rfl, ?_, ?_⟩
  · intro x hx; rw [List.mem_singleton.mp hx, abs_zero]; positivity
  · intro x hx
    have : x = 1 := by simpa using hx.symm
    rw [this, abs_one]
    exact div_le_one_of_le₀ (one_le_pow₀ (by norm_num)) (by positivity)

example : ∃ zs, findRoots 0 [0, 5, 2, 1, 0] = .ok (true, some zs) ∧ ExactZeros (ofCoeffs [0, 5, 2, 1]) (zs.map toC) :=
  C96_exact 0 1 _ _ sample_trimmed (by simp) (by simp) (by intro i hi; interval_cases i; rfl) (by simp)

-- X³ + X² + X + 2: the search ends with an answer, so the hypotheses of `C96_answer` are met by a polynomial whose roots are approximated
example : ∃ fuel flag out, Trimmed [2, 1, 1, 1] [2, 1, 1, 1] ∧ findRoots fuel [2, 1, 1, 1] = .ok (flag, out) := by
  have ht : Trimmed [2, 1, 1, 1] [2, 1, 1, 1] := by
    refine ⟨[], rfl, by simp, ?_⟩
    intro x hx
    have : x = 1 := by simpa using hx.symm
    rw [this, abs_one]
    exact div_le_one_of_le₀ (one_le_pow₀ (by norm_num)) (by positivity)
  obtain ⟨F, r, hF, _, h⟩ := C96_terminates _ _ ht (by simp)
  obtain ⟨⟨flag, out⟩, rfl⟩ := h (by simp) (by simp)
  exact ⟨F, flag, out, ht, hF F le_rfl⟩

/-- Finding (C96): the roots of a polynomial whose coefficients are all below the smallest normal number are not found: `2⁻¹⁰²³ (X - 1)`. -/
theorem C96_misses_tiny : ∃ c : List ℝ, ∃ x : ℝ, ofCoeffs c ≠ 0 ∧ (ofCoeffs c).eval x = 0 ∧ ∀ fuel, findRoots fuel c = .ok (true, some []) := by
  refine ⟨[-(1 / 2 ^ 1023), 1 / 2 ^ 1023], 1, ?_, ?_, ?_⟩
  · intro h
    have := congrArg (fun P => P.eval 0) h
    simp [ofCoeffs, Finset.sum_range_succ] at this
  · simp [ofCoeffs, Finset.sum_range_succ]
  · intro fuel
    refine C71_constant fuel _ [] ⟨_, rfl, ?_, by simp⟩ (by simp)
    have hlt : (1 : ℝ) / 2 ^ 1023 < 1 / 2 ^ 1022 :=
      one_div_lt_one_div_of_lt (by positivity) (pow_lt_pow_right₀ (by norm_num) (by norm_num))
    intro x hx
    simp only [List.mem_cons, List.not_mem_nil, or_false] at hx
    rcases hx with rfl | rfl
    · rw [abs_neg, abs_of_pos (by positivity)]; exact hlt
    · rw [abs_of_pos (by positivity)]; exact hlt

/-- Finding (C96): the test of the quadratic iteration looks at one of two real roots only. Started from `X² - 1` it accepts the pair {1, -1} for `X³ + X² + X + 1`
at once, whatever `K` is, although the value at 1 is 4. -/
theorem C96_accepts_wrong_root (K : ℕ → ℝ) :
    ∃ z qp, quadIT 3 (fun _ => 1) K 0 (-1) = .ok (.two z qp) ∧ z.sr = 1 ∧ z.si = 0 ∧ z.lr = -1 ∧ z.li = 0 ∧
      (descending (fun _ => 1) 3).eval z.sr = 4 := by
  have hz : quad 1 0 (-1) = ⟨1, 0, -1, 0⟩ := by
    unfold quad discD discE
    norm_num
  have hq0 : quadSD 0 (-1) (fun _ => 1) 0 = 1 := rfl
  have hq1 : quadSD 0 (-1) (fun _ => 1) 1 = 1 := by simp [quadSD]
  have hq2 : quadSD 0 (-1) (fun _ => 1) 2 = 2 := by simp [quadSD]; norm_num
  have hq3 : quadSD 0 (-1) (fun _ => 1) 3 = 2 := by simp [quadSD]; norm_num
  have hacc : AcceptsPair 3 (fun _ => 1) 0 (-1) (quad 1 0 (-1)) := by
    unfold AcceptsPair
    simp only [hz, hq0, hq2, hq3, errSum, hq1, dblEpsilon, show 3 - 1 = 2 from rfl]
    norm_num
  refine ⟨quad 1 0 (-1), quadSD 0 (-1) (fun _ => 1), ?_, by rw [hz], by rw [hz], by rw [hz], by rw [hz], ?_⟩
  · unfold quadIT quadLoop
    simp only
    rw [if_neg (by rw [hz]; norm_num), if_pos hacc]
  · rw [hz]
    simp [descending, Finset.sum_range_succ]; norm_num

/-! ## C04 with this root finder -/

/-- The root finder as the code calls it: no roots if it fails. -/
noncomputable def rootFinder (fuel : ℕ) : List ℝ → List (ℝ × ℝ) := fun c =>
  match rootsOf fuel c with
  | .ok zs => zs
  | .error _ => []

/-- The contract assumed in C04 holds for every polynomial whose coefficients are zero or normal numbers and of which at most three consecutive ones do not
vanish. -/
theorem C96_finds_real_roots (fuel k : ℕ) (c : List ℝ) (hn : ∀ x ∈ c, x = 0 ∨ 1 / 2 ^ 1022 ≤ |x|)
    (hk : ∀ i, i < k ∨ k + 2 < i → c.getD i 0 = 0) (hl : c.length ≤ 101) : FindsRealRoots c (rootFinder fuel c) := by
  intro hne x hx
  obtain ⟨t, ht⟩ := trimmed_exists c
  have hsame : ofCoeffs c = ofCoeffs t := by
    obtain ⟨d, rfl, h1, _⟩ := ht
    have hd : ∀ y ∈ d, y = 0 := fun y hy => (hn y (List.mem_append_right _ hy)).resolve_right (not_le.mpr (h1 y hy))
    unfold ofCoeffs
    rw [List.length_append, Finset.sum_range_add]
    rw [show (∑ x ∈ Finset.range d.length, C ((t ++ d).getD (t.length + x) 0) * X ^ (t.length + x) : ℝ[X]) = 0 from ?_, add_zero]
    · refine Finset.sum_congr rfl fun i hi => ?_
      rw [List.getD_append _ _ _ _ (Finset.mem_range.mp hi)]
    · refine Finset.sum_eq_zero fun i hi => ?_
      have hi' := Finset.mem_range.mp hi
      rw [List.getD_append_right _ _ _ _ (by omega), show t.length + i - t.length = i by omega, List.getD_eq_getElem _ _ hi', hd _ (List.getElem_mem hi')]
      simp
  rw [hsame] at hne hx
  have hlen : t.length ≤ c.length := by obtain ⟨d, rfl, _⟩ := ht; simp
  have hget : ∀ i < t.length, t.getD i 0 = c.getD i 0 := by
    intro i hi
    obtain ⟨d, rfl, _⟩ := ht
    rw [List.getD_append _ _ _ _ hi]
  match hn' : t.length with
  | 0 => exact absurd (by rw [List.length_eq_zero_iff.mp hn']; simp [ofCoeffs]) hne
  | 1 =>
    exfalso
    obtain ⟨a, rfl⟩ := List.length_eq_one_iff.mp hn'
    have := last_ne_zero ht 0 rfl
    simp [ofCoeffs] at hx this
    exact this hx
  | n + 2 =>
    have hlast := last_ne_zero ht (n + 1) hn'
    obtain ⟨zs, h1, h2⟩ := C96_exact fuel k c t ht (by omega) (by omega)
      (fun i hi => by
        by_cases hit : i < t.length
        · rw [hget i hit]; exact hk i (.inl hi)
        · exact List.getD_eq_default _ _ (not_lt.mp hit))
      (by
        by_contra hc
        apply hlast
        rw [hget (n + 1) (by omega)]
        exact hk (n + 1) (.inr (by omega)))
    have h3 := exactZeros_real hne h2 x hx
    obtain ⟨z, hz, hzx⟩ := List.mem_map.mp h3
    refine ⟨z, ?_, ?_, ?_⟩
    · unfold rootFinder rootsOf
      rw [h1]; exact hz
    · exact congrArg Complex.re hzx
    · have : z.2 = 0 := congrArg Complex.im hzx
      rw [this, abs_zero]; positivity

/-- C04, with the root finder of the code in place of the assumption: for polynomials of degree at most `d + 3` (cubic for the values themselves) with
coefficients that are zero or normal numbers, `computeMinMax` returns an attained global minimum and maximum of the `d`-th derivative over the interval. -/
theorem C04_with_root_finder (fuel : ℕ) (c : List ℝ) (a b : ℝ) (d : ℕ) (hN : c.length ≤ 22) (hd : d < c.length) (hab : a ≤ b)
    (hn : ∀ x ∈ c, x = 0 ∨ 1 / 2 ^ 1022 ≤ |x|) (hdeg : ∀ i, d + 3 < i → c.getD i 0 = 0)
    (hrange : ∀ x ∈ Set.Icc a b, |derivAt c d x| ≤ (2 - 1 / 2 ^ 52) * 2 ^ 1023) :
    ∃ mn mx : ℝ × ℝ, Poly.computeMinMax (rootFinder fuel) c a b d = .ok (some (mn, mx)) ∧
      (mn.1 ∈ Set.Icc a b ∧ mn.2 = derivAt c d mn.1 ∧ ∀ x ∈ Set.Icc a b, mn.2 ≤ derivAt c d x) ∧
      (mx.1 ∈ Set.Icc a b ∧ mx.2 = derivAt c d mx.1 ∧ ∀ x ∈ Set.Icc a b, derivAt c d x ≤ mx.2) := by
  refine C04_computeMinMax (rootFinder fuel) c a b d hN hd hab ?_ hrange
  intro r hr hrl
  have hcoef : ∀ i, r.getD i 0 = (i + (d + 1)).descFactorial (d + 1) * c.getD (i + (d + 1)) 0 := by
    intro i
    rw [← coeff_ofCoeffs r i, hr, coeff_iterate_derivative, coeff_ofCoeffs, nsmul_eq_mul]
  refine C96_finds_real_roots fuel 0 r ?_ ?_ (by omega)
  · intro x hx
    obtain ⟨i, hi, rfl⟩ := List.mem_iff_getElem.mp hx
    rw [← List.getD_eq_getElem r 0 hi, hcoef i]
    by_cases hc : i + (d + 1) < c.length
    · rw [List.getD_eq_getElem c 0 hc]
      rcases hn _ (List.getElem_mem hc) with h | h
      · left; rw [h, mul_zero]
      · right
        rw [abs_mul, abs_of_nonneg (Nat.cast_nonneg _)]
        have : (1 : ℝ) ≤ ((i + (d + 1)).descFactorial (d + 1) : ℕ) := by
          exact_mod_cast Nat.pos_of_ne_zero (by rw [Ne, Nat.descFactorial_eq_zero_iff_lt]; omega)
        calc (1 : ℝ) / 2 ^ 1022 ≤ |c[i + (d + 1)]| := h
          _ = 1 * |c[i + (d + 1)]| := (one_mul _).symm
          _ ≤ _ := mul_le_mul_of_nonneg_right this (abs_nonneg _)
    · left; rw [List.getD_eq_default _ _ (not_lt.mp hc), mul_zero]
  · intro i hi
    rw [hcoef i, hdeg _ (by omega), mul_zero]

-- t³ - 3t on [-2, 3]: all hypotheses are met
example : ∃ mn mx : ℝ × ℝ, Poly.computeMinMax (rootFinder 0) [0, -3, 0, 1] (-2) 3 0 = .ok (some (mn, mx)) ∧
    (∀ x ∈ Set.Icc (-2 : ℝ) 3, mn.2 ≤ derivAt [0, -3, 0, 1] 0 x) ∧ (∀ x ∈ Set.Icc (-2 : ℝ) 3, derivAt [0, -3, 0, 1] 0 x ≤ mx.2) := by
  have h1 : (1 : ℝ) / 2 ^ 1022 ≤ 1 := div_le_one_of_le₀ (one_le_pow₀ (by norm_num)) (by positivity)
  obtain ⟨mn, mx, h, h2, h3⟩ := C04_with_root_finder 0 [0, -3, 0, 1] (-2) 3 0 (by simp) (by simp) (by norm_num)
    (by
      intro x hx
      simp only [List.mem_cons, List.not_mem_nil, or_false] at hx
      rcases hx with rfl | rfl | rfl | rfl
      · exact .inl rfl
      · right; rw [abs_neg, abs_of_pos (by norm_num)]; exact h1.trans (by norm_num)
      · exact .inl rfl
      · right; rw [abs_one]; exact h1)
    (by intro i hi; exact List.getD_eq_default _ _ (by simpa using (by omega)))
    (by
      intro x hx
      have hv : derivAt ([0, -3, 0, 1] : List ℝ) 0 x = x ^ 3 - 3 * x := by
        simp [derivAt, ofCoeffs, Finset.sum_range_succ]; ring
      obtain ⟨h1, h2⟩ := hx
      have : |x ^ 3 - 3 * x| ≤ 100 := by
        rw [abs_le]; constructor <;> nlinarith [sq_nonneg x, mul_nonneg (sub_nonneg.mpr h2) (sq_nonneg x), mul_nonneg (by linarith : 0 ≤ x + 2) (sq_nonneg x)]
      rw [hv]
      refine this.trans ?_
      have h3 : (100 : ℝ) ≤ 2 ^ 1023 := by
        calc (100 : ℝ) ≤ 2 ^ 7 := by norm_num
          _ ≤ 2 ^ 1023 := pow_le_pow_right₀ (by norm_num) (by norm_num)
      have h4 : (1 : ℝ) ≤ 2 - 1 / 2 ^ 52 := by norm_num
      calc (100 : ℝ) ≤ 2 ^ 1023 := h3
        _ = 1 * 2 ^ 1023 := (one_mul _).symm
        _ ≤ _ := mul_le_mul_of_nonneg_right h4 (by positivity))
  exact ⟨mn, mx, h, h2.2.2, h3.2.2⟩

/-! ## C04 with approximate roots -/

/-- The value of a function at a point within `ε` of a critical point differs from the one there by at most `M ε²`, where `M` bounds the second derivative. -/
theorem near_critical {f g h : ℝ → ℝ} {a b M ε x t : ℝ} (hf : ∀ y, HasDerivAt f (g y) y) (hg : ∀ y, HasDerivAt g (h y) y)
    (hM : ∀ y ∈ Set.Icc a b, |h y| ≤ M) (hx : x ∈ Set.Icc a b) (ht : t ∈ Set.Icc a b) (h0 : g x = 0) (hε : |t - x| ≤ ε) :
    |f t - f x| ≤ M * ε ^ 2 := by
  have hM0 : 0 ≤ M := (abs_nonneg _).trans (hM x hx)
  have hε0 : 0 ≤ ε := (abs_nonneg _).trans hε
  have hgb : ∀ y ∈ Set.Icc a b, |g y| ≤ M * |y - x| := by
    intro y hy
    have := (convex_Icc a b).norm_image_sub_le_of_norm_hasDerivWithin_le (f := g) (f' := h) (C := M)
      (fun z _ => (hg z).hasDerivWithinAt) hM hx hy
    simpa [h0] using this
  have hsub : Set.uIcc x t ⊆ Set.Icc a b := Set.uIcc_subset_Icc hx ht
  have := (convex_uIcc x t).norm_image_sub_le_of_norm_hasDerivWithin_le (f := f) (f' := g) (C := M * ε)
    (fun z _ => (hf z).hasDerivWithinAt)
    (by
      intro y hy
      refine (hgb y (hsub hy)).trans (mul_le_mul_of_nonneg_left ?_ hM0)
      exact (Set.abs_sub_left_of_mem_uIcc hy).trans hε)
    Set.left_mem_uIcc Set.right_mem_uIcc
  rw [Real.norm_eq_abs, Real.norm_eq_abs] at this
  calc |f t - f x| ≤ M * ε * |t - x| := this
    _ ≤ M * ε * ε := mul_le_mul_of_nonneg_left hε (mul_nonneg hM0 hε0)
    _ = M * ε ^ 2 := by ring

/-- C04 for a root finder that is accurate only up to `ε`: the values returned are attained in the interval and are within `M ε²` of the true minimum and maximum,
where `M` bounds the second derivative of the quantity over the interval. -/
theorem C04_approximate (rf : List ℝ → List (ℝ × ℝ)) (c : List ℝ) (a b : ℝ) (d : ℕ) (ε M : ℝ)
    (hN : c.length ≤ 22) (hd : d < c.length) (hab : a ≤ b)
    (hrf : ∀ r, ofCoeffs r = derivative^[d + 1] (ofCoeffs c) → r.length = c.length → FindsRealRootsWithin ε r (rf r))
    (hM : ∀ x ∈ Set.Icc a b, |derivAt c (d + 2) x| ≤ M)
    (hrange : ∀ x ∈ Set.Icc a b, |derivAt c d x| ≤ (2 - 1 / 2 ^ 52) * 2 ^ 1023) :
    ∃ mn mx : ℝ × ℝ, Poly.computeMinMax rf c a b d = .ok (some (mn, mx)) ∧
      (mn.1 ∈ Set.Icc a b ∧ mn.2 = derivAt c d mn.1 ∧ ∀ x ∈ Set.Icc a b, mn.2 ≤ derivAt c d x + M * ε ^ 2) ∧
      (mx.1 ∈ Set.Icc a b ∧ mx.2 = derivAt c d mx.1 ∧ ∀ x ∈ Set.Icc a b, derivAt c d x ≤ mx.2 + M * ε ^ 2) := by
  have hrange : ∀ x ∈ Set.Icc a b, |derivAt c d x| ≤ Poly.dblMax := hrange
  obtain ⟨r, hr, hrl, hrp⟩ := getCoefficients_eq c (d + 1) hN (by omega)
  have hcomplete := hrf r hrp hrl
  have hM0 : 0 ≤ M := (abs_nonneg _).trans (hM a (Set.left_mem_Icc.mpr hab))
  have hsq : 0 ≤ M * ε ^ 2 := mul_nonneg hM0 (sq_nonneg _)
  set cs : List ℝ := (rf r).filter (fun z => ¬ (Poly.dblEps < |z.2|) ∧ ¬ (z.1 < a ∨ b < z.1)) |>.map Prod.fst with hcs
  have hcand : Poly.computeMinMaxCandidates rf c a b (d + 1) = .ok (some (a :: b :: cs)) := by
    unfold Poly.computeMinMaxCandidates
    rw [if_neg (by omega), hr]
    simp [Poly.selectMinMaxCandidatesFromRoots, not_lt.mpr hab, hcs, pure, Except.pure, bind, Except.bind]
  have hmem : ∀ t ∈ a :: b :: cs, t ∈ Set.Icc a b := by
    intro t ht
    simp only [List.mem_cons] at ht
    rcases ht with rfl | rfl | ht
    · exact Set.left_mem_Icc.mpr hab
    · exact Set.right_mem_Icc.mpr hab
    · rw [hcs] at ht
      simp only [List.mem_map, List.mem_filter, decide_eq_true_eq] at ht
      obtain ⟨z, ⟨_, _, hz⟩, rfl⟩ := ht
      push Not at hz
      exact hz
  obtain ⟨res, h1, h2, h3, h4, h5, h6, h7, h8, h9⟩ := minMaxLoop_spec c d hN (Set.Icc a b) (a :: b :: cs) hmem
    ((a, Poly.dblMax), (a, -Poly.dblMax)) (Set.left_mem_Icc.mpr hab) (Set.left_mem_Icc.mpr hab)
  -- every critical point has a candidate nearby
  have hnear : (∃ x, derivAt c (d + 1) x ≠ 0) → ∀ x ∈ Set.Icc a b, derivAt c (d + 1) x = 0 → ∃ t ∈ a :: b :: cs, |t - x| ≤ ε := by
    rintro ⟨y, hy⟩ x hx h0
    have hne : ofCoeffs r ≠ 0 := by
      intro he; apply hy; rw [derivAt, ← hrp, he, eval_zero]
    obtain ⟨z, hz, hz1, hz2⟩ := hcomplete hne x (by rw [hrp]; exact h0)
    obtain ⟨hz1l, hz1r⟩ := abs_le.mp hz1
    by_cases hza : z.1 < a
    · exact ⟨a, by simp, by rw [abs_le]; constructor <;> linarith [hx.1]⟩
    by_cases hzb : b < z.1
    · exact ⟨b, by simp, by rw [abs_le]; constructor <;> linarith [hx.2]⟩
    refine ⟨z.1, ?_, hz1⟩
    simp only [List.mem_cons, hcs, List.mem_map, List.mem_filter, decide_eq_true_eq]
    right; right
    exact ⟨z, ⟨hz, not_lt.mpr hz2, by push Not; exact ⟨not_lt.mp hza, not_lt.mp hzb⟩⟩, rfl⟩
  -- so the value of every point is within the bound of a candidate that is below it, and of one above it
  have hcrit : ∀ (σ : ℝ), σ = 1 ∨ σ = -1 → ∀ y ∈ Set.Icc a b, ∃ t ∈ a :: b :: cs, σ * derivAt c d t ≤ σ * derivAt c d y + M * ε ^ 2 := by
    intro σ hσ y hy
    obtain ⟨x, hxS, hxI, hx⟩ := exists_min_candidate (f := fun x => σ * derivAt c d x) (g := fun x => σ * derivAt c (d + 1) x) hab
      (fun x => (hasDerivAt_derivAt c d x).const_mul σ) (S := {t | t = a ∨ t = b ∨ derivAt c (d + 1) t = 0}) (by simp) (by simp)
      (fun _ z _ hz => .inr (.inr (by rcases hσ with rfl | rfl <;> simpa using hz)))
    rcases hxS with rfl | rfl | h0
    · exact ⟨_, by simp, (hx y hy).trans (by linarith)⟩
    · exact ⟨_, by simp, (hx y hy).trans (by linarith)⟩
    · by_cases hg : ∃ x, derivAt c (d + 1) x ≠ 0
      · obtain ⟨t, ht, htx⟩ := hnear hg x hxI h0
        refine ⟨t, ht, ?_⟩
        have := near_critical (hasDerivAt_derivAt c d) (hasDerivAt_derivAt c (d + 1)) hM hxI (hmem t ht) h0 htx
        obtain ⟨hl, hu⟩ := abs_le.mp this
        have hxy := hx y hy
        rcases hσ with rfl | rfl <;> linarith
      · push Not at hg
        have hconst : ∀ u v : ℝ, derivAt c d u = derivAt c d v :=
          is_const_of_deriv_eq_zero (fun u => (hasDerivAt_derivAt c d u).differentiableAt)
            (fun u => by rw [(hasDerivAt_derivAt c d u).deriv, hg u])
        exact ⟨a, by simp, by rw [hconst a y]; linarith⟩
  refine ⟨res.1, res.2, ?_, ⟨h2, ?_, ?_⟩, ⟨h3, ?_, ?_⟩⟩
  · unfold Poly.computeMinMax
    rw [hcand]
    simp only [bind, Except.bind, Poly.selectMinMaxFromCandidates, h1, pure, Except.pure]
  · rcases h4 with h4 | h4
    · have e1 : res.1.1 = a := by rw [h4]
      have e2 : res.1.2 = Poly.dblMax := by rw [h4]
      rw [e1, e2]
      have := h8 a (by simp)
      rw [e2] at this
      exact le_antisymm this ((abs_le.mp (hrange a (Set.left_mem_Icc.mpr hab))).2)
    · exact h4.2
  · intro y hy
    obtain ⟨t, ht, hle⟩ := hcrit 1 (.inl rfl) y hy
    have := h8 t ht
    linarith
  · rcases h5 with h4 | h4
    · have e1 : res.2.1 = a := by rw [h4]
      have e2 : res.2.2 = -Poly.dblMax := by rw [h4]
      rw [e1, e2]
      have := h9 a (by simp)
      rw [e2] at this
      exact le_antisymm ((abs_le.mp (hrange a (Set.left_mem_Icc.mpr hab))).1) this
    · exact h4.2
  · intro y hy
    obtain ⟨t, ht, hle⟩ := hcrit (-1) (.inr rfl) y hy
    have := h9 t ht
    linarith

-- a root finder that is off by 1/100 everywhere meets the contract
example : ∃ rf : List ℝ → List (ℝ × ℝ), ∀ r, FindsRealRootsWithin (1 / 100) r (rf r) := by
  refine ⟨fun r => (ofCoeffs r).roots.toList.map (fun x => (x + 1 / 100, 0)), fun r hne x hx => ⟨(x + 1 / 100, 0), ?_, ?_, by simp⟩⟩
  · simp only [List.mem_map, Multiset.mem_toList]
    exact ⟨x, (mem_roots hne).mpr hx, rfl⟩
  · rw [add_sub_cancel_left, abs_of_pos (by norm_num)]

end Verif.Properties
