import Mathlib.Analysis.Calculus.Deriv.Pow
import Mathlib.Analysis.Calculus.Deriv.Mul
import Verif.Lemmas.Extremum
import Verif.Lemmas.Trajectory

set_option linter.unusedSectionVars false

namespace Verif

open Polynomial Spec

section Ring
variable {K : Type*} [CommRing K]

theorem ofCoeffs_take (r : List K) (n : ℕ) (h : ∀ i, n ≤ i → r.getD i 0 = 0) : ofCoeffs (r.take n) = ofCoeffs r := by
  ext i
  rw [coeff_ofCoeffs, coeff_ofCoeffs]
  by_cases hi : i < n
  · simp [List.getD_eq_getElem?_getD, hi]
  · rw [h i (by omega)]
    simp [List.getD_eq_getElem?_getD, hi]

theorem getCoefficients_head (p : List K) (N k : ℕ) (_hl : p.length = N) (hN : N ≤ 22) (hk : k ≤ N) :
    ∃ r d, Poly.getCoefficients p k = .ok r ∧ Segment.head? (N - k) r = .ok d ∧ d.length = N - k ∧
      ofCoeffs d = derivative^[k] (ofCoeffs p) := by
  obtain ⟨r, h1, h2, h3⟩ := getCoefficients_eq p k (by unfold kMaxConvolutionSize; omega) (by omega)
  refine ⟨r, r.take (N - k), h1, ?_, ?_, ?_⟩
  · unfold Segment.head?; rw [if_pos (by omega)]
  · simp; omega
  · rw [ofCoeffs_take, h3]
    intro i hi
    rw [← coeff_ofCoeffs, h3, coeff_iterate_derivative, coeff_ofCoeffs, getD_of_le _ _ (by omega)]
    simp

theorem convolve_derivs (p : List K) (N k : ℕ) (_hl : p.length = N) (_hN : N ≤ 22) (hk : k + 1 ≤ N) (d dd : List K)
    (hd : d.length = N - k) (hdp : ofCoeffs d = derivative^[k] (ofCoeffs p)) (hdd : dd.length = N - k - 1)
    (hddp : ofCoeffs dd = derivative^[k + 1] (ofCoeffs p)) :
    ∃ r, Poly.convolve d dd = .ok r ∧ r.length = (N - k) + (N - k - 1) - 1 ∧
      ofCoeffs r = derivative^[k] (ofCoeffs p) * derivative^[k + 1] (ofCoeffs p) := by
  by_cases h : N - k - 1 = 0
  · have hdd0 : dd = [] := List.length_eq_zero_iff.mp (by omega)
    subst hdd0
    refine ⟨[], ?_, by simp; omega, ?_⟩
    · unfold Poly.convolve
      rw [if_neg (by rw [List.length_nil]; omega)]
      have : d.length + ([] : List K).length - 1 = 0 := by rw [List.length_nil]; omega
      rw [this]; rfl
    · rw [← hddp]; simp [ofCoeffs_nil]
  · obtain ⟨r, h1, h2, h3⟩ := ofCoeffs_convolve d dd (by intro h0; simp [h0] at hd; omega) (by intro h0; simp [h0] at hdd; omega)
    exact ⟨r, h1, by omega, by rw [h3, hdp, hddp]⟩

theorem polyAt_nat (s : Segment K) (d : ℕ) (hd : d < s.polys.length) : s.polyAt (d : ℤ) = .ok (s.polys.getD d []) := by
  unfold Segment.polyAt at?
  rw [if_neg (by omega)]
  simp [List.getElem?_eq_getElem hd, List.getD_eq_getElem?_getD]

theorem getD_mem (s : Segment K) (d : ℕ) (hd : d < s.polys.length) : s.polys.getD d [] ∈ s.polys := by
  simp [List.getD_eq_getElem?_getD, List.getElem?_eq_getElem hd]

theorem convSum_spec (s : Segment K) (k : ℕ) (hR : Regular s) (hk : k + 1 ≤ s.N) (dims : List ℕ)
    (hdims : ∀ d ∈ dims, d < s.polys.length) (acc : List K) (hacc : acc.length = (s.N - k) + (s.N - k - 1) - 1) :
    ∃ r, s.convSum k (dims.map Int.ofNat) acc = .ok (some r) ∧ r.length = (s.N - k) + (s.N - k - 1) - 1 ∧
      ofCoeffs r = ofCoeffs acc + (dims.map fun d => derivative^[k] (ofCoeffs (s.polys.getD d [])) *
        derivative^[k + 1] (ofCoeffs (s.polys.getD d []))).sum := by
  induction dims generalizing acc with
  | nil => exact ⟨acc, rfl, hacc, by simp⟩
  | cons d dims ih =>
    have hd := hdims d (by simp)
    have hlen := hR.1 _ (getD_mem s d hd)
    obtain ⟨r1, d1, a1, a2, a3, a4⟩ := getCoefficients_head _ s.N k hlen hR.2 (by omega)
    obtain ⟨r2, d2, b1, b2, b3, b4⟩ := getCoefficients_head _ s.N (k + 1) hlen hR.2 (by omega)
    obtain ⟨cv, c1, c2, c3⟩ := convolve_derivs _ s.N k hlen hR.2 hk d1 d2 a3 a4 (by omega) b4
    have hz : (List.zipWith (· + ·) acc cv).length = (s.N - k) + (s.N - k - 1) - 1 := by simp; omega
    obtain ⟨r, e1, e2, e3⟩ := ih (fun x hx => hdims x (by simp [hx])) _ hz
    refine ⟨r, ?_, e2, ?_⟩
    · rw [List.map_cons, Segment.convSum, if_neg (by simp [Segment.D]; omega)]
      have : (Int.ofNat d) = (d : ℤ) := rfl
      rw [this, polyAt_nat s d hd]
      have b2' : Segment.head? (s.N - k - 1) r2 = .ok d2 := by rw [← b2]; congr 1
      simp only [bind, Except.bind, a1, a2, b1, b2', c1]
      exact e1
    · rw [e3, ofCoeffs_zipWith_add _ _ (by omega), c3]
      simp [add_assoc]

end Ring

theorem sumSquares_eq (s : Segment ℝ) (k : ℕ) (t : ℝ) (hR : Regular s) (dims : List ℕ) (hdims : ∀ d ∈ dims, d < s.polys.length)
    (acc : ℝ) : s.sumSquares k t (dims.map Int.ofNat) acc =
      .ok (acc + (dims.map fun d => derivAt (s.polys.getD d []) k t ^ 2).sum) := by
  induction dims generalizing acc with
  | nil => simp [Segment.sumSquares]
  | cons d dims ih =>
    have hd := hdims d (by simp)
    rw [List.map_cons, Segment.sumSquares]
    have : (Int.ofNat d) = (d : ℤ) := rfl
    rw [this, polyAt_nat s d hd]
    simp only [bind, Except.bind]
    rw [evaluate_eq _ _ _ (hR.le _ (getD_mem s d hd))]
    simp only
    rw [ih (fun x hx => hdims x (by simp [hx]))]
    simp [add_assoc]

/-- Sum of squares over the dimensions. -/
noncomputable def sqMag (s : Segment ℝ) (dims : List ℕ) (k : ℕ) (t : ℝ) : ℝ :=
  (dims.map fun d => derivAt (s.polys.getD d []) k t ^ 2).sum

theorem magnitude_eq (s : Segment ℝ) (dims : List ℕ) (k : ℕ) (t : ℝ) : magnitude s dims k t = Real.sqrt (sqMag s dims k t) := rfl

theorem sqMag_nonneg (s : Segment ℝ) (dims : List ℕ) (k : ℕ) (t : ℝ) : 0 ≤ sqMag s dims k t := by
  unfold sqMag
  apply List.sum_nonneg
  intro x hx
  obtain ⟨d, _, rfl⟩ := List.mem_map.mp hx
  positivity

theorem hasDerivAt_sqMag (s : Segment ℝ) (dims : List ℕ) (k : ℕ) (t : ℝ) :
    HasDerivAt (sqMag s dims k) (2 * ((dims.map fun d => derivative^[k] (ofCoeffs (s.polys.getD d [])) *
        derivative^[k + 1] (ofCoeffs (s.polys.getD d []))).sum).eval t) t := by
  induction dims with
  | nil =>
    have e : sqMag s [] k = fun _ => 0 := by funext x; simp [sqMag]
    rw [e]; simpa using hasDerivAt_const t (0 : ℝ)
  | cons d dims ih =>
    have h1 := (hasDerivAt_derivAt (s.polys.getD d []) k t).pow 2
    have h2 := h1.add ih
    have e : sqMag s (d :: dims) k = fun x => (derivAt (s.polys.getD d []) k ^ 2) x + sqMag s dims k x := by
      funext x; simp [sqMag]
    rw [e]
    refine h2.congr_deriv ?_
    simp only [List.map_cons, List.sum_cons, eval_add, eval_mul, derivAt]
    push_cast
    ring

/-- The candidate times of a segment for valid dimensions: the end points and further points of the interval; among them, for two or
more dimensions, all interior stationary points of the squared magnitude, and for one dimension all of the signed value. -/
theorem candidateTimes_spec (rf : Poly.RootFinder ℝ) (hrf : ∀ c, FindsRealRoots c (rf c)) (s : Segment ℝ)
    (k : ℕ) (t0 t1 : ℝ) (dims : List ℕ) (hR : Regular s) (hk : k < s.N) (hne : dims ≠ [])
    (hdims : ∀ d ∈ dims, d < s.polys.length) (h01 : t0 ≤ t1) :
    ∃ ts, s.candidateTimes rf k t0 t1 (dims.map Int.ofNat) = .ok (some ts) ∧ t0 ∈ ts ∧ t1 ∈ ts ∧
      (∀ t ∈ ts, t ∈ Set.Icc t0 t1) ∧
      (2 ≤ dims.length → ∃ g : ℝ → ℝ, (∀ x, HasDerivAt (sqMag s dims k) (g x) x) ∧
        ((∃ x, g x ≠ 0) → ∀ x ∈ Set.Icc t0 t1, g x = 0 → x ∈ ts)) ∧
      (∀ d, dims = [d] → (∃ x, derivAt (s.polys.getD d []) (k + 1) x ≠ 0) → ∀ x ∈ Set.Icc t0 t1,
        derivAt (s.polys.getD d []) (k + 1) x = 0 → x ∈ ts) := by
  have sel : ∀ (c : List ℝ), ∃ ts, Poly.selectMinMaxCandidatesFromRoots t0 t1 (rf c) = some ts ∧ t0 ∈ ts ∧ t1 ∈ ts ∧
      (∀ t ∈ ts, t ∈ Set.Icc t0 t1) ∧ (ofCoeffs c ≠ 0 → ∀ x ∈ Set.Icc t0 t1, (ofCoeffs c).eval x = 0 → x ∈ ts) := by
    intro c
    unfold Poly.selectMinMaxCandidatesFromRoots
    rw [if_neg (not_lt.mpr h01)]
    refine ⟨_, rfl, by simp, by simp, ?_, ?_⟩
    · intro t ht
      simp only [List.mem_cons] at ht
      rcases ht with rfl | rfl | ht
      · exact Set.left_mem_Icc.mpr h01
      · exact Set.right_mem_Icc.mpr h01
      · simp only [List.mem_map, List.mem_filter, decide_eq_true_eq] at ht
        obtain ⟨z, ⟨_, _, hz⟩, rfl⟩ := ht
        push Not at hz
        exact hz
    · intro hc0 x hx h0
      obtain ⟨z, hz, hz1, hz2⟩ := hrf c hc0 x h0
      simp only [List.mem_cons, List.mem_map, List.mem_filter, decide_eq_true_eq]
      right; right
      refine ⟨z, ⟨hz, not_lt.mpr hz2, ?_⟩, hz1⟩
      rw [hz1]; push Not; exact hx
  match dims, hne with
  | [d], _ =>
    have hd := hdims d (by simp)
    have hlen := hR.1 _ (getD_mem s d hd)
    obtain ⟨r, h1, h2, h3⟩ := getCoefficients_eq (s.polys.getD d []) (k + 1) (by have := hR.2; unfold kMaxConvolutionSize; omega) (by omega)
    obtain ⟨ts, e1, e2, e3, e4, e5⟩ := sel r
    refine ⟨ts, ?_, e2, e3, e4, by simp, ?_⟩
    · simp only [List.map_cons, List.map_nil, Segment.candidateTimes]
      have : (Int.ofNat d) = (d : ℤ) := rfl
      rw [this, polyAt_nat s d hd]
      simp only [bind, Except.bind, Poly.computeMinMaxCandidates]
      rw [if_neg (by omega), h1]
      simp only [e1, pure, Except.pure]
    · intro d' hd' ⟨y, hy⟩ x hx h0
      cases hd'
      refine e5 ?_ x hx (by rw [h3]; exact h0)
      intro hz; apply hy; rw [derivAt, ← h3, hz, eval_zero]
  | d1 :: d2 :: rest, _ =>
    obtain ⟨r, h1, h2, h3⟩ := convSum_spec s k hR (by omega) (d1 :: d2 :: rest) hdims
      (List.replicate ((s.N - k) + (s.N - k - 1) - 1) 0) (by simp)
    obtain ⟨ts, e1, e2, e3, e4, e5⟩ := sel r
    refine ⟨ts, ?_, e2, e3, e4, ?_, by simp⟩
    · simp only [List.map_cons, Segment.candidateTimes]
      rw [if_neg (by omega)]
      simp only [List.map_cons] at h1
      rw [h1]
      simp only [bind, Except.bind, Poly.computeMinMaxCandidates, Nat.not_lt_zero, if_false, Poly.getCoefficients, if_true, e1,
        pure, Except.pure]
    · intro _
      have hz : ofCoeffs (List.replicate ((s.N - k) + (s.N - k - 1) - 1) (0 : ℝ)) = 0 := by
        have := ofCoeffs_append_zeros ([] : List ℝ) ((s.N - k) + (s.N - k - 1) - 1)
        simpa [ofCoeffs_nil] using this
      rw [hz, zero_add] at h3
      refine ⟨fun x => 2 * (ofCoeffs r).eval x, fun x => ?_, ?_⟩
      · rw [h3]; exact hasDerivAt_sqMag s _ k x
      · rintro ⟨y, hy⟩ x hx h0
        refine e5 ?_ x hx ?_
        · intro hz; apply hy; simp [hz]
        · have h0 : 2 * (ofCoeffs r).eval x = 0 := h0
          linarith

theorem candidates_eq (rf : Poly.RootFinder ℝ) (s : Segment ℝ) (k : ℕ) (t0 t1 : ℝ) (dims : List ℕ) (hR : Regular s)
    (hdims : ∀ d ∈ dims, d < s.polys.length) (ts : List ℝ) (h : s.candidateTimes rf k t0 t1 (dims.map Int.ofNat) = .ok (some ts)) :
    s.computeMinMaxMagnitudeCandidates rf k t0 t1 (dims.map Int.ofNat) =
      .ok (ts.map fun t => ⟨t, magnitude s dims k t, 0⟩) := by
  unfold Segment.computeMinMaxMagnitudeCandidates
  rw [h]
  simp only [bind, Except.bind, Option.getD_some]
  apply mapM_ok
  intro t _
  rw [sumSquares_eq s k t hR dims hdims]
  simp only [zero_add, pure, Except.pure, magnitude]

/-- The selection fold: results are attained by candidates and bound all of them. -/
theorem selectFold_spec (f : ℝ → ℝ) (t0 t1 : ℝ) (ts : List ℝ) (hts : ∀ t ∈ ts, t ∈ Set.Icc t0 t1)
    (st : Extremum ℝ × Extremum ℝ) :
    let r := (ts.map fun t => (⟨t, f t, 0⟩ : Extremum ℝ)).foldl
      (fun (acc : Extremum ℝ × Extremum ℝ) c =>
        if c.time < t0 ∨ t1 < c.time then acc else (Segment.minE acc.1 c, Segment.maxE acc.2 c)) st
    (r.1 = st.1 ∨ (r.1.time ∈ ts ∧ r.1.value = f r.1.time)) ∧ (r.2 = st.2 ∨ (r.2.time ∈ ts ∧ r.2.value = f r.2.time)) ∧
    r.1.value ≤ st.1.value ∧ st.2.value ≤ r.2.value ∧ (∀ t ∈ ts, r.1.value ≤ f t) ∧ (∀ t ∈ ts, f t ≤ r.2.value) := by
  induction ts generalizing st with
  | nil => simp
  | cons t ts ih =>
    have ht := hts t (by simp)
    simp only [List.map_cons, List.foldl_cons]
    rw [if_neg (by have h1 := ht.1; have h2 := ht.2; push Not; exact ⟨h1, h2⟩)]
    set st' : Extremum ℝ × Extremum ℝ := (Segment.minE st.1 ⟨t, f t, 0⟩, Segment.maxE st.2 ⟨t, f t, 0⟩) with hst'
    obtain ⟨a1, a2, a3, a4, a5, a6⟩ := ih (fun x hx => hts x (by simp [hx])) st'
    have m1 : st'.1.value ≤ st.1.value ∧ st'.1.value ≤ f t ∧ (st'.1 = st.1 ∨ st'.1 = ⟨t, f t, 0⟩) := by
      simp only [hst', Segment.minE]
      split
      · rename_i h; exact ⟨h.le, le_refl _, Or.inr rfl⟩
      · rename_i h; exact ⟨le_refl _, not_lt.mp h, Or.inl rfl⟩
    have m2 : st.2.value ≤ st'.2.value ∧ f t ≤ st'.2.value ∧ (st'.2 = st.2 ∨ st'.2 = ⟨t, f t, 0⟩) := by
      simp only [hst', Segment.maxE]
      split
      · rename_i h; exact ⟨h.le, le_refl _, Or.inr rfl⟩
      · rename_i h; exact ⟨le_refl _, not_lt.mp h, Or.inl rfl⟩
    refine ⟨?_, ?_, a3.trans m1.1, m2.1.trans a4, ?_, ?_⟩
    · rcases a1 with a1 | ⟨a1, a1'⟩
      · rcases m1.2.2 with h | h
        · left; rw [a1, h]
        · right; rw [a1, h]; simp
      · right; exact ⟨by simp [a1], a1'⟩
    · rcases a2 with a1 | ⟨a1, a1'⟩
      · rcases m2.2.2 with h | h
        · left; rw [a1, h]
        · right; rw [a1, h]; simp
      · right; exact ⟨by simp [a1], a1'⟩
    · intro x hx
      rcases List.mem_cons.mp hx with rfl | hx
      · exact a3.trans m1.2.1
      · exact a5 x hx
    · intro x hx
      rcases List.mem_cons.mp hx with rfl | hx
      · exact m2.2.1.trans a4
      · exact a6 x hx

theorem dblMax_pos : (0 : ℝ) < Poly.dblMax := by
  unfold Poly.dblMax
  have : (0 : ℝ) < 2 - 1 / 2 ^ 52 := by norm_num
  exact mul_pos this (pow_pos (by norm_num) _)

end Verif
