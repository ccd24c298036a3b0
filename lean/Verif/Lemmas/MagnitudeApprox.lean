import Verif.Lemmas.Magnitude
import Verif.Spec.Magnitude
import Verif.Properties.RPoly

/-!
# Extrema of magnitudes with a root finder that is accurate up to `ε`
-/

namespace Verif

open Polynomial Spec

/-- The squared magnitude as a polynomial. -/
noncomputable def sqPoly (s : Segment ℝ) (dims : List ℕ) (k : ℕ) : ℝ[X] :=
  (dims.map fun d => derivative^[k] (ofCoeffs (s.polys.getD d [])) ^ 2).sum

theorem eval_sqPoly (s : Segment ℝ) (dims : List ℕ) (k : ℕ) (t : ℝ) : (sqPoly s dims k).eval t = sqMag s dims k t := by
  unfold sqPoly sqMag
  induction dims with
  | nil => simp
  | cons d dims ih => simp only [List.map_cons, List.sum_cons, eval_add, ih, eval_pow, derivAt]

theorem magnitude_sq (s : Segment ℝ) (dims : List ℕ) (k : ℕ) (t : ℝ) : magnitude s dims k t ^ 2 = sqMag s dims k t := by
  rw [magnitude_eq, Real.sq_sqrt (sqMag_nonneg s dims k t)]

theorem magnitude_sq_poly (s : Segment ℝ) (dims : List ℕ) (k : ℕ) :
    (fun t => magnitude s dims k t ^ 2) = fun t => (sqPoly s dims k).eval t := by
  funext t; rw [magnitude_sq, eval_sqPoly]

theorem curvature_iff (s : Segment ℝ) (dims : List ℕ) (k : ℕ) (a b M : ℝ) :
    CurvatureBound s dims k a b M ↔ ∀ τ ∈ Set.Icc a b, |(derivative (derivative (sqPoly s dims k))).eval τ| ≤ M := by
  unfold CurvatureBound
  rw [magnitude_sq_poly]
  have h1 : (deriv fun t => (sqPoly s dims k).eval t) = fun t => (derivative (sqPoly s dims k)).eval t := by
    funext t; exact Polynomial.deriv _
  rw [h1]
  have h2 : (deriv fun t => (derivative (sqPoly s dims k)).eval t) = fun t => (derivative (derivative (sqPoly s dims k))).eval t := by
    funext t; exact Polynomial.deriv _
  rw [h2]

theorem derivative_sqPoly (s : Segment ℝ) (dims : List ℕ) (k : ℕ) :
    derivative (sqPoly s dims k) = 2 * (dims.map fun d => derivative^[k] (ofCoeffs (s.polys.getD d [])) *
      derivative^[k + 1] (ofCoeffs (s.polys.getD d []))).sum := by
  unfold sqPoly
  induction dims with
  | nil => simp
  | cons d dims ih =>
    simp only [List.map_cons, List.sum_cons, derivative_add, ih]
    rw [sq, derivative_mul, Function.iterate_succ_apply']
    ring

/-- The candidate times: points of the interval, and near every stationary point that matters there is one. -/
theorem candidateTimes_near (rf : Poly.RootFinder ℝ) (ε : ℝ) (s : Segment ℝ) (k : ℕ) (t0 t1 : ℝ) (dims : List ℕ)
    (hrf : FindsExtrema rf ε s dims k) (hR : Regular s) (hk : k < s.N) (hne : dims ≠ [])
    (hdims : ∀ d ∈ dims, d < s.polys.length) (h01 : t0 ≤ t1) :
    ∃ ts, s.candidateTimes rf k t0 t1 (dims.map Int.ofNat) = .ok (some ts) ∧ t0 ∈ ts ∧ t1 ∈ ts ∧
      (∀ t ∈ ts, t ∈ Set.Icc t0 t1) ∧
      (critical s k dims ≠ 0 → ∀ x ∈ Set.Icc t0 t1, (critical s k dims).eval x = 0 → ∃ t ∈ ts, |t - x| ≤ ε) := by
  have sel : ∀ (c : List ℝ), FindsRealRootsWithin ε c (rf c) →
      ∃ ts, Poly.selectMinMaxCandidatesFromRoots t0 t1 (rf c) = some ts ∧ t0 ∈ ts ∧ t1 ∈ ts ∧
      (∀ t ∈ ts, t ∈ Set.Icc t0 t1) ∧ (ofCoeffs c ≠ 0 → ∀ x ∈ Set.Icc t0 t1, (ofCoeffs c).eval x = 0 → ∃ t ∈ ts, |t - x| ≤ ε) := by
    intro c hc
    unfold Poly.selectMinMaxCandidatesFromRoots
    rw [if_neg (not_lt.mpr h01)]
    refine ⟨_, rfl, by simp, by simp, ?_, ?_⟩
    · intro t ht
      simp only [List.mem_cons] at ht
      rcases ht with rfl | rfl | ht
      · exact Set.left_mem_Icc.mpr h01
      · exact Set.right_mem_Icc.mpr h01
      · simp only [List.mem_map, List.mem_filter, decide_eq_true_eq] at ht
        obtain ⟨z, ⟨_, _, hz⟩, rfl⟩ := ht
        push Not at hz
        exact hz
    · intro hc0 x hx h0
      obtain ⟨z, hz, hz1, hz2⟩ := hc hc0 x h0
      obtain ⟨hz1l, hz1r⟩ := abs_le.mp hz1
      by_cases hza : z.1 < t0
      · exact ⟨t0, by simp, by rw [abs_le]; constructor <;> linarith [hx.1]⟩
      by_cases hzb : t1 < z.1
      · exact ⟨t1, by simp, by rw [abs_le]; constructor <;> linarith [hx.2]⟩
      refine ⟨z.1, ?_, hz1⟩
      simp only [List.mem_cons, List.mem_map, List.mem_filter, decide_eq_true_eq]
      right; right
      exact ⟨z, ⟨hz, not_lt.mpr hz2, by push Not; exact ⟨not_lt.mp hza, not_lt.mp hzb⟩⟩, rfl⟩
  match dims, hne with
  | [d], _ =>
    have hd := hdims d (by simp)
    have hlen := hR.1 _ (getD_mem s d hd)
    obtain ⟨r, h1, h2, h3⟩ := getCoefficients_eq (s.polys.getD d []) (k + 1) (by have := hR.2; unfold kMaxConvolutionSize; omega) (by omega)
    obtain ⟨ts, e1, e2, e3, e4, e5⟩ := sel r (hrf r h3 (by omega))
    refine ⟨ts, ?_, e2, e3, e4, ?_⟩
    · simp only [List.map_cons, List.map_nil, Segment.candidateTimes]
      have : (Int.ofNat d) = (d : ℤ) := rfl
      rw [this, polyAt_nat s d hd]
      simp only [bind, Except.bind, Poly.computeMinMaxCandidates]
      rw [if_neg (by omega), h1]
      simp only [e1, pure, Except.pure]
    · rw [show critical s k [d] = ofCoeffs r from h3.symm]; exact e5
  | d1 :: d2 :: rest, _ =>
    obtain ⟨r, h1, h2, h3⟩ := convSum_spec s k hR (by omega) (d1 :: d2 :: rest) hdims
      (List.replicate ((s.N - k) + (s.N - k - 1) - 1) 0) (by simp)
    have hz : ofCoeffs (List.replicate ((s.N - k) + (s.N - k - 1) - 1) (0 : ℝ)) = 0 := by
      have := ofCoeffs_append_zeros ([] : List ℝ) ((s.N - k) + (s.N - k - 1) - 1)
      simpa [ofCoeffs_nil] using this
    rw [hz, zero_add] at h3
    obtain ⟨ts, e1, e2, e3, e4, e5⟩ := sel r (hrf r h3 (by omega))
    refine ⟨ts, ?_, e2, e3, e4, ?_⟩
    · simp only [List.map_cons, Segment.candidateTimes]
      rw [if_neg (by omega)]
      simp only [List.map_cons] at h1
      rw [h1]
      simp only [bind, Except.bind, Poly.computeMinMaxCandidates, Nat.not_lt_zero, if_false, Poly.getCoefficients, if_true, e1,
        pure, Except.pure]
    · rw [show critical s k (d1 :: d2 :: rest) = ofCoeffs r from h3.symm]; exact e5

/-- Where the squared magnitude has a vanishing derivative, so has the polynomial handed to the root finder, or the magnitude is zero (one dimension). -/
theorem critical_of_stationary (s : Segment ℝ) (k : ℕ) (dims : List ℕ) (x : ℝ) (h : (derivative (sqPoly s dims k)).eval x = 0) :
    (critical s k dims).eval x = 0 ∨ (dims.length = 1 ∧ sqMag s dims k x = 0) := by
  rw [derivative_sqPoly] at h
  match dims with
  | [d] =>
    simp only [List.map_cons, List.map_nil, List.sum_cons, List.sum_nil, add_zero, eval_mul, eval_ofNat] at h
    rcases mul_eq_zero.mp h with h | h
    · norm_num at h
    · rcases mul_eq_zero.mp h with h | h
      · right; refine ⟨rfl, ?_⟩
        simp only [sqMag, derivAt, List.map_cons, List.map_nil, List.sum_cons, List.sum_nil, h]
        norm_num
      · left; exact h
  | [] => left; simp [critical]
  | d1 :: d2 :: rest =>
    left
    simp only [eval_mul, eval_ofNat] at h
    rcases mul_eq_zero.mp h with h | h
    · norm_num at h
    · exact h

theorem derivative_of_critical (s : Segment ℝ) (k : ℕ) (dims : List ℕ) (x : ℝ) (h : (critical s k dims).eval x = 0) :
    (derivative (sqPoly s dims k)).eval x = 0 := by
  rw [derivative_sqPoly]
  match dims with
  | [d] =>
    simp only [List.map_cons, List.map_nil, List.sum_cons, List.sum_nil, add_zero, eval_mul]
    simp only [critical] at h
    rw [h]; simp
  | [] => simp
  | d1 :: d2 :: rest =>
    simp only [critical] at h
    rw [eval_mul, h, mul_zero]

theorem sqMag_hasDerivAt (s : Segment ℝ) (dims : List ℕ) (k : ℕ) (t : ℝ) :
    HasDerivAt (sqMag s dims k) ((derivative (sqPoly s dims k)).eval t) t := by
  have : sqMag s dims k = fun t => (sqPoly s dims k).eval t := by funext t; rw [eval_sqPoly]
  rw [this]; exact (sqPoly s dims k).hasDerivAt t

/-- Among such candidates there is one whose squared magnitude comes within `M ε²` of that of any point. -/
theorem near_max (s : Segment ℝ) (k : ℕ) (dims : List ℕ) (t0 t1 ε M : ℝ) (h01 : t0 ≤ t1) (hM : CurvatureBound s dims k t0 t1 M)
    (ts : List ℝ) (h0 : t0 ∈ ts) (h1 : t1 ∈ ts) (hI : ∀ t ∈ ts, t ∈ Set.Icc t0 t1)
    (hn : critical s k dims ≠ 0 → ∀ x ∈ Set.Icc t0 t1, (critical s k dims).eval x = 0 → ∃ t ∈ ts, |t - x| ≤ ε) :
    ∀ y ∈ Set.Icc t0 t1, ∃ t ∈ ts, magnitude s dims k y ^ 2 ≤ magnitude s dims k t ^ 2 + M * ε ^ 2 := by
  intro y hy
  rw [curvature_iff] at hM
  have hM0 : 0 ≤ M := (abs_nonneg _).trans (hM t0 (Set.left_mem_Icc.mpr h01))
  have hsq : 0 ≤ M * ε ^ 2 := mul_nonneg hM0 (sq_nonneg _)
  simp only [magnitude_sq]
  obtain ⟨x, hxS, hxI, hx⟩ := exists_max_candidate h01 (sqMag_hasDerivAt s dims k)
    (S := {t | t = t0 ∨ t = t1 ∨ (derivative (sqPoly s dims k)).eval t = 0}) (by simp) (by simp) (fun _ z _ hz => .inr (.inr hz))
  rcases hxS with rfl | rfl | hd
  · exact ⟨_, h0, (hx y hy).trans (by linarith)⟩
  · exact ⟨_, h1, (hx y hy).trans (by linarith)⟩
  · rcases critical_of_stationary s k dims x hd with hc | ⟨_, hz⟩
    · by_cases hne : critical s k dims = 0
      · -- the squared magnitude is constant
        have hconst : ∀ u v, sqMag s dims k u = sqMag s dims k v :=
          is_const_of_deriv_eq_zero (fun u => (sqMag_hasDerivAt s dims k u).differentiableAt)
            (fun u => by rw [(sqMag_hasDerivAt s dims k u).deriv, derivative_of_critical s k dims u (by rw [hne, eval_zero])])
        exact ⟨t0, h0, by rw [hconst y t0]; linarith⟩
      · obtain ⟨t, ht, htx⟩ := hn hne x hxI hc
        have := Properties.near_critical (sqMag_hasDerivAt s dims k) (fun y => (derivative (sqPoly s dims k)).hasDerivAt y) hM hxI (hI t ht) hd htx
        exact ⟨t, ht, by have := (abs_le.mp this).1; have := hx y hy; linarith⟩
    · refine ⟨t0, h0, ?_⟩
      have a := hx y hy
      have b := sqMag_nonneg s dims k t0
      linarith

/-- With several dimensions the same holds downwards. -/
theorem near_min (s : Segment ℝ) (k : ℕ) (dims : List ℕ) (hlen : 2 ≤ dims.length) (t0 t1 ε M : ℝ) (h01 : t0 ≤ t1)
    (hM : CurvatureBound s dims k t0 t1 M)
    (ts : List ℝ) (h0 : t0 ∈ ts) (h1 : t1 ∈ ts) (hI : ∀ t ∈ ts, t ∈ Set.Icc t0 t1)
    (hn : critical s k dims ≠ 0 → ∀ x ∈ Set.Icc t0 t1, (critical s k dims).eval x = 0 → ∃ t ∈ ts, |t - x| ≤ ε) :
    ∀ y ∈ Set.Icc t0 t1, ∃ t ∈ ts, magnitude s dims k t ^ 2 ≤ magnitude s dims k y ^ 2 + M * ε ^ 2 := by
  intro y hy
  rw [curvature_iff] at hM
  have hM0 : 0 ≤ M := (abs_nonneg _).trans (hM t0 (Set.left_mem_Icc.mpr h01))
  have hsq : 0 ≤ M * ε ^ 2 := mul_nonneg hM0 (sq_nonneg _)
  simp only [magnitude_sq]
  obtain ⟨x, hxS, hxI, hx⟩ := exists_min_candidate h01 (sqMag_hasDerivAt s dims k)
    (S := {t | t = t0 ∨ t = t1 ∨ (derivative (sqPoly s dims k)).eval t = 0}) (by simp) (by simp) (fun _ z _ hz => .inr (.inr hz))
  rcases hxS with rfl | rfl | hd
  · exact ⟨_, h0, (hx y hy).trans (by linarith)⟩
  · exact ⟨_, h1, (hx y hy).trans (by linarith)⟩
  · rcases critical_of_stationary s k dims x hd with hc | ⟨hl, _⟩
    · by_cases hne : critical s k dims = 0
      · have hconst : ∀ u v, sqMag s dims k u = sqMag s dims k v :=
          is_const_of_deriv_eq_zero (fun u => (sqMag_hasDerivAt s dims k u).differentiableAt)
            (fun u => by rw [(sqMag_hasDerivAt s dims k u).deriv, derivative_of_critical s k dims u (by rw [hne, eval_zero])])
        exact ⟨t0, h0, by rw [hconst y t0]; linarith⟩
      · obtain ⟨t, ht, htx⟩ := hn hne x hxI hc
        have := Properties.near_critical (sqMag_hasDerivAt s dims k) (fun y => (derivative (sqPoly s dims k)).hasDerivAt y) hM hxI (hI t ht) hd htx
        exact ⟨t, ht, by have := (abs_le.mp this).2; have := hx y hy; linarith⟩
    · omega

end Verif
