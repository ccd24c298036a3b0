import Mathlib.Tactic.Positivity
import Verif.Lemmas.Magnitude
import Verif.Lemmas.TrajectoryOps
import Verif.Properties.Polynomial

/-!
# Properties C05–C07 and C12: extrema of magnitudes and scaling to meet limits

`magnitude s dims k τ` (in `Verif.Spec`) is the Euclidean norm over the dimensions `dims` of the `k`-th derivative of segment `s` at
local time `τ`. The root finder `rf` is a parameter; completeness of the root finder is the hypothesis
`∀ c, FindsRealRoots c (rf c)`, which `exists_complete_rootFinder` shows to be satisfiable.
-/

namespace Verif.Properties

open Spec

/-- `v` is the maximum of `f` over `[a, b]`, attained at `x`. -/
def IsMaxAt (f : ℝ → ℝ) (a b x v : ℝ) : Prop := x ∈ Set.Icc a b ∧ v = f x ∧ ∀ y ∈ Set.Icc a b, f y ≤ v

/-- `v` is the minimum of `f` over `[a, b]`, attained at `x`. -/
def IsMinAt (f : ℝ → ℝ) (a b x v : ℝ) : Prop := x ∈ Set.Icc a b ∧ v = f x ∧ ∀ y ∈ Set.Icc a b, v ≤ f y

theorem one_lt_dblMax : (1 : ℝ) < Poly.dblMax := by
  unfold Poly.dblMax
  have h3 : (2 : ℝ) ≤ 2 ^ 1023 := le_self_pow₀ (by norm_num) (by norm_num)
  have h4 : (1 : ℝ) ≤ 2 - 1 / 2 ^ 52 := by norm_num
  generalize (2 : ℝ) ^ 1023 = x at *
  generalize (2 : ℝ) - 1 / 2 ^ 52 = y at *
  nlinarith

theorem magnitude_single (s : Segment ℝ) (d k : ℕ) (t : ℝ) : magnitude s [d] k t = |derivAt (s.polys.getD d []) k t| := by
  simp [magnitude, Real.sqrt_sq_eq_abs]

theorem segment_extrema (rf : Poly.RootFinder ℝ) (hrf : ∀ c, FindsRealRoots c (rf c)) (s : Segment ℝ)
    (k : ℕ) (t0 t1 : ℝ) (dims : List ℕ) (hR : Regular s) (hk : k < s.N) (hne : dims ≠ [])
    (hdims : ∀ d ∈ dims, d < s.polys.length) (h01 : t0 ≤ t1) (mn mx : Extremum ℝ) :
    ∃ cands mn' mx', s.computeMinMaxMagnitudeCandidates rf k t0 t1 (dims.map Int.ofNat) = .ok cands ∧
      Segment.selectMinMaxMagnitudeFromCandidates t0 t1 cands mn mx = some (mn', mx') ∧
      IsMaxAt (magnitude s dims k) t0 t1 mx'.time mx'.value ∧
      ((∀ τ ∈ Set.Icc t0 t1, magnitude s dims k τ < Poly.dblMax) →
        (2 ≤ dims.length ∨ ∃ d, dims = [d] ∧ ((∀ τ ∈ Set.Icc t0 t1, 0 ≤ derivAt (s.polys.getD d []) k τ) ∨
          (∀ τ ∈ Set.Icc t0 t1, derivAt (s.polys.getD d []) k τ ≤ 0))) →
        IsMinAt (magnitude s dims k) t0 t1 mn'.time mn'.value) := by
  obtain ⟨ts, h1, h2, h3, h4, h5, h6⟩ := candidateTimes_spec rf hrf s k t0 t1 dims hR hk hne hdims h01
  have hc := candidates_eq rf s k t0 t1 dims hR hdims ts h1
  obtain ⟨a1, a2, a3, a4, a5, a6⟩ := selectFold_spec (magnitude s dims k) t0 t1 ts h4
    ({ mn with value := Poly.dblMax }, { mx with value := -Poly.dblMax })
  -- every value of the interval is dominated by the value of a candidate
  have hmax : ∀ y ∈ Set.Icc t0 t1, ∃ x ∈ ts, magnitude s dims k y ≤ magnitude s dims k x := by
    intro y hy
    by_cases hlen : 2 ≤ dims.length
    · obtain ⟨g, g1, g2⟩ := h5 hlen
      obtain ⟨x, hx, _, hx2⟩ := exists_max_candidate h01 g1 (S := {t | t ∈ ts}) h2 h3 g2
      exact ⟨x, hx, Real.sqrt_le_sqrt (hx2 y hy)⟩
    · obtain ⟨d, rfl⟩ : ∃ d, dims = [d] := by
        match dims, hne with
        | [d], _ => exact ⟨d, rfl⟩
        | _ :: _ :: _, _ => simp at hlen
      obtain ⟨x, hx, _, hx2⟩ := exists_max_candidate h01 (hasDerivAt_derivAt (s.polys.getD d []) k) (S := {t | t ∈ ts}) h2 h3 (h6 d rfl)
      obtain ⟨x', hx', _, hx2'⟩ := exists_min_candidate h01 (hasDerivAt_derivAt (s.polys.getD d []) k) (S := {t | t ∈ ts}) h2 h3 (h6 d rfl)
      simp only [magnitude_single]
      rcases le_total 0 (derivAt (s.polys.getD d []) k y) with h | h
      · exact ⟨x, hx, by rw [abs_of_nonneg h]; exact (hx2 y hy).trans (le_abs_self _)⟩
      · exact ⟨x', hx', by rw [abs_of_nonpos h]; exact (neg_le_neg (hx2' y hy)).trans (neg_le_abs _)⟩
  have hmin : (2 ≤ dims.length ∨ ∃ d, dims = [d] ∧ ((∀ τ ∈ Set.Icc t0 t1, 0 ≤ derivAt (s.polys.getD d []) k τ) ∨
          (∀ τ ∈ Set.Icc t0 t1, derivAt (s.polys.getD d []) k τ ≤ 0))) →
      ∀ y ∈ Set.Icc t0 t1, ∃ x ∈ ts, magnitude s dims k x ≤ magnitude s dims k y := by
    rintro (hlen | ⟨d, rfl, hsign⟩) y hy
    · obtain ⟨g, g1, g2⟩ := h5 hlen
      obtain ⟨x, hx, _, hx2⟩ := exists_min_candidate h01 g1 (S := {t | t ∈ ts}) h2 h3 g2
      exact ⟨x, hx, Real.sqrt_le_sqrt (hx2 y hy)⟩
    · simp only [magnitude_single]
      rcases hsign with hs | hs
      · obtain ⟨x, hx, hxI, hx2⟩ := exists_min_candidate h01 (hasDerivAt_derivAt (s.polys.getD d []) k) (S := {t | t ∈ ts}) h2 h3 (h6 d rfl)
        exact ⟨x, hx, by rw [abs_of_nonneg (hs x hxI), abs_of_nonneg (hs y hy)]; exact hx2 y hy⟩
      · obtain ⟨x, hx, hxI, hx2⟩ := exists_max_candidate h01 (hasDerivAt_derivAt (s.polys.getD d []) k) (S := {t | t ∈ ts}) h2 h3 (h6 d rfl)
        exact ⟨x, hx, by rw [abs_of_nonpos (hs x hxI), abs_of_nonpos (hs y hy)]; exact neg_le_neg (hx2 y hy)⟩
  have hsel : Segment.selectMinMaxMagnitudeFromCandidates t0 t1
      (ts.map fun t => (⟨t, magnitude s dims k t, 0⟩ : Extremum ℝ)) mn mx =
      some (List.foldl (fun acc c => if c.time < t0 ∨ t1 < c.time then acc else (Segment.minE acc.1 c, Segment.maxE acc.2 c))
        ({ mn with value := Poly.dblMax }, { mx with value := -Poly.dblMax })
        (ts.map fun t => (⟨t, magnitude s dims k t, 0⟩ : Extremum ℝ))) := by
    unfold Segment.selectMinMaxMagnitudeFromCandidates
    rw [if_neg (not_lt.mpr h01)]
  generalize hF : List.foldl _ _ _ = F at hsel a1 a2 a3 a4 a5 a6
  refine ⟨_, F.1, F.2, hc, hsel, ?_, ?_⟩
  · have hatt := a2
    rcases hatt with h | ⟨h, h'⟩
    · exfalso
      have hle := a6 t0 h2
      rw [h] at hle
      have h0 : 0 ≤ magnitude s dims k t0 := Real.sqrt_nonneg _
      have := dblMax_pos
      simp only at hle
      linarith
    · refine ⟨h4 _ h, h', fun y hy => ?_⟩
      obtain ⟨x, hx, hxy⟩ := hmax y hy
      exact hxy.trans (a6 x hx)
  · intro hrange hcase
    rcases a1 with h | ⟨h, h'⟩
    · exfalso
      have hle := a5 t0 h2
      rw [h] at hle
      have := hrange t0 (Set.left_mem_Icc.mpr h01)
      simp only at hle
      linarith
    · refine ⟨h4 _ h, h', fun y hy => ?_⟩
      obtain ⟨x, hx, hxy⟩ := hmin hcase y hy
      exact (a5 x hx).trans hxy

/-! ## C05 -/

/-- C05: with a complete root finder the maximum selected from the computed candidates is the attained global maximum of the
magnitude over the interval; with two or more dimensions the same holds for the minimum. -/
theorem C05_segment_extremum (rf : Poly.RootFinder ℝ) (hrf : ∀ c, FindsRealRoots c (rf c)) (s : Segment ℝ)
    (k : ℕ) (t0 t1 : ℝ) (dims : List ℕ) (hR : Regular s) (hk : k < s.N) (hne : dims ≠ [])
    (hdims : ∀ d ∈ dims, d < s.polys.length) (h01 : t0 ≤ t1) (mn mx : Extremum ℝ) :
    ∃ cands mn' mx', s.computeMinMaxMagnitudeCandidates rf k t0 t1 (dims.map Int.ofNat) = .ok cands ∧
      Segment.selectMinMaxMagnitudeFromCandidates t0 t1 cands mn mx = some (mn', mx') ∧
      IsMaxAt (magnitude s dims k) t0 t1 mx'.time mx'.value ∧
      (2 ≤ dims.length → (∀ τ ∈ Set.Icc t0 t1, magnitude s dims k τ < (2 - 1 / 2 ^ 52) * 2 ^ 1023) →
        IsMinAt (magnitude s dims k) t0 t1 mn'.time mn'.value) := by
  obtain ⟨c, m1, m2, e1, e2, e3, e4⟩ := segment_extrema rf hrf s k t0 t1 dims hR hk hne hdims h01 mn mx
  exact ⟨c, m1, m2, e1, e2, e3, fun h h' => e4 h' (Or.inl h)⟩

/-- C05: a reversed interval is reported as failure. -/
theorem C05_reversed_interval (t0 t1 : ℝ) (h : t1 < t0) (cands : List (Extremum ℝ)) (mn mx : Extremum ℝ) :
    Segment.selectMinMaxMagnitudeFromCandidates t0 t1 cands mn mx = none := by
  unfold Segment.selectMinMaxMagnitudeFromCandidates; rw [if_pos h]

/-- A concrete planar segment used in the examples: (t - t², t²) for 1 s. -/
def sampleSeg : Segment ℝ := ⟨3, 1, [[0, 1, -1], [0, 0, 1]]⟩

example : ∃ rf : Poly.RootFinder ℝ, (∀ c, FindsRealRoots c (rf c)) ∧ Regular sampleSeg ∧ 1 < sampleSeg.N ∧
    (∀ d ∈ [0, 1], d < sampleSeg.polys.length) ∧ (0 : ℝ) ≤ sampleSeg.time := by
  obtain ⟨rf, h⟩ := exists_complete_rootFinder
  refine ⟨rf, h, ⟨by simp [sampleSeg], by simp [sampleSeg]⟩, by simp [sampleSeg], by simp [sampleSeg], by simp [sampleSeg]⟩

/-! ## C06 -/

/-- The full claim C06: for one dimension the reported minimum is the smallest absolute value over the interval. -/
def C06Full : Prop :=
  ∀ (rf : Poly.RootFinder ℝ) (s : Segment ℝ) (k : ℕ) (t0 t1 : ℝ) (d : ℕ) (cands : List (Extremum ℝ)) (mn mx mn' mx' : Extremum ℝ),
    (∀ c, FindsRealRoots c (rf c)) → Regular s → k < s.N → d < s.polys.length → t0 ≤ t1 →
    (∀ τ ∈ Set.Icc t0 t1, |derivAt (s.polys.getD d []) k τ| < (2 - 1 / 2 ^ 52) * 2 ^ 1023) →
    s.computeMinMaxMagnitudeCandidates rf k t0 t1 [(d : ℤ)] = .ok cands →
    Segment.selectMinMaxMagnitudeFromCandidates t0 t1 cands mn mx = some (mn', mx') →
    IsMinAt (fun τ => |derivAt (s.polys.getD d []) k τ|) t0 t1 mn'.time mn'.value

/-- C06 is false of the code: for the position `t` on `[-1, 1]` the reported minimum is 1, the true one is 0. -/
theorem C06_refuted : ¬ C06Full := by
  intro h
  -- a complete root finder that reports nothing for constant polynomials
  obtain ⟨rf₀, hrf₀⟩ := exists_complete_rootFinder
  let rf : Poly.RootFinder ℝ := fun c => if c = [1, 0] then [] else rf₀ c
  have hrf : ∀ c, FindsRealRoots c (rf c) := by
    intro c
    by_cases hc : c = [1, 0]
    · subst hc
      intro _ x hx
      simp [ofCoeffs, Finset.sum_range_succ] at hx
    · simp only [rf, hc, if_false]; exact hrf₀ c
  let s : Segment ℝ := ⟨2, 2, [[0, 1]]⟩
  have hval : ∀ τ, derivAt (s.polys.getD 0 []) 0 τ = τ := by
    intro τ; simp [s, derivAt, ofCoeffs, Finset.sum_range_succ]
  have hR : Regular s := by simp [s, Regular]
  have hct : s.candidateTimes rf 0 (-1) 1 ([0].map Int.ofNat) = .ok (some [-1, 1]) := by
    simp only [List.map_cons, List.map_nil, Segment.candidateTimes, Segment.polyAt, s, at?]
    norm_num [bind, Except.bind, Poly.computeMinMaxCandidates, Poly.getCoefficients, kMaxConvolutionSize, pure, Except.pure,
      List.range_succ, baseEntry, rf, Poly.selectMinMaxCandidatesFromRoots]
  have hcand := candidates_eq rf s 0 (-1) 1 [0] hR (by simp [s]) [-1, 1] hct
  have hsel : Segment.selectMinMaxMagnitudeFromCandidates (-1) 1 ([-1, 1].map fun t => (⟨t, magnitude s [0] 0 t, 0⟩ : Extremum ℝ))
      ⟨0, 0, 0⟩ ⟨0, 0, 0⟩ = some (⟨-1, 1, 0⟩, ⟨-1, 1, 0⟩) := by
    have h1 := one_lt_dblMax
    have h2 : -Poly.dblMax < (1 : ℝ) := by have := dblMax_pos; linarith
    simp only [Segment.selectMinMaxMagnitudeFromCandidates, List.map_cons, List.map_nil, magnitude_single, hval,
      List.foldl_cons, List.foldl_nil, Segment.minE, Segment.maxE]
    norm_num [h1, h2]
  have hd : ∀ τ ∈ Set.Icc (-1 : ℝ) 1, |derivAt (s.polys.getD 0 []) 0 τ| < Poly.dblMax := by
    intro τ hτ
    rw [hval]
    have : |τ| ≤ 1 := abs_le.mpr hτ
    have h1 := one_lt_dblMax
    linarith
  have := h rf s 0 (-1) 1 0 _ ⟨0, 0, 0⟩ ⟨0, 0, 0⟩ _ _ hrf hR (by simp [s]) (by simp [s]) (by norm_num) hd hcand hsel
  have h0 := this.2.2 0 (by norm_num)
  simp only [hval, abs_zero] at h0
  norm_num at h0

/-- C06, what holds: if the signed value does not change sign on the interval, the reported minimum is the attained smallest absolute
value. -/
theorem C06_no_sign_change_partial (rf : Poly.RootFinder ℝ) (hrf : ∀ c, FindsRealRoots c (rf c)) (s : Segment ℝ)
    (k : ℕ) (t0 t1 : ℝ) (d : ℕ) (hR : Regular s) (hk : k < s.N) (hd : d < s.polys.length) (h01 : t0 ≤ t1)
    (hrange : ∀ τ ∈ Set.Icc t0 t1, |derivAt (s.polys.getD d []) k τ| < (2 - 1 / 2 ^ 52) * 2 ^ 1023)
    (hsign : (∀ τ ∈ Set.Icc t0 t1, 0 ≤ derivAt (s.polys.getD d []) k τ) ∨
      (∀ τ ∈ Set.Icc t0 t1, derivAt (s.polys.getD d []) k τ ≤ 0)) (mn mx : Extremum ℝ) :
    ∃ cands mn' mx', s.computeMinMaxMagnitudeCandidates rf k t0 t1 [(d : ℤ)] = .ok cands ∧
      Segment.selectMinMaxMagnitudeFromCandidates t0 t1 cands mn mx = some (mn', mx') ∧
      IsMinAt (fun τ => |derivAt (s.polys.getD d []) k τ|) t0 t1 mn'.time mn'.value := by
  have hrange : ∀ τ ∈ Set.Icc t0 t1, |derivAt (s.polys.getD d []) k τ| < Poly.dblMax := hrange
  obtain ⟨c, m1, m2, e1, e2, e3, e4⟩ := segment_extrema rf hrf s k t0 t1 [d] hR hk (by simp) (by simpa using hd) h01 mn mx
  refine ⟨c, m1, m2, e1, e2, ?_⟩
  have := e4 (by simpa only [magnitude_single] using hrange) (Or.inr ⟨d, rfl, hsign⟩)
  have hfun : (fun τ => |derivAt (s.polys.getD d []) k τ|) = magnitude s [d] k := by
    funext τ; rw [magnitude_single]
  rw [hfun]; exact this

/-- C06, exactly: the reported minimum is the smallest absolute value over the end points and the interior stationary points of the signed value. It is the minimum over the
interval if and only if the value has no zero there or the reported minimum is zero. -/
theorem C06_exact_partial (rf : Poly.RootFinder ℝ) (hrf : ∀ c, FindsRealRoots c (rf c)) (s : Segment ℝ)
    (k : ℕ) (t0 t1 : ℝ) (d : ℕ) (hR : Regular s) (hk : k < s.N) (hd : d < s.polys.length) (h01 : t0 ≤ t1)
    (hrange : ∀ τ ∈ Set.Icc t0 t1, |derivAt (s.polys.getD d []) k τ| < (2 - 1 / 2 ^ 52) * 2 ^ 1023) (mn mx : Extremum ℝ) :
    ∃ cands mn' mx', s.computeMinMaxMagnitudeCandidates rf k t0 t1 [(d : ℤ)] = .ok cands ∧
      Segment.selectMinMaxMagnitudeFromCandidates t0 t1 cands mn mx = some (mn', mx') ∧
      mn'.time ∈ Set.Icc t0 t1 ∧ mn'.value = |derivAt (s.polys.getD d []) k mn'.time| ∧
      mn'.value ≤ |derivAt (s.polys.getD d []) k t0| ∧ mn'.value ≤ |derivAt (s.polys.getD d []) k t1| ∧
      (∀ x ∈ Set.Icc t0 t1, derivAt (s.polys.getD d []) (k + 1) x = 0 → mn'.value ≤ |derivAt (s.polys.getD d []) k x|) ∧
      (IsMinAt (fun τ => |derivAt (s.polys.getD d []) k τ|) t0 t1 mn'.time mn'.value ↔
        (∀ τ ∈ Set.Icc t0 t1, derivAt (s.polys.getD d []) k τ ≠ 0) ∨ mn'.value = 0) := by
  have hrange : ∀ τ ∈ Set.Icc t0 t1, |derivAt (s.polys.getD d []) k τ| < Poly.dblMax := hrange
  obtain ⟨ts, h1, h2, h3, h4, _, h6⟩ := candidateTimes_spec rf hrf s k t0 t1 [d] hR hk (by simp) (by simpa using hd) h01
  have hc := candidates_eq rf s k t0 t1 [d] hR (by simpa using hd) ts h1
  obtain ⟨a1, _, _, _, a5, _⟩ := selectFold_spec (magnitude s [d] k) t0 t1 ts h4 ({ mn with value := Poly.dblMax }, { mx with value := -Poly.dblMax })
  have hsel : Segment.selectMinMaxMagnitudeFromCandidates t0 t1
      (ts.map fun t => (⟨t, magnitude s [d] k t, 0⟩ : Extremum ℝ)) mn mx =
      some (List.foldl (fun acc c => if c.time < t0 ∨ t1 < c.time then acc else (Segment.minE acc.1 c, Segment.maxE acc.2 c))
        ({ mn with value := Poly.dblMax }, { mx with value := -Poly.dblMax })
        (ts.map fun t => (⟨t, magnitude s [d] k t, 0⟩ : Extremum ℝ))) := by
    unfold Segment.selectMinMaxMagnitudeFromCandidates
    rw [if_neg (not_lt.mpr h01)]
  generalize hF : List.foldl _ _ _ = F at hsel a1 a5
  simp only [magnitude_single] at a1 a5
  set f := fun τ => derivAt (s.polys.getD d []) k τ with hf
  have hatt : F.1.time ∈ Set.Icc t0 t1 ∧ F.1.value = |f F.1.time| := by
    rcases a1 with h | ⟨h, h'⟩
    · exfalso
      have hle := a5 t0 h2
      rw [h] at hle
      have := hrange t0 (Set.left_mem_Icc.mpr h01)
      simp only at hle
      linarith
    · exact ⟨h4 _ h, h'⟩
  refine ⟨_, F.1, F.2, hc, hsel, hatt.1, hatt.2, a5 t0 h2, a5 t1 h3, ?_, ?_⟩
  · intro x hx h0
    by_cases hconst : ∃ y, derivAt (s.polys.getD d []) (k + 1) y ≠ 0
    · exact a5 x (h6 d rfl hconst x hx h0)
    · push Not at hconst
      have : f x = f t0 := is_const_of_deriv_eq_zero (f := f) (fun y => (hasDerivAt_derivAt (s.polys.getD d []) k y).differentiableAt)
        (fun y => by rw [(hasDerivAt_derivAt (s.polys.getD d []) k y).deriv]; exact hconst y) x t0
      have h := a5 t0 h2
      change F.1.value ≤ |f x|
      rw [this]; exact h
  · constructor
    · rintro ⟨_, _, hmin⟩
      by_cases hz : ∀ τ ∈ Set.Icc t0 t1, f τ ≠ 0
      · exact Or.inl hz
      · push Not at hz
        obtain ⟨τ, hτ, h0⟩ := hz
        have : F.1.value ≤ |f τ| := hmin τ hτ
        rw [h0, abs_zero] at this
        exact Or.inr (le_antisymm this (by rw [hatt.2]; exact abs_nonneg _))
    · rintro (hz | h0)
      · have hcont : ContinuousOn f (Set.Icc t0 t1) := fun x _ => (hasDerivAt_derivAt (s.polys.getD d []) k x).continuousAt.continuousWithinAt
        have hsign : (∀ τ ∈ Set.Icc t0 t1, 0 ≤ f τ) ∨ ∀ τ ∈ Set.Icc t0 t1, f τ ≤ 0 := by
          by_contra hno
          push Not at hno
          obtain ⟨⟨x, hx, hx0⟩, y, hy, hy0⟩ := hno
          obtain ⟨z, hz', hz0⟩ := isPreconnected_Icc.intermediate_value hx hy hcont ⟨hx0.le, hy0.le⟩
          exact hz z hz' hz0
        obtain ⟨c, m1, m2, e1, e2, e3⟩ := C06_no_sign_change_partial rf hrf s k t0 t1 d hR hk hd h01 hrange hsign mn mx
        have hc' : s.computeMinMaxMagnitudeCandidates rf k t0 t1 [(d : ℤ)] = .ok _ := hc
        rw [hc'] at e1
        rw [← Except.ok.inj e1, hsel] at e2
        have := Option.some.inj e2
        rw [this]; exact e3
      · exact ⟨hatt.1, hatt.2, fun y _ => by rw [h0]; exact abs_nonneg _⟩

-- the second coordinate t² of `sampleSeg` has one sign on [0, 1]
example : ∀ τ ∈ Set.Icc (0 : ℝ) 1, 0 ≤ derivAt (sampleSeg.polys.getD 1 []) 0 τ := by
  intro τ _
  have : derivAt (sampleSeg.polys.getD 1 []) 0 τ = τ ^ 2 := by
    simp [sampleSeg, derivAt, ofCoeffs, Finset.sum_range_succ]
  rw [this]; positivity

/-! ## C07 -/

theorem minMaxLoop_result (rf : Poly.RootFinder ℝ) (hrf : ∀ c, FindsRealRoots c (rf c)) (k : ℕ) (dims : List ℕ) (hne : dims ≠ [])
    (segs : List (Segment ℝ)) (hs : ∀ s ∈ segs, Regular s ∧ k < s.N ∧ 0 ≤ s.time ∧ ∀ d ∈ dims, d < s.polys.length)
    (n : ℕ) (mn mx : Extremum ℝ) :
    ∃ mn' mx', Trajectory.minMaxLoop rf k (dims.map Int.ofNat) segs n mn mx = .ok (true, mn', mx') ∧
      (mx' = mx ∨ ∃ (j : ℕ) (s : Segment ℝ), segs[j]? = some s ∧ mx'.segmentIdx = n + j ∧ mx'.time ∈ Set.Icc 0 s.time ∧
        mx'.value = magnitude s dims k mx'.time) ∧ mx.value ≤ mx'.value ∧
      (∀ (j : ℕ) (s : Segment ℝ), segs[j]? = some s → ∀ τ ∈ Set.Icc 0 s.time, magnitude s dims k τ ≤ mx'.value) ∧
      ((2 ≤ dims.length ∧ ∀ (j : ℕ) (s : Segment ℝ), segs[j]? = some s → ∀ τ ∈ Set.Icc 0 s.time, magnitude s dims k τ < Poly.dblMax) →
        (mn' = mn ∨ ∃ (j : ℕ) (s : Segment ℝ), segs[j]? = some s ∧ mn'.segmentIdx = n + j ∧ mn'.time ∈ Set.Icc 0 s.time ∧
          mn'.value = magnitude s dims k mn'.time) ∧ mn'.value ≤ mn.value ∧
        (∀ (j : ℕ) (s : Segment ℝ), segs[j]? = some s → ∀ τ ∈ Set.Icc 0 s.time, mn'.value ≤ magnitude s dims k τ)) := by
  induction segs generalizing n mn mx with
  | nil => exact ⟨mn, mx, rfl, Or.inl rfl, le_refl _, by simp, by simp⟩
  | cons s ss ih =>
    obtain ⟨hR, hk, hT, hd⟩ := hs s (by simp)
    obtain ⟨c, m1, m2, e1, e2, e3, e4⟩ := segment_extrema rf hrf s k 0 s.time dims hR hk hne hd hT ⟨0, 0, 0⟩ ⟨0, 0, 0⟩
    set mnn : Extremum ℝ := if m1.value < mn.value then { m1 with segmentIdx := n } else mn with hmnn
    set mxx : Extremum ℝ := if m2.value > mx.value then { m2 with segmentIdx := n } else mx with hmxx
    obtain ⟨mn', mx', f1, f2, f3, f4, f5⟩ := ih (fun x hx => hs x (by simp [hx])) (n + 1) mnn mxx
    have hx1 : mx.value ≤ mxx.value ∧ m2.value ≤ mxx.value ∧ (mxx = mx ∨ mxx = { m2 with segmentIdx := n }) := by
      rw [hmxx]; split
      · rename_i h; exact ⟨le_of_lt h, le_refl _, Or.inr rfl⟩
      · rename_i h; exact ⟨le_refl _, not_lt.mp h, Or.inl rfl⟩
    have hn1 : mnn.value ≤ mn.value ∧ mnn.value ≤ m1.value ∧ (mnn = mn ∨ mnn = { m1 with segmentIdx := n }) := by
      rw [hmnn]; split
      · rename_i h; exact ⟨h.le, le_refl _, Or.inr rfl⟩
      · rename_i h; exact ⟨le_refl _, not_lt.mp h, Or.inl rfl⟩
    refine ⟨mn', mx', ?_, ?_, hx1.1.trans f3, ?_, ?_⟩
    · rw [Trajectory.minMaxLoop, e1]
      simp only [bind, Except.bind, e2]
      exact f1
    · rcases f2 with h | ⟨j, s', hj, g1, g2, g3⟩
      · rcases hx1.2.2 with h' | h'
        · left; rw [h, h']
        · right; refine ⟨0, s, rfl, ?_⟩
          rw [h, h']; exact ⟨rfl, e3.1, e3.2.1⟩
      · right; exact ⟨j + 1, s', by simpa using hj, by rw [g1]; omega, g2, g3⟩
    · intro j s' hj τ hτ
      cases j with
      | zero => simp at hj; subst hj; exact (e3.2.2 τ hτ).trans (hx1.2.1.trans f3)
      | succ j => exact f4 j s' (by simpa using hj) τ hτ
    · rintro ⟨hlen, hrange⟩
      obtain ⟨p1, p2, p3⟩ := f5 ⟨hlen, fun j s' hj => hrange (j + 1) s' (by simpa using hj)⟩
      have e5 := e4 (hrange 0 s rfl) (Or.inl hlen)
      refine ⟨?_, p2.trans hn1.1, ?_⟩
      · rcases p1 with h | ⟨j, s', hj, g1, g2, g3⟩
        · rcases hn1.2.2 with h' | h'
          · left; rw [h, h']
          · right; refine ⟨0, s, rfl, ?_⟩
            rw [h, h']; exact ⟨rfl, e5.1, e5.2.1⟩
        · right; exact ⟨j + 1, s', by simpa using hj, by rw [g1]; omega, g2, g3⟩
      · intro j s' hj τ hτ
        cases j with
        | zero => simp at hj; subst hj; exact (p2.trans hn1.2.1).trans (e5.2.2 τ hτ)
        | succ j => exact p3 j s' (by simpa using hj) τ hτ

/-- The value `v` is the maximum, over all segments and all their local times, of the magnitude. -/
def IsTrajMax (tr : Trajectory ℝ) (dims : List ℕ) (k : ℕ) (v : ℝ) : Prop :=
  (∃ (j : ℕ) (s : Segment ℝ) (τ : ℝ), tr.segments[j]? = some s ∧ τ ∈ Set.Icc 0 s.time ∧ v = magnitude s dims k τ) ∧
  ∀ (j : ℕ) (s : Segment ℝ), tr.segments[j]? = some s → ∀ τ ∈ Set.Icc 0 s.time, magnitude s dims k τ ≤ v

/-- C07: `computeMinMaxMagnitude` returns true, and its maximum is the magnitude in the reported segment at the reported time and is
not exceeded in any segment at any time; with two or more dimensions the same holds for the minimum. -/
theorem C07_computeMinMaxMagnitude (rf : Poly.RootFinder ℝ) (hrf : ∀ c, FindsRealRoots c (rf c)) (tr : Trajectory ℝ) (k : ℕ)
    (dims : List ℕ) (hne : dims ≠ []) (hseg : tr.segments ≠ [])
    (hs : ∀ s ∈ tr.segments, Regular s ∧ k < s.N ∧ 0 ≤ s.time ∧ ∀ d ∈ dims, d < s.polys.length) (mn mx : Extremum ℝ) :
    ∃ mn' mx', tr.computeMinMaxMagnitude rf k (dims.map Int.ofNat) mn mx = .ok (true, mn', mx') ∧
      (∃ s, tr.segments[mx'.segmentIdx]? = some s ∧ mx'.time ∈ Set.Icc 0 s.time ∧ mx'.value = magnitude s dims k mx'.time) ∧
      (∀ (j : ℕ) (s : Segment ℝ), tr.segments[j]? = some s → ∀ τ ∈ Set.Icc 0 s.time, magnitude s dims k τ ≤ mx'.value) ∧
      ((2 ≤ dims.length ∧ ∀ (j : ℕ) (s : Segment ℝ), tr.segments[j]? = some s → ∀ τ ∈ Set.Icc 0 s.time,
          magnitude s dims k τ < Poly.dblMax) →
        (∃ s, tr.segments[mn'.segmentIdx]? = some s ∧ mn'.time ∈ Set.Icc 0 s.time ∧ mn'.value = magnitude s dims k mn'.time) ∧
        (∀ (j : ℕ) (s : Segment ℝ), tr.segments[j]? = some s → ∀ τ ∈ Set.Icc 0 s.time, mn'.value ≤ magnitude s dims k τ)) := by
  obtain ⟨mn', mx', h1, h2, h3, h4, h5⟩ := minMaxLoop_result rf hrf k dims hne tr.segments hs 0
    { mn with value := Poly.dblMax } { mx with value := -Poly.dblMax }
  obtain ⟨s0, hs0⟩ : ∃ s, tr.segments[0]? = some s := by
    cases h : tr.segments with
    | nil => exact absurd h hseg
    | cons s ss => exact ⟨s, rfl⟩
  have hs0' := hs s0 (List.mem_of_getElem? hs0)
  refine ⟨mn', mx', h1, ?_, h4, ?_⟩
  · rcases h2 with h | ⟨j, s, hj, g1, g2, g3⟩
    · exfalso
      have := h4 0 s0 hs0 0 (Set.left_mem_Icc.mpr hs0'.2.2.1)
      rw [h] at this
      have h0 : 0 ≤ magnitude s0 dims k 0 := Real.sqrt_nonneg _
      have := dblMax_pos
      simp only at *
      linarith
    · exact ⟨s, by rw [g1, zero_add]; exact hj, g2, g3⟩
  · intro hh
    obtain ⟨p1, p2, p3⟩ := h5 hh
    refine ⟨?_, p3⟩
    rcases p1 with h | ⟨j, s, hj, g1, g2, g3⟩
    · exfalso
      have a := p3 0 s0 hs0 0 (Set.left_mem_Icc.mpr hs0'.2.2.1)
      have b := hh.2 0 s0 hs0 0 (Set.left_mem_Icc.mpr hs0'.2.2.1)
      rw [h] at a
      simp only at a
      linarith
    · exact ⟨s, by rw [g1, zero_add]; exact hj, g2, g3⟩

/-- C07: `computeMaxVelocityAndAcceleration` returns true with the true maximum speed and maximum acceleration over all dimensions,
for trajectories of at least 3 coefficients. -/
theorem C07_computeMaxVelocityAndAcceleration (rf : Poly.RootFinder ℝ) (hrf : ∀ c, FindsRealRoots c (rf c)) (tr : Trajectory ℝ)
    (hc : Consistent tr) (hseg : tr.segments ≠ []) (hD : 0 < tr.D) (hN : 2 < tr.N)
    (hs : ∀ s ∈ tr.segments, Regular s ∧ 0 ≤ s.time) :
    ∃ v a, tr.computeMaxVelocityAndAcceleration rf = .ok (true, v, a) ∧
      IsTrajMax tr (List.range tr.D) 1 v ∧ IsTrajMax tr (List.range tr.D) 2 a := by
  have hne : List.range tr.D ≠ [] := by simp; omega
  have h : ∀ k, k ≤ 2 → ∀ s ∈ tr.segments, Regular s ∧ k < s.N ∧ 0 ≤ s.time ∧ ∀ d ∈ List.range tr.D, d < s.polys.length := by
    intro k hk s hm
    have c := hc.2 s hm
    refine ⟨(hs s hm).1, by rw [c.2]; omega, (hs s hm).2, fun d hd => ?_⟩
    rw [c.1]; simpa using hd
  obtain ⟨mn1, mx1, a1, a2, a3, _⟩ := C07_computeMinMaxMagnitude rf hrf tr 1 _ hne hseg (h 1 (by omega)) ⟨0, 0, 0⟩ ⟨0, 0, 0⟩
  obtain ⟨mn2, mx2, b1, b2, b3, _⟩ := C07_computeMinMaxMagnitude rf hrf tr 2 _ hne hseg (h 2 (by omega)) ⟨0, 0, 0⟩ ⟨0, 0, 0⟩
  refine ⟨mx1.value, mx2.value, ?_, ⟨?_, a3⟩, ⟨?_, b3⟩⟩
  · unfold Trajectory.computeMaxVelocityAndAcceleration
    simp only [a1, b1, bind, Except.bind, pure, Except.pure, Bool.and_self]
  · obtain ⟨s, x, y, z⟩ := a2; exact ⟨_, s, _, x, y, z⟩
  · obtain ⟨s, x, y, z⟩ := b2; exact ⟨_, s, _, x, y, z⟩

/-- C07, why `order < N` is needed: for a one-dimensional, one-segment trajectory asked for a derivative of order at least the number
of coefficients the code still returns true, but reports the lowest `double` as the maximum although the derivative is identically
zero (so the true maximum is 0). -/
theorem C07_order_too_high_reports_lowest (rf : Poly.RootFinder ℝ) (p : Poly ℝ) (T : ℝ) (k : ℕ) (hk : p.length ≤ k) (hT : 0 ≤ T)
    (mn mx : Extremum ℝ) :
    (⟨1, p.length, T, [⟨p.length, T, [p]⟩]⟩ : Trajectory ℝ).computeMinMaxMagnitude rf k [0] mn mx =
        .ok (true, { mn with value := Poly.dblMax }, { mx with value := -Poly.dblMax }) ∧
      ∀ τ, derivAt p k τ = 0 := by
  refine ⟨?_, fun τ => derivAt_of_length_le p k τ hk⟩
  simp only [Trajectory.computeMinMaxMagnitude, Trajectory.minMaxLoop, Segment.computeMinMaxMagnitudeCandidates, Segment.candidateTimes,
      Segment.polyAt, at?, Poly.computeMinMaxCandidates]
  simp only [lt_irrefl, if_false, Int.toNat_zero, List.getElem?_cons_zero, bind, Except.bind,
      if_pos (show p.length < k + 1 by omega), Option.getD_none, List.mapM_nil, pure, Except.pure,
      Segment.selectMinMaxMagnitudeFromCandidates, gt_iff_lt, if_neg (not_lt.mpr hT), List.foldl_nil]

-- a trajectory meeting the hypotheses of both theorems
example : let tr : Trajectory ℝ := ⟨2, 3, 1, [sampleSeg]⟩
    Consistent tr ∧ tr.segments ≠ [] ∧ 0 < tr.D ∧ 2 < tr.N ∧ ∀ s ∈ tr.segments, Regular s ∧ 0 ≤ s.time := by
  refine ⟨⟨by simp [duration, sampleSeg], by simp [sampleSeg]⟩, by simp, by simp, by simp, ?_⟩
  simp [sampleSeg, Regular]

end Verif.Properties
