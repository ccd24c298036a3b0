import Verif.Model.MaxCheck
import Verif.Properties.CostCheck
import Verif.Properties.Magnitude

/-!
# C170: sampled maxima agree with the computed ones
-/

namespace Verif.Properties

open Verif Verif.Spec Verif.Lemmas Verif.MaxCheck

theorem magnitude_all (s : Segment ℝ) (D : ℕ) (h : s.polys.length = D) (k : ℕ) (τ : ℝ) : Spec.magnitude s (List.range D) k τ = euclid (segDeriv s k τ) := by
  unfold Spec.magnitude euclid segDeriv
  rw [List.map_map]
  congr 2
  apply List.ext_getElem
  · simp [h]
  · intro i h1 h2
    simp at h1 h2
    simp [List.getD_eq_getElem?_getD, List.getElem?_eq_getElem h2]

theorem euclid_continuous (s : Segment ℝ) (k : ℕ) : Continuous fun τ => euclid (segDeriv s k τ) := by
  have : (fun τ => euclid (segDeriv s k τ)) = fun τ => Real.sqrt ((sqPoly k s).eval τ) := by
    funext τ
    exact (by rw [sqPoly_eval, Real.sqrt_sq (show 0 ≤ euclid (segDeriv s k τ) from Real.sqrt_nonneg _)])
  rw [this]
  exact Real.continuous_sqrt.comp (Polynomial.continuous _)

/-- Some multiple of a short step is near a given point of an interval and before its end. -/
theorem sample_within (u T τ dt : ℝ) (hu : 0 ≤ u) (h0 : 0 ≤ τ) (h1 : τ ≤ T) (hdt : 0 < dt) (h2 : 2 * dt ≤ T) :
    ∃ i : ℕ, u ≤ i * dt ∧ i * dt < u + T ∧ |i * dt - u - τ| ≤ dt := by
  have hx : 0 ≤ (u + τ) / dt := div_nonneg (by linarith) hdt.le
  have a := Nat.le_ceil ((u + τ) / dt)
  have b := Nat.ceil_lt_add_one hx
  rw [div_le_iff₀ hdt] at a
  rw [← sub_lt_iff_lt_add, lt_div_iff₀ hdt, sub_mul, one_mul] at b
  set n := ⌈(u + τ) / dt⌉₊
  by_cases hτ : τ < dt
  · exact ⟨n, by linarith, by linarith, by rw [abs_le]; constructor <;> linarith⟩
  · have hn : 0 < n := Nat.ceil_pos.mpr (div_pos (by linarith) hdt)
    have e : ((n - 1 : ℕ) : ℝ) * dt = n * dt - dt := by rw [Nat.cast_sub hn]; push_cast; ring
    exact ⟨n - 1, by rw [e]; linarith, by rw [e]; linarith, by rw [e, abs_le]; constructor <;> linarith⟩

theorem startOf_nonneg (segs : List (Segment ℝ)) (hT : ∀ s ∈ segs, 0 ≤ s.time) (j : ℕ) : 0 ≤ startOf segs j :=
  List.sum_nonneg fun x hx => by
    obtain ⟨y, hy, rfl⟩ := List.mem_map.mp hx
    exact hT y (List.mem_of_mem_take hy)

theorem startOf_end_le (segs : List (Segment ℝ)) (hT : ∀ s ∈ segs, 0 ≤ s.time) (j : ℕ) (s : Segment ℝ) (hj : segs[j]? = some s) :
    startOf segs j + s.time ≤ duration segs := by
  induction segs generalizing j with
  | nil => simp at hj
  | cons x xs ih =>
    have hd : duration (x :: xs) = x.time + duration xs := by simp [duration]
    have hxs := fun y hy => hT y (List.mem_cons_of_mem x hy)
    cases j with
    | zero =>
      simp at hj
      subst hj
      have : 0 ≤ duration xs := by simpa [startOf] using startOf_nonneg xs hxs xs.length
      simp [startOf, duration] at this ⊢
      linarith
    | succ j =>
      have hs : startOf (x :: xs) (j + 1) = x.time + startOf xs j := by simp [startOf, duration]
      have := ih hxs j (by simpa using hj)
      linarith

/-- One derivative. -/
theorem maximum_agrees (rf : Poly.RootFinder ℝ) (hrf : ∀ c, FindsRealRoots c (rf c)) (tr : Trajectory ℝ) (hc : Consistent tr) (hseg : tr.segments ≠ []) (hD : 0 < tr.D)
    (k : ℕ) (hN : k < tr.N) (hs : ∀ s ∈ tr.segments, Regular s ∧ 0 < s.time) (tol : ℝ) (ht : 0 < tol) :
    ∃ mn mx : Extremum ℝ, tr.computeMinMaxMagnitude rf k ((List.range tr.D).map Int.ofNat) ⟨0, 0, 0⟩ ⟨0, 0, 0⟩ = .ok (true, mn, mx) ∧
      (∀ dt : ℝ, 0 < dt → ∀ fuel : ℕ, ⌈tr.maxTime / dt⌉₊ ≤ fuel → ∃ m, getMaximumMagnitude fuel tr k dt = .ok m ∧ m ≤ mx.value) ∧
      ∃ δ > 0, ∀ dt : ℝ, 0 < dt → dt < δ → ∀ fuel : ℕ, ⌈tr.maxTime / dt⌉₊ ≤ fuel → ∃ m, getMaximumMagnitude fuel tr k dt = .ok m ∧ mx.value - tol ≤ m := by
  have hT : ∀ s ∈ tr.segments, 0 ≤ s.time := fun s hm => (hs s hm).2.le
  obtain ⟨mn, mx, e, ⟨s, e1, e2, e3⟩, e4, _⟩ := C07_computeMinMaxMagnitude rf hrf tr k (List.range tr.D) (by simp; omega) hseg
    (fun s hm => ⟨(hs s hm).1, by rw [(hc.2 s hm).2]; exact hN, hT s hm, fun d hd => by rw [(hc.2 s hm).1]; simpa using hd⟩) ⟨0, 0, 0⟩ ⟨0, 0, 0⟩
  have hsm := List.mem_of_getElem? e1
  have hF : ∀ t, 0 ≤ t → t < tr.maxTime → tr.evaluate t k = .ok (along k tr.segments t) := by
    intro t h0 h1
    rw [hc.1] at h1
    obtain ⟨j, s, a1, a2, a3, a4⟩ := along_spec k tr.segments t h0 h1
    rw [a4]
    exact evaluate_inside tr t k j s hT (regular_short s (hs s (List.mem_of_getElem? a1)).1) a1 a2 a3
  have hle := startOf_end_le tr.segments hT _ s e1
  have hst := startOf_nonneg tr.segments hT mx.segmentIdx
  have hpos : 0 < tr.maxTime := by
    rw [hc.1]
    have := (hs s hsm).2
    linarith
  refine ⟨mn, mx, e, ?_, ?_⟩
  · intro dt hdt fuel hf
    obtain ⟨m, h1, ⟨i, h2, h3⟩, _⟩ := C102_maximum tr k dt _ hF hdt hpos fuel hf
    refine ⟨m, h1, ?_⟩
    rw [hc.1] at h2
    obtain ⟨j, x, a1, a2, a3, a4⟩ := along_spec k tr.segments (i * dt) (by positivity) h2
    rw [h3, a4, ← magnitude_all x tr.D (hc.2 x (List.mem_of_getElem? a1)).1]
    exact e4 j x a1 _ ⟨by linarith, by linarith⟩
  · rw [magnitude_all s tr.D (hc.2 s hsm).1] at e3
    obtain ⟨η, hη, hcont⟩ := Metric.continuous_iff.mp (euclid_continuous s k) mx.time tol ht
    refine ⟨min η (s.time / 2), lt_min hη (by linarith [(hs s hsm).2]), fun dt hdt hlt fuel hf => ?_⟩
    obtain ⟨m, h1, _, h4⟩ := C102_maximum tr k dt _ hF hdt hpos fuel hf
    refine ⟨m, h1, ?_⟩
    have l1 := lt_of_lt_of_le hlt (min_le_left _ _)
    have l2 := lt_of_lt_of_le hlt (min_le_right _ _)
    obtain ⟨i, i1, i2, i3⟩ := sample_within (startOf tr.segments mx.segmentIdx) s.time mx.time dt hst e2.1 e2.2 hdt (by linarith)
    have h5 := h4 i (by rw [hc.1]; linarith)
    have hev := hF (i * dt) (by positivity) (by rw [hc.1]; linarith)
    rw [evaluate_inside tr (i * dt) k _ s hT (regular_short s (hs s hsm).1) e1 i1 i2] at hev
    have hev := Except.ok.inj hev
    rw [← hev] at h5
    have h6 := hcont (i * dt - startOf tr.segments mx.segmentIdx) (by rw [Real.dist_eq]; linarith)
    rw [Real.dist_eq, abs_lt] at h6
    rw [e3]
    linarith [h6.1]

/-- C170: the maxima of velocity and acceleration found by sampling never exceed the computed ones, and are less than any given tolerance below them if the samples are
close enough together. -/
theorem C170_agree (rf : Poly.RootFinder ℝ) (hrf : ∀ c, FindsRealRoots c (rf c)) (tr : Trajectory ℝ) (hc : Consistent tr) (hseg : tr.segments ≠ []) (hD : 0 < tr.D)
    (hN : 2 < tr.N) (hs : ∀ s ∈ tr.segments, Regular s ∧ 0 < s.time) :
    ∃ v a, maxAnalytical rf tr.D tr = .ok (v, a) ∧
      (∀ dt : ℝ, 0 < dt → ∀ fuel : ℕ, ⌈tr.maxTime / dt⌉₊ ≤ fuel → ∃ v' a', maxNumerical fuel dt tr = .ok (v', a') ∧ v' ≤ v ∧ a' ≤ a) ∧
      ∀ tol > 0, ∃ δ > 0, ∀ dt : ℝ, 0 < dt → dt < δ → ∀ fuel : ℕ, ⌈tr.maxTime / dt⌉₊ ≤ fuel →
        ∃ v' a', maxNumerical fuel dt tr = .ok (v', a') ∧ |v - v'| ≤ tol ∧ |a - a'| ≤ tol := by
  obtain ⟨mn1, mx1, a1, a2, _⟩ := maximum_agrees rf hrf tr hc hseg hD 1 (by omega) hs 1 one_pos
  obtain ⟨mn2, mx2, b1, b2, _⟩ := maximum_agrees rf hrf tr hc hseg hD 2 hN hs 1 one_pos
  refine ⟨mx1.value, mx2.value, ?_, ?_, ?_⟩
  · unfold maxAnalytical
    simp only [a1, b1, bind, Except.bind, pure, Except.pure]
  · intro dt hdt fuel hf
    obtain ⟨v, c1, c2⟩ := a2 dt hdt fuel hf
    obtain ⟨a, d1, d2⟩ := b2 dt hdt fuel hf
    refine ⟨v, a, ?_, c2, d2⟩
    unfold maxNumerical
    simp only [c1, d1, bind, Except.bind, pure, Except.pure]
  · intro tol ht
    obtain ⟨_, mx1', f1, _, δ1, p1, f2⟩ := maximum_agrees rf hrf tr hc hseg hD 1 (by omega) hs tol ht
    obtain ⟨_, mx2', g1, _, δ2, p2, g2⟩ := maximum_agrees rf hrf tr hc hseg hD 2 hN hs tol ht
    rw [a1] at f1
    rw [b1] at g1
    cases f1
    cases g1
    refine ⟨min δ1 δ2, lt_min p1 p2, fun dt hdt hlt fuel hf => ?_⟩
    obtain ⟨v, c1, c2⟩ := a2 dt hdt fuel hf
    obtain ⟨a, d1, d2⟩ := b2 dt hdt fuel hf
    obtain ⟨v', c3, c4⟩ := f2 dt hdt (lt_of_lt_of_le hlt (min_le_left _ _)) fuel hf
    obtain ⟨a', d3, d4⟩ := g2 dt hdt (lt_of_lt_of_le hlt (min_le_right _ _)) fuel hf
    rw [c1] at c3
    rw [d1] at d3
    cases c3
    cases d3
    refine ⟨v, a, ?_, ?_, ?_⟩
    · unfold maxNumerical
      simp only [c1, d1, bind, Except.bind, pure, Except.pure]
    · rw [abs_le]; constructor <;> linarith
    · rw [abs_le]; constructor <;> linarith

/-- A parabola of duration `dt`, from rest. -/
noncomputable def leap (dt c : ℝ) : Trajectory ℝ := ⟨1, 3, dt, [⟨3, dt, [[0, 0, c]]⟩]⟩

theorem leap_fits (dt c : ℝ) (hdt : 0 < dt) : Consistent (leap dt c) ∧ (leap dt c).segments ≠ [] ∧ 0 < (leap dt c).D ∧ 2 < (leap dt c).N ∧
    ∀ s ∈ (leap dt c).segments, Regular s ∧ 0 < s.time := by
  refine ⟨⟨by simp [leap, duration], by simp [leap]⟩, by simp [leap], by simp [leap], by simp [leap], ?_⟩
  simp [leap, Regular, hdt]

/-- C170: whatever the interval, there are trajectories whose sampled maximum velocity is below the computed one by more than any given amount. -/
theorem C170_coarse (rf : Poly.RootFinder ℝ) (hrf : ∀ c, FindsRealRoots c (rf c)) (dt B : ℝ) (hdt : 0 < dt) :
    ∃ tr : Trajectory ℝ, (Consistent tr ∧ tr.segments ≠ [] ∧ 0 < tr.D ∧ 2 < tr.N ∧ ∀ s ∈ tr.segments, Regular s ∧ 0 < s.time) ∧
      ∃ v a, maxAnalytical rf tr.D tr = .ok (v, a) ∧ ∀ fuel : ℕ, ⌈tr.maxTime / dt⌉₊ ≤ fuel → ∃ v' a', maxNumerical fuel dt tr = .ok (v', a') ∧ B < v - v' := by
  set c := (|B| + 1) / (2 * dt) with hcd
  have hfit := leap_fits dt c hdt
  refine ⟨leap dt c, hfit, ?_⟩
  obtain ⟨hc, hne, hD, hN, hs⟩ := hfit
  obtain ⟨v, a, h1, h2, _⟩ := C170_agree rf hrf _ hc hne hD hN hs
  refine ⟨v, a, h1, fun fuel hf => ?_⟩
  obtain ⟨v', a', h3, _⟩ := h2 dt hdt fuel hf
  refine ⟨v', a', h3, ?_⟩
  have hT : ∀ s ∈ (leap dt c).segments, 0 ≤ s.time := fun s hm => (hs s hm).2.le
  -- the only sample is at the start
  have hv' : v' = 0 := by
    obtain ⟨m, g1, ⟨i, g2, g3⟩, _⟩ := C102_maximum (leap dt c) 1 dt (along 1 (leap dt c).segments) (by
      intro t t0 t1
      rw [hc.1] at t1
      obtain ⟨j, s, a1, a2, a3, a4⟩ := along_spec 1 (leap dt c).segments t t0 t1
      rw [a4]
      exact evaluate_inside _ t 1 j s hT (regular_short s (hs s (List.mem_of_getElem? a1)).1) a1 a2 a3) hdt hdt fuel hf
    have hi : i = 0 := by
      by_contra hi
      have : (1 : ℝ) ≤ i := by exact_mod_cast Nat.one_le_iff_ne_zero.mpr hi
      have g2 : (i : ℝ) * dt < dt := g2
      nlinarith
    subst hi
    have hm : m = 0 := by
      rw [g3]
      simp [leap, along, hdt, segDeriv, derivAt, ofCoeffs, euclid, Finset.sum_range_succ]
    unfold maxNumerical at h3
    rw [g1] at h3
    cases hm2 : getMaximumMagnitude fuel (leap dt c) 2 dt with
    | error e => rw [hm2] at h3; cases h3
    | ok w =>
      rw [hm2] at h3
      cases h3
      exact hm
  -- the velocity at the end
  have hv : 2 * c * dt ≤ v := by
    obtain ⟨mn1, mx1, a1, _, a3, _⟩ := C07_computeMinMaxMagnitude rf hrf (leap dt c) 1 (List.range (leap dt c).D) (by simp [leap]) hne
      (fun s hm => ⟨(hs s hm).1, by rw [(hc.2 s hm).2]; omega, hT s hm, fun d hd => by rw [(hc.2 s hm).1]; simpa using hd⟩) ⟨0, 0, 0⟩ ⟨0, 0, 0⟩
    have hval : mx1.value = v := by
      unfold maxAnalytical at h1
      simp only [a1, bind, Except.bind, pure, Except.pure] at h1
      split at h1
      · cases h1
      · cases h1; rfl
    have := a3 0 ⟨3, dt, [[0, 0, c]]⟩ rfl dt ⟨hdt.le, le_rfl⟩
    rw [hval, magnitude_all _ _ (by simp [leap])] at this
    refine le_trans ?_ this
    refine le_trans (le_abs_self _) (le_of_eq ?_)
    rw [← Real.sqrt_sq_eq_abs]
    simp [segDeriv, derivAt, ofCoeffs, euclid, Finset.sum_range_succ]
    ring_nf
  have : 2 * c * dt = |B| + 1 := by rw [hcd]; field_simp
  rw [hv', sub_zero]
  linarith [le_abs_self B]

/-! ## The hypotheses are met -/

/-- Two segments in the plane, the second one with a jump in the velocity, and a root finder that meets its contract. -/
example : ∃ (rf : Poly.RootFinder ℝ) (tr : Trajectory ℝ), (∀ c, FindsRealRoots c (rf c)) ∧ Consistent tr ∧ tr.segments.length = 2 ∧ 0 < tr.D ∧ 2 < tr.N ∧
    ∀ s ∈ tr.segments, Regular s ∧ 0 < s.time := by
  obtain ⟨rf, hrf⟩ := exists_complete_rootFinder
  refine ⟨rf, ⟨2, 3, 3, [⟨3, 1, [[0, 1, 2], [0, 0, 1]]⟩, ⟨3, 2, [[3, 0, 1], [1, 2, 0]]⟩]⟩, hrf, ⟨?_, by simp⟩, by simp, by simp, by simp, ?_⟩
  · norm_num [duration]
  · simp [Regular]

end Verif.Properties
