import Mathlib.Tactic.Linarith
import Mathlib.Tactic.Positivity
import Mathlib.MeasureTheory.Integral.IntervalIntegral.Basic
import Verif.Lemmas.Trajectory
import Verif.Properties.RPoly
import Verif.Spec.SampledExtrema

/-!
# Properties C101, C102: maxima and costs by sampling
-/

set_option linter.unusedSectionVars false

namespace Verif.Properties
open Verif Verif.Spec Verif.LinOpt

theorem vecNorm_eq (v : List ℝ) : vecNorm v = euclid v := rfl

theorem regular_short (s : Segment ℝ) (hR : Regular s) : ∀ p ∈ s.polys, p.length ≤ 22 := fun p hp => by rw [hR.1 p hp]; exact hR.2

open Classical in
theorem turnCandidate_eq (s : Segment ℝ) (hR : Regular s) (k : ℕ) (tOld dir dirNew : ℝ) (cands : List ℝ) :
    turnCandidate s k tOld dir dirNew cands =
      .ok (cands ++ if ¬((dir < 0) ↔ (dirNew < 0)) ∧ segMagnitude s (k + 1) tOld < 1 / 100 then [tOld] else []) := by
  unfold turnCandidate
  rw [segment_evaluate_eq s _ _ (regular_short s hR)]
  by_cases h : (dir < 0) ↔ (dirNew < 0)
  · rw [if_neg (by simpa using h), if_neg (by tauto)]; simp
  · rw [if_pos h]
    simp only [bind, Except.bind, pure, Except.pure]
    by_cases h2 : segMagnitude s (k + 1) tOld < 1 / 100
    · rw [if_pos (show vecNorm (segDeriv s (k + 1) tOld) < 1 / 100 from h2), if_pos ⟨h, h2⟩]
    · rw [if_neg (show ¬ vecNorm (segDeriv s (k + 1) tOld) < 1 / 100 from h2), if_neg (fun hh => h2 hh.2)]; simp

/-- The condition of `innerCandidates`. -/
def Inner (s : Segment ℝ) (k : ℕ) (q : ℕ → ℝ) (i : ℕ) : Prop := TurnsAt (fun i => segMagnitude s k (q i)) i ∧ segMagnitude s (k + 1) (q i) < 1 / 100

open Classical in
/-- One pass of the loop. -/
theorem samplingLoop_succ (s : Segment ℝ) (hR : Regular s) (k : ℕ) (t1 dt : ℝ) (fuel : ℕ) (q : ℕ → ℝ) (j : ℕ) (t : ℝ) (ht : q (j + 2) = t) (h1 : t ≤ t1) (last : Bool) (cands : List ℝ) :
    samplingLoop s k t1 dt (fuel + 1) t (q (j + 1)) (segMagnitude s k (q (j + 1))) (segMagnitude s k (q (j + 1)) - segMagnitude s k (q j)) last cands =
      (if t + dt > t1 ∧ last = false then
        samplingLoop s k t1 dt fuel (t1 - dt + dt) t (segMagnitude s k t) (segMagnitude s k t - segMagnitude s k (q (j + 1))) true
          (cands ++ if Inner s k q (j + 1) then [q (j + 1)] else [])
      else samplingLoop s k t1 dt fuel (t + dt) t (segMagnitude s k t) (segMagnitude s k t - segMagnitude s k (q (j + 1))) last
          (cands ++ if Inner s k q (j + 1) then [q (j + 1)] else [])) := by
  rw [samplingLoop, if_pos h1, segment_evaluate_eq s _ _ (regular_short s hR)]
  simp only [bind, Except.bind]
  rw [turnCandidate_eq s hR]
  have : (¬((segMagnitude s k (q (j + 1)) - segMagnitude s k (q j) < 0) ↔ (vecNorm (segDeriv s k t) - segMagnitude s k (q (j + 1)) < 0)) ∧
      segMagnitude s (k + 1) (q (j + 1)) < 1 / 100) ↔ Inner s k q (j + 1) := by
    unfold Inner TurnsAt
    rw [sub_neg, sub_neg]
    simp only [Nat.add_sub_cancel]
    rw [show q (j + 1 + 1) = t from ht]
    rfl
  simp only [this]
  rfl

open Classical in
/-- The loop from sample `j + 2` on. -/
theorem samplingLoop_eq (s : Segment ℝ) (hR : Regular s) (k : ℕ) (t0 t1 dt : ℝ) (hdt : 0 < dt) (n : ℕ) (hn : t0 + n * dt ≤ t1) (hn' : t1 < t0 + (n + 1) * dt)
    (d j fuel : ℕ) (hj : j + 2 + d = n) (hf : d + 2 ≤ fuel) (cands : List ℝ) :
    samplingLoop s k t1 dt fuel (samplePoint t0 t1 dt (j + 2)) (samplePoint t0 t1 dt (j + 1)) (segMagnitude s k (samplePoint t0 t1 dt (j + 1)))
      (segMagnitude s k (samplePoint t0 t1 dt (j + 1)) - segMagnitude s k (samplePoint t0 t1 dt j)) false cands =
    .ok (cands ++ ((List.range' (j + 1) (d + 2)).filter fun i => Inner s k (samplePoint t0 t1 dt) i).map (samplePoint t0 t1 dt)) := by
  have hle : ∀ i : ℕ, i ≤ n → samplePoint t0 t1 dt i = t0 + i * dt ∧ t0 + i * dt ≤ t1 := by
    intro i hi
    have : (i : ℝ) ≤ n := by exact_mod_cast hi
    have : t0 + i * dt ≤ t1 := by nlinarith
    exact ⟨if_pos this, this⟩
  have hend : samplePoint t0 t1 dt (n + 1) = t1 := by
    unfold samplePoint
    push_cast
    rw [if_neg (by linarith)]
  have hfilter : ∀ (a l : ℕ), ((List.range' a (l + 1)).filter fun i => Inner s k (samplePoint t0 t1 dt) i).map (samplePoint t0 t1 dt) =
      (if Inner s k (samplePoint t0 t1 dt) a then [samplePoint t0 t1 dt a] else []) ++
        ((List.range' (a + 1) l).filter fun i => Inner s k (samplePoint t0 t1 dt) i).map (samplePoint t0 t1 dt) := by
    intro a l
    rw [List.range'_succ, List.filter_cons]
    by_cases h : Inner s k (samplePoint t0 t1 dt) a <;> simp [h]
  induction d generalizing j fuel cands with
  | zero =>
    obtain ⟨f, rfl⟩ : ∃ f, fuel = f + 2 := ⟨fuel - 2, by omega⟩
    obtain ⟨h1, h2⟩ := hle (j + 2) (by omega)
    have h3 : samplePoint t0 t1 dt (j + 2) + dt > t1 := by
      rw [h1]
      have : ((j + 2 : ℕ) : ℝ) = n := by rw [← hj]
      rw [this]; linarith
    rw [samplingLoop_succ s hR k t1 dt (f + 1) (samplePoint t0 t1 dt) j _ rfl (by rw [h1]; exact h2), if_pos ⟨h3, rfl⟩, sub_add_cancel]
    have hq : samplePoint t0 t1 dt (j + 1 + 2) = t1 := by rw [show j + 1 + 2 = n + 1 by omega]; exact hend
    rw [samplingLoop_succ s hR k t1 dt f (samplePoint t0 t1 dt) (j + 1) t1 hq le_rfl, if_neg (by simp)]
    have hout : ∀ (f : ℕ) (a b c : ℝ) (l : Bool) (cs : List ℝ), samplingLoop s k t1 dt f (t1 + dt) a b c l cs = .ok cs := by
      intro f a b c l cs
      cases f with
      | zero => rw [samplingLoop, if_neg (by linarith)]
      | succ f => rw [samplingLoop, if_neg (by linarith)]
    rw [hout, hfilter, hfilter]
    simp
  | succ d ih =>
    obtain ⟨f, rfl⟩ : ∃ f, fuel = f + 1 := ⟨fuel - 1, by omega⟩
    obtain ⟨h1, h2⟩ := hle (j + 2) (by omega)
    obtain ⟨h4, h5⟩ := hle (j + 3) (by omega)
    have h6 : samplePoint t0 t1 dt (j + 2) + dt = samplePoint t0 t1 dt (j + 1 + 2) := by
      rw [h1, h4]; push_cast; ring
    rw [samplingLoop_succ s hR k t1 dt f (samplePoint t0 t1 dt) j _ rfl (by rw [h1]; exact h2), h6,
      if_neg (by push Not; intro h; rw [show j + 1 + 2 = j + 3 from rfl, h4] at h; linarith), ih (j + 1) f (by omega) (by omega), hfilter (j + 1)]
    simp

open Classical in
theorem innerCandidates_eq (s : Segment ℝ) (k : ℕ) (t0 t1 dt : ℝ) (n : ℕ) :
    innerCandidates s k t0 t1 dt n = (List.range' 1 n).filter fun i => decide (Inner s k (samplePoint t0 t1 dt) i) := by
  unfold innerCandidates
  exact List.filter_congr fun i _ => by simp [Inner]

/-- Where the samples are. -/
theorem sample_floor (t0 t1 dt : ℝ) (hdt : 0 < dt) (h01 : t0 ≤ t1) :
    t0 + ⌊(t1 - t0) / dt⌋₊ * dt ≤ t1 ∧ t1 < t0 + (⌊(t1 - t0) / dt⌋₊ + 1) * dt := by
  have h0 : 0 ≤ (t1 - t0) / dt := div_nonneg (by linarith) hdt.le
  constructor
  · have := Nat.floor_le h0
    rw [le_div_iff₀ hdt] at this
    linarith
  · have := Nat.lt_floor_add_one ((t1 - t0) / dt)
    rw [div_lt_iff₀ hdt] at this
    linarith

theorem samplePoint_inside (t0 t1 dt : ℝ) (hdt : 0 < dt) (n : ℕ) (hn : t0 + n * dt ≤ t1) (i : ℕ) (hi : i ≤ n) : samplePoint t0 t1 dt i = t0 + i * dt := by
  have : (i : ℝ) ≤ n := by exact_mod_cast hi
  exact if_pos (by nlinarith)

/-- C101: the candidates are the start, those inner samples at which the length of the derivative turns and the next derivative is shorter than 1/100, and the end,
if it is not one of them; they are computed within `(t1 - t0) / dt` rounds of the loop. -/
theorem C101_candidates (s : Segment ℝ) (hR : Regular s) (k : ℕ) (t0 t1 dt : ℝ) (hdt : 0 < dt) (h01 : t0 + 2 * dt ≤ t1) (fuel : ℕ)
    (hf : ⌊(t1 - t0) / dt⌋₊ ≤ fuel) :
    let cs := t0 :: (innerCandidates s k t0 t1 dt ⌊(t1 - t0) / dt⌋₊).map (samplePoint t0 t1 dt)
    computeSegmentMaximumMagnitudeCandidatesBySampling fuel s k t0 t1 dt = .ok (if cs.getLast? = some t1 then cs else cs ++ [t1]) := by
  set n := ⌊(t1 - t0) / dt⌋₊ with hnd
  obtain ⟨hn, hn'⟩ := sample_floor t0 t1 dt hdt (by linarith)
  rw [← hnd] at hn hn'
  have hn2 : 2 ≤ n := by
    rw [hnd]
    apply Nat.le_floor
    rw [le_div_iff₀ hdt]
    push_cast
    linarith
  obtain ⟨d, hd⟩ : ∃ d, 0 + 2 + d = n := ⟨n - 2, by omega⟩
  have p0 : samplePoint t0 t1 dt 0 = t0 := by rw [samplePoint_inside t0 t1 dt hdt n hn 0 (by omega)]; simp
  have p1 : samplePoint t0 t1 dt 1 = t0 + dt := by rw [samplePoint_inside t0 t1 dt hdt n hn 1 (by omega)]; simp
  have p2 : samplePoint t0 t1 dt 2 = t0 + dt + dt := by rw [samplePoint_inside t0 t1 dt hdt n hn 2 (by omega)]; push_cast; ring
  have hloop := samplingLoop_eq s hR k t0 t1 dt hdt n hn hn' d 0 fuel hd (by omega) [t0]
  rw [show (0 + 2 : ℕ) = 2 from rfl, show (0 + 1 : ℕ) = 1 from rfl, p0, p1, p2, show d + 2 = n by omega] at hloop
  unfold computeSegmentMaximumMagnitudeCandidatesBySampling
  rw [segment_evaluate_eq s _ _ (regular_short s hR), segment_evaluate_eq s _ _ (regular_short s hR)]
  simp only [bind, Except.bind]
  rw [show vecNorm (segDeriv s k (t0 + dt)) = segMagnitude s k (t0 + dt) from rfl, show vecNorm (segDeriv s k t0) = segMagnitude s k t0 from rfl, hloop]
  simp only [pure, Except.pure]
  rw [← innerCandidates_eq s k t0 t1 dt n]
  simp only [List.singleton_append]
  by_cases h : (t0 :: (innerCandidates s k t0 t1 dt n).map (samplePoint t0 t1 dt)).getLast? = some t1
  · rw [if_pos h, if_neg (by rw [h]; simp)]
  · rw [if_neg h, if_pos h]

/-- C101: an interval shorter than two steps has no inner candidates. -/
theorem C101_short (s : Segment ℝ) (hR : Regular s) (k : ℕ) (t0 t1 dt : ℝ) (h01 : t1 < t0 + 2 * dt) (fuel : ℕ) :
    computeSegmentMaximumMagnitudeCandidatesBySampling fuel s k t0 t1 dt = .ok (if t0 = t1 then [t0] else [t0, t1]) := by
  unfold computeSegmentMaximumMagnitudeCandidatesBySampling
  rw [segment_evaluate_eq s _ _ (regular_short s hR), segment_evaluate_eq s _ _ (regular_short s hR)]
  simp only [bind, Except.bind]
  have : ∀ a b c l, samplingLoop s k t1 dt fuel (t0 + dt + dt) a b c l [t0] = .ok [t0] := by
    intro a b c l
    cases fuel <;> rw [samplingLoop, if_neg (by linarith)]
  rw [this]
  by_cases h : t0 = t1
  · simp [h, pure, Except.pure]
  · simp [h, pure, Except.pure]

/-- C101: the candidates increase strictly from the start of the interval to its end. -/
theorem C101_order (s : Segment ℝ) (hR : Regular s) (k : ℕ) (t0 t1 dt : ℝ) (hdt : 0 < dt) (h01 : t0 ≤ t1) (fuel : ℕ)
    (hf : ⌊(t1 - t0) / dt⌋₊ ≤ fuel) :
    ∃ cs, computeSegmentMaximumMagnitudeCandidatesBySampling fuel s k t0 t1 dt = .ok cs ∧ cs.Pairwise (· < ·) ∧ cs.head? = some t0 ∧ cs.getLast? = some t1 := by
  by_cases h2 : t0 + 2 * dt ≤ t1
  · refine ⟨_, C101_candidates s hR k t0 t1 dt hdt h2 fuel hf, ?_⟩
    set n := ⌊(t1 - t0) / dt⌋₊ with hnd
    obtain ⟨hn, hn'⟩ := sample_floor t0 t1 dt hdt (by linarith)
    rw [← hnd] at hn hn'
    set cs := t0 :: (innerCandidates s k t0 t1 dt n).map (samplePoint t0 t1 dt) with hcs
    have hin : ∀ i ∈ innerCandidates s k t0 t1 dt n, 1 ≤ i ∧ i ≤ n := by
      intro i hi
      have := (List.mem_filter.mp hi).1
      rw [List.mem_range'_1] at this
      omega
    have hle : ∀ c ∈ cs, c ≤ t1 := by
      intro c hc
      rcases List.mem_cons.mp hc with rfl | hc
      · exact h01
      · obtain ⟨i, hi, rfl⟩ := List.mem_map.mp hc
        rw [samplePoint_inside t0 t1 dt hdt n hn i (hin i hi).2]
        have : (i : ℝ) ≤ n := by exact_mod_cast (hin i hi).2
        nlinarith
    have hsort : cs.Pairwise (· < ·) := by
      rw [hcs, List.pairwise_cons]
      constructor
      · intro c hc
        obtain ⟨i, hi, rfl⟩ := List.mem_map.mp hc
        rw [samplePoint_inside t0 t1 dt hdt n hn i (hin i hi).2]
        have : (1 : ℝ) ≤ i := by exact_mod_cast (hin i hi).1
        nlinarith
      · rw [List.pairwise_map]
        have hr : (innerCandidates s k t0 t1 dt n).Pairwise (· < ·) := List.Pairwise.filter _ List.pairwise_lt_range'
        refine hr.imp_of_mem ?_
        intro a b ha hb hab
        rw [samplePoint_inside t0 t1 dt hdt n hn a (hin a ha).2, samplePoint_inside t0 t1 dt hdt n hn b (hin b hb).2]
        have : (a : ℝ) < b := by exact_mod_cast hab
        nlinarith
    by_cases hl : cs.getLast? = some t1
    · rw [if_pos hl]
      exact ⟨hsort, by simp [hcs], hl⟩
    · rw [if_neg hl]
      refine ⟨?_, by simp [hcs], by simp⟩
      rw [List.pairwise_append]
      refine ⟨hsort, List.pairwise_singleton _ _, ?_⟩
      intro a ha b hb
      rw [List.mem_singleton] at hb
      subst hb
      refine lt_of_le_of_ne (hle a ha) ?_
      rintro rfl
      -- `a` is the largest, hence the last
      apply hl
      have hne : cs ≠ [] := by simp [hcs]
      rw [List.getLast?_eq_some_getLast hne]
      congr 1
      by_contra hc
      have hd : cs.dropLast ++ [cs.getLast hne] = cs := List.dropLast_append_getLast hne
      have h3 := hle _ (List.getLast_mem hne)
      have : a ∈ cs.dropLast := by
        rw [← hd] at ha
        rcases List.mem_append.mp ha with h | h
        · exact h
        · exact absurd (List.mem_singleton.mp h).symm hc
      have hp := hsort
      rw [← hd, List.pairwise_append] at hp
      exact absurd (hp.2.2 a this _ (List.mem_singleton.mpr rfl)) (not_lt.mpr h3)
  · push Not at h2
    refine ⟨_, C101_short s hR k t0 t1 dt h2 fuel, ?_⟩
    by_cases h : t0 = t1
    · rw [if_pos h]; simp [h]
    · rw [if_neg h]
      have := lt_of_le_of_ne h01 h
      simp [this]

/-- C101: with a step that is not positive the call does not return (unless the interval is too short to be entered). -/
theorem C101_never_ends (s : Segment ℝ) (hR : Regular s) (k : ℕ) (t0 t1 dt : ℝ) (hdt : dt ≤ 0) (h01 : t0 + 2 * dt ≤ t1) (fuel : ℕ) :
    computeSegmentMaximumMagnitudeCandidatesBySampling fuel s k t0 t1 dt = .error .hang := by
  have key : ∀ fuel t a b c cs, t ≤ t1 → samplingLoop s k t1 dt fuel t a b c false cs = .error .hang := by
    intro fuel
    induction fuel with
    | zero => intro t a b c cs ht; rw [samplingLoop, if_pos ht]
    | succ f ih =>
      intro t a b c cs ht
      rw [samplingLoop, if_pos ht, segment_evaluate_eq s _ _ (regular_short s hR)]
      simp only [bind, Except.bind]
      rw [turnCandidate_eq s hR]
      simp only
      rw [if_neg (by intro h; linarith [h.1])]
      exact ih _ _ _ _ _ (by linarith)
  unfold computeSegmentMaximumMagnitudeCandidatesBySampling
  rw [segment_evaluate_eq s _ _ (regular_short s hR), segment_evaluate_eq s _ _ (regular_short s hR)]
  simp only [bind, Except.bind]
  rw [key _ _ _ _ _ _ (by linarith)]

/-- A segment in the plane that first moves away and then comes back, always moving sideways. -/
def there_and_back : Segment ℝ := ⟨3, 1, [[1, 4, -4], [0, 1, 0]]⟩

theorem there_and_back_regular : Regular there_and_back := ⟨by simp [there_and_back], by simp [there_and_back]⟩

theorem there_and_back_position (t : ℝ) : segMagnitude there_and_back 0 t ^ 2 = (1 + 4 * t - 4 * t ^ 2) ^ 2 + t ^ 2 := by
  unfold segMagnitude euclid
  rw [Real.sq_sqrt (by simp [segDeriv, there_and_back]; positivity)]
  simp [segDeriv, there_and_back, derivAt, ofCoeffs, Finset.sum_range_succ]
  ring

theorem there_and_back_velocity (t : ℝ) : 1 ≤ segMagnitude there_and_back 1 t := by
  unfold segMagnitude euclid
  rw [Real.le_sqrt' one_pos]
  simp [segDeriv, there_and_back, derivAt, ofCoeffs, Finset.sum_range_succ]
  nlinarith [sq_nonneg (4 - 8 * t)]

/-- C101: the candidates need not contain the place of the maximum, not even approximately and however small the step is: with two dimensions the next derivative need
not be small at an extremum. -/
theorem C101_maximum_refuted (dt : ℝ) (hdt : 0 < dt) (h2 : 2 * dt ≤ 1) (fuel : ℕ) (hf : ⌊1 / dt⌋₊ ≤ fuel) :
    computeSegmentMaximumMagnitudeCandidatesBySampling fuel there_and_back 0 0 1 dt = .ok [0, 1] ∧
      segMagnitude there_and_back 0 0 ^ 2 = 1 ∧ segMagnitude there_and_back 0 1 ^ 2 = 2 ∧ segMagnitude there_and_back 0 (1 / 2) ^ 2 = 17 / 4 := by
  refine ⟨?_, by rw [there_and_back_position]; norm_num, by rw [there_and_back_position]; norm_num, by rw [there_and_back_position]; norm_num⟩
  have := C101_candidates there_and_back there_and_back_regular 0 0 1 dt hdt (by linarith) fuel (by simpa using hf)
  have he : innerCandidates there_and_back 0 0 1 dt ⌊(1 - 0) / dt⌋₊ = [] := by
    unfold innerCandidates
    rw [List.filter_eq_nil_iff]
    intro i _
    have := there_and_back_velocity (samplePoint 0 1 dt i)
    simp only [decide_eq_true_eq, not_and, not_lt]
    intro _
    norm_num at this ⊢
    linarith
  rw [this, he]
  simp

/-! ## One dimension -/

/-- At a sample that is not below its predecessor and above its successor the derivative is small. -/
theorem turn_small {f g h : ℝ → ℝ} {t0 t1 a b c dt M ε : ℝ} (hf : ∀ y, HasDerivAt f (g y) y) (hg : ∀ y, HasDerivAt g (h y) y)
    (hM : ∀ y ∈ Set.Icc t0 t1, |h y| ≤ M) (ha : t0 ≤ a) (hab : a < b) (hbc : b ≤ c) (hc : c ≤ t1) (hd1 : b - a ≤ dt) (hd2 : c - b ≤ dt) (hε : M * dt < ε)
    (hfb : 0 < f b) (h1 : |f a| ≤ |f b|) (h2 : |f c| < |f b|) : |g b| < ε := by
  have hM0 : 0 ≤ M := (abs_nonneg _).trans (hM b ⟨by linarith, by linarith⟩)
  have hgb : ∀ y ∈ Set.Icc a c, |g y - g b| ≤ M * dt := by
    intro y hy
    have := (convex_Icc t0 t1).norm_image_sub_le_of_norm_hasDerivWithin_le (f := g) (f' := h) (C := M)
      (fun z _ => (hg z).hasDerivWithinAt) hM (x := b) (y := y) ⟨by linarith, by linarith⟩ ⟨by linarith [hy.1], by linarith [hy.2]⟩
    rw [Real.norm_eq_abs, Real.norm_eq_abs] at this
    refine this.trans (mul_le_mul_of_nonneg_left ?_ hM0)
    rw [abs_le]
    constructor <;> linarith [hy.1, hy.2]
  have hcont : Continuous f := continuous_iff_continuousAt.mpr fun y => (hf y).continuousAt
  rw [abs_of_pos hfb] at h1 h2
  rw [abs_lt]
  constructor
  · by_contra hcon
    push Not at hcon
    have : StrictAntiOn f (Set.Icc a b) := by
      refine strictAntiOn_of_deriv_neg (convex_Icc a b) hcont.continuousOn ?_
      intro y hy
      rw [interior_Icc] at hy
      rw [(hf y).deriv]
      have := abs_le.mp (hgb y ⟨hy.1.le, hy.2.le.trans hbc⟩)
      linarith [this.2]
    have := this (Set.left_mem_Icc.mpr hab.le) (Set.right_mem_Icc.mpr hab.le) hab
    have := (le_abs_self (f a)).trans h1
    linarith
  · by_contra hcon
    push Not at hcon
    have : MonotoneOn f (Set.Icc b c) := by
      refine monotoneOn_of_deriv_nonneg (convex_Icc b c) hcont.continuousOn (fun y _ => (hf y).differentiableAt.differentiableWithinAt) ?_
      intro y hy
      rw [interior_Icc] at hy
      rw [(hf y).deriv]
      have := abs_le.mp (hgb y ⟨hab.le.trans hy.1.le, hy.2.le⟩)
      linarith [this.1]
    have := this (Set.left_mem_Icc.mpr hbc) (Set.right_mem_Icc.mpr hbc) hbc
    have := le_abs_self (f c)
    linarith

/-- Some sample is almost as large as the largest value. -/
theorem sample_near_max {f g h : ℝ → ℝ} {t0 t1 dt M : ℝ} (hf : ∀ y, HasDerivAt f (g y) y) (hg : ∀ y, HasDerivAt g (h y) y)
    (hM : ∀ y ∈ Set.Icc t0 t1, |h y| ≤ M) (hdt : 0 < dt) (h01 : t0 ≤ t1) (n : ℕ) (hn : t0 + n * dt ≤ t1) (hn' : t1 < t0 + (n + 1) * dt) (y : ℝ) (hy : y ∈ Set.Icc t0 t1) :
    ∃ i ≤ n + 1, |f y| ≤ |f (samplePoint t0 t1 dt i)| + M * dt ^ 2 := by
  have hM0 : 0 ≤ M := (abs_nonneg _).trans (hM t0 ⟨le_rfl, h01⟩)
  have hpos : 0 ≤ M * dt ^ 2 := by positivity
  have hcont : Continuous fun x => |f x| := (continuous_iff_continuousAt.mpr fun y => (hf y).continuousAt).abs
  obtain ⟨x, hx, hmax⟩ := isCompact_Icc.exists_isMaxOn (Set.nonempty_Icc.mpr h01) hcont.continuousOn
  have hyx : |f y| ≤ |f x| := hmax hy
  have hend : samplePoint t0 t1 dt (n + 1) = t1 := by
    unfold samplePoint
    push_cast
    rw [if_neg (by linarith)]
  rcases hx.1.eq_or_lt with h0 | h0
  · refine ⟨0, by omega, ?_⟩
    rw [samplePoint_inside t0 t1 dt hdt n hn 0 (by omega)]
    simp only [Nat.cast_zero, zero_mul, add_zero]
    rw [h0]; linarith
  rcases hx.2.eq_or_lt with h1 | h1
  · exact ⟨n + 1, le_rfl, by rw [hend, ← h1]; linarith⟩
  by_cases hz : f x = 0
  · refine ⟨0, by omega, ?_⟩
    rw [hz, abs_zero] at hyx
    have := abs_nonneg (f (samplePoint t0 t1 dt 0))
    linarith
  have hloc : IsLocalMax (fun x => |f x|) x := hmax.isLocalMax (Icc_mem_nhds h0 h1)
  have hgx : g x = 0 := by
    rcases lt_or_gt_of_ne hz with hneg | hpos'
    · have : IsLocalMin f x := by
        have hev : ∀ᶠ z in nhds x, f z < 0 := (hf x).continuousAt.eventually_lt continuousAt_const hneg
        filter_upwards [hloc, hev] with z hz1 hz2
        have hz1 : |f z| ≤ |f x| := hz1
        rw [abs_of_neg hz2, abs_of_neg hneg] at hz1
        linarith
      exact this.hasDerivAt_eq_zero (hf x)
    · have : IsLocalMax f x := by
        filter_upwards [hloc] with z hz1
        have hz1 : |f z| ≤ |f x| := hz1
        rw [abs_of_pos hpos'] at hz1
        exact (le_abs_self _).trans hz1
      exact this.hasDerivAt_eq_zero (hf x)
  obtain ⟨ha, hb⟩ := sample_floor t0 x dt hdt h0.le
  set i := ⌊(x - t0) / dt⌋₊
  have hin : i ≤ n := by
    by_contra hcon
    push Not at hcon
    have : (n : ℝ) + 1 ≤ i := by exact_mod_cast hcon
    nlinarith
  refine ⟨i, by omega, ?_⟩
  rw [samplePoint_inside t0 t1 dt hdt n hn i hin]
  have hi0 : (0 : ℝ) ≤ i := Nat.cast_nonneg _
  have := near_critical (a := t0) (b := t1) (ε := dt) (t := t0 + i * dt) hf hg hM hx ⟨by nlinarith, by linarith⟩ hgx (by rw [abs_le]; constructor <;> linarith)
  have h3 := abs_sub_abs_le_abs_sub (f x) (f (t0 + i * dt))
  rw [abs_sub_comm] at h3
  linarith

/-- The last largest value of a finite sequence. -/
theorem last_max (m : ℕ → ℝ) (N : ℕ) : ∃ i ≤ N, (∀ j ≤ N, m j ≤ m i) ∧ ∀ j, i < j → j ≤ N → m j < m i := by
  induction N with
  | zero => exact ⟨0, le_rfl, fun j hj => by rw [Nat.le_zero.mp hj], fun j h1 h2 => by omega⟩
  | succ N ih =>
    obtain ⟨i, hi, h1, h2⟩ := ih
    by_cases h : m i ≤ m (N + 1)
    · refine ⟨N + 1, le_rfl, fun j hj => ?_, fun j h1 h2 => by omega⟩
      rcases Nat.le_succ_iff.mp hj with hj | rfl
      · exact (h1 j hj).trans h
      · exact le_rfl
    · push Not at h
      refine ⟨i, by omega, fun j hj => ?_, fun j hj1 hj2 => ?_⟩
      · rcases Nat.le_succ_iff.mp hj with hj | rfl
        · exact h1 j hj
        · exact h.le
      · rcases Nat.le_succ_iff.mp hj2 with hj | rfl
        · exact h2 j hj1 hj
        · exact h

theorem segMagnitude_one (s : Segment ℝ) (p : Poly ℝ) (hp : s.polys = [p]) (k : ℕ) (t : ℝ) : segMagnitude s k t = |derivAt p k t| := by
  simp [segMagnitude, euclid, segDeriv, hp, Real.sqrt_sq_eq_abs]

/-- C101: in one dimension some candidate is as large as the maximum up to `M dt²`, where `M` bounds the derivative two orders higher, if the step is small enough
(`M dt < 1/100`). -/
theorem C101_maximum_partial (s : Segment ℝ) (hR : Regular s) (p : Poly ℝ) (hp : s.polys = [p]) (k : ℕ) (t0 t1 dt M : ℝ) (hdt : 0 < dt) (h01 : t0 ≤ t1)
    (hM : ∀ y ∈ Set.Icc t0 t1, |derivAt p (k + 2) y| ≤ M) (hs : M * dt < 1 / 100) (h2 : t0 + 2 * dt ≤ t1) (fuel : ℕ) (cs : List ℝ)
    (h : computeSegmentMaximumMagnitudeCandidatesBySampling fuel s k t0 t1 dt = .ok cs) (hf : ⌊(t1 - t0) / dt⌋₊ ≤ fuel) (y : ℝ) (hy : y ∈ Set.Icc t0 t1) :
    ∃ c ∈ cs, |derivAt p k y| ≤ |derivAt p k c| + M * dt ^ 2 := by
  rw [C101_candidates s hR k t0 t1 dt hdt h2 fuel hf] at h
  have h := Except.ok.inj h
  obtain ⟨hn, hn'⟩ := sample_floor t0 t1 dt hdt h01
  set n := ⌊(t1 - t0) / dt⌋₊ with hnd
  have hd1 := hasDerivAt_derivAt p k
  have hd2 := hasDerivAt_derivAt p (k + 1)
  obtain ⟨i0, hi0, hy0⟩ := sample_near_max hd1 hd2 hM hdt h01 n hn hn' y hy
  obtain ⟨i, hi, hmax, hlast⟩ := last_max (fun i => |derivAt p k (samplePoint t0 t1 dt i)|) (n + 1)
  have ht0 : t0 ∈ cs := by rw [← h]; split <;> simp
  have ht1 : t1 ∈ cs := by
    rw [← h]
    split
    · rename_i hl
      exact List.mem_of_getLast? hl
    · simp
  have hend : samplePoint t0 t1 dt (n + 1) = t1 := by
    unfold samplePoint
    push_cast
    rw [if_neg (by linarith)]
  have hle := hmax i0 hi0
  suffices hc : samplePoint t0 t1 dt i ∈ cs from ⟨_, hc, by linarith⟩
  by_cases h0 : i = 0
  · rw [h0, samplePoint_inside t0 t1 dt hdt n hn 0 (by omega)]; simpa using ht0
  by_cases h1 : i = n + 1
  · rw [h1, hend]; exact ht1
  -- an inner sample
  have hin : i ∈ innerCandidates s k t0 t1 dt n := by
    rw [innerCandidates_eq, List.mem_filter, List.mem_range'_1]
    refine ⟨by omega, ?_⟩
    simp only [decide_eq_true_eq]
    have hprev := hmax (i - 1) (by omega)
    have hnext := hlast (i + 1) (by omega) (by omega)
    refine ⟨?_, ?_⟩
    · unfold TurnsAt
      simp only [segMagnitude_one s p hp]
      intro hiff
      have := hiff.mpr hnext
      linarith
    · rw [segMagnitude_one s p hp]
      have ei := samplePoint_inside t0 t1 dt hdt n hn i (by omega)
      have em := samplePoint_inside t0 t1 dt hdt n hn (i - 1) (by omega)
      rw [Nat.cast_sub (by omega), Nat.cast_one] at em
      have hi1 : (1 : ℝ) ≤ i := by exact_mod_cast (show 1 ≤ i by omega)
      have hin' : (i : ℝ) ≤ n := by exact_mod_cast (show i ≤ n by omega)
      have hnx : samplePoint t0 t1 dt i ≤ samplePoint t0 t1 dt (i + 1) ∧ samplePoint t0 t1 dt (i + 1) ≤ t1 ∧
          samplePoint t0 t1 dt (i + 1) - samplePoint t0 t1 dt i ≤ dt := by
        rw [ei]
        unfold samplePoint
        push_cast
        split
        · refine ⟨by linarith, by assumption, by linarith⟩
        · exact ⟨by nlinarith, le_rfl, by linarith⟩
      have ne : derivAt p k (samplePoint t0 t1 dt i) ≠ 0 := by
        intro hz
        rw [hz, abs_zero] at hnext
        exact absurd hnext (not_lt.mpr (abs_nonneg _))
      have ha : t0 ≤ samplePoint t0 t1 dt (i - 1) := by rw [em]; nlinarith
      have hab : samplePoint t0 t1 dt (i - 1) < samplePoint t0 t1 dt i := by rw [em, ei]; nlinarith
      have hdd : samplePoint t0 t1 dt i - samplePoint t0 t1 dt (i - 1) ≤ dt := by rw [em, ei]; linarith
      rcases lt_or_gt_of_ne ne with hneg | hpos
      · have := turn_small (f := fun y => -derivAt p k y) (g := fun y => -derivAt p (k + 1) y) (h := fun y => -derivAt p (k + 2) y)
          (t0 := t0) (t1 := t1) (fun y => (hd1 y).neg) (fun y => (hd2 y).neg) (M := M) (by simpa using hM) ha hab hnx.1 hnx.2.1 hdd hnx.2.2 hs
          (by simpa using hneg) (by simpa using hprev) (by simpa using hnext)
        simpa using this
      · exact turn_small hd1 hd2 hM ha hab hnx.1 hnx.2.1 hdd hnx.2.2 hs hpos hprev hnext
  rw [← h]
  split
  · exact List.mem_cons_of_mem _ (List.mem_map_of_mem hin)
  · exact List.mem_append_left _ (List.mem_cons_of_mem _ (List.mem_map_of_mem hin))

-- A parabola with its maximum inside: the step 1/1000 is small enough.
example : ∃ (s : Segment ℝ) (p : Poly ℝ), Regular s ∧ s.polys = [p] ∧ (∀ y ∈ Set.Icc (0 : ℝ) 1, |derivAt p (0 + 2) y| ≤ 8) ∧ (8 : ℝ) * (1 / 1000) < 1 / 100 ∧
    derivAt p 0 (1 / 2) = 2 ∧ derivAt p 0 0 = 1 ∧ derivAt p 0 1 = 1 := by
  refine ⟨⟨3, 1, [[1, 4, -4]]⟩, [1, 4, -4], ⟨by simp, by simp⟩, rfl, ?_, by norm_num, ?_, ?_, ?_⟩
  · intro y _
    simp [derivAt, ofCoeffs, Finset.sum_range_succ]
    norm_num [abs_le]
  · norm_num [derivAt, ofCoeffs, Finset.sum_range_succ]
  · norm_num [derivAt, ofCoeffs, Finset.sum_range_succ]
  · norm_num [derivAt, ofCoeffs, Finset.sum_range_succ]

-- The same parabola with the step 1/2, whose maximum is a sample.
example : computeSegmentMaximumMagnitudeCandidatesBySampling 2 (⟨3, 1, [[1, 4, -4]]⟩ : Segment ℝ) 0 0 1 (1 / 2) = .ok [0, 1 / 2, 1] := by
  have hfl : ⌊((1 : ℝ) - 0) / (1 / 2)⌋₊ = 2 := by norm_num
  have h := C101_candidates (⟨3, 1, [[1, 4, -4]]⟩ : Segment ℝ) ⟨by simp, by simp⟩ 0 0 1 (1 / 2) (by norm_num) (by norm_num) 2 (by rw [hfl])
  have q1 : samplePoint 0 1 (1 / 2) 1 = 1 / 2 := by norm_num [samplePoint]
  have q2 : samplePoint 0 1 (1 / 2) 2 = 1 := by norm_num [samplePoint]
  have m : ∀ k t, segMagnitude (⟨3, 1, [[1, 4, -4]]⟩ : Segment ℝ) k t = |derivAt [1, 4, -4] k t| := segMagnitude_one _ _ rfl
  have hin : innerCandidates (⟨3, 1, [[1, 4, -4]]⟩ : Segment ℝ) 0 0 1 (1 / 2) 2 = [1] := by
    rw [innerCandidates_eq]
    have i1 : Inner (⟨3, 1, [[1, 4, -4]]⟩ : Segment ℝ) 0 (samplePoint 0 1 (1 / 2)) 1 := by
      constructor
      · norm_num [TurnsAt, m, samplePoint, derivAt, ofCoeffs, Finset.sum_range_succ]
      · norm_num [m, q1, derivAt, ofCoeffs, Finset.sum_range_succ]
    have i2 : ¬ Inner (⟨3, 1, [[1, 4, -4]]⟩ : Segment ℝ) 0 (samplePoint 0 1 (1 / 2)) 2 := by
      intro hc
      have := hc.2
      norm_num [m, q2, derivAt, ofCoeffs, Finset.sum_range_succ] at this
    have hr : List.range' 1 2 = [1, 2] := rfl
    rw [hr, List.filter_cons_of_pos (by simpa only [decide_eq_true_eq] using i1), List.filter_cons_of_neg (by simpa only [decide_eq_true_eq] using i2), List.filter_nil]
  rw [hfl, hin] at h
  rw [h]
  simp only [List.map_cons, List.map_nil, q1]
  norm_num

/-! ## C102 -/

/-- The loop of `getMaximumMagnitude`. -/
theorem maximumLoop_eq (tr : Trajectory ℝ) (k : ℕ) (dt : ℝ) (F : ℝ → List ℝ) (hF : ∀ t, 0 ≤ t → t < tr.maxTime → tr.evaluate t k = .ok (F t)) (hdt : 0 < dt) (N : ℕ)
    (hN : tr.maxTime ≤ N * dt) (hN' : ∀ i < N, i * dt < tr.maxTime) (d j fuel : ℕ) (hj : j + d = N) (hf : d ≤ fuel) (m : ℝ) :
    ∃ r, maximumLoop tr k dt fuel (j * dt) m = .ok r ∧ (r = m ∨ ∃ i, j ≤ i ∧ i < N ∧ r = euclid (F (i * dt))) ∧ m ≤ r ∧ ∀ i, j ≤ i → i < N → euclid (F (i * dt)) ≤ r := by
  induction d generalizing j fuel m with
  | zero =>
    have : ¬ (j * dt < tr.maxTime) := by
      rw [show j = N by omega]; exact not_lt.mpr hN
    refine ⟨m, ?_, Or.inl rfl, le_rfl, fun i h1 h2 => by omega⟩
    cases fuel <;> rw [maximumLoop, if_neg this]
  | succ d ih =>
    obtain ⟨f, rfl⟩ : ∃ f, fuel = f + 1 := ⟨fuel - 1, by omega⟩
    have h1 := hN' j (by omega)
    have e : (j : ℝ) * dt + dt = ((j + 1 : ℕ) : ℝ) * dt := by push_cast; ring
    obtain ⟨r, hr, hr1, hr2, hr3⟩ := ih (j + 1) f (by omega) (by omega) (if euclid (F (j * dt)) > m then euclid (F (j * dt)) else m)
    refine ⟨r, ?_, ?_, ?_, ?_⟩
    · rw [maximumLoop, if_pos h1, hF _ (by positivity) h1]
      simp only [bind, Except.bind]
      rw [e]; exact hr
    · rcases hr1 with h | ⟨i, a, b, c⟩
      · split at h
        · exact Or.inr ⟨j, le_rfl, by omega, h⟩
        · exact Or.inl h
      · exact Or.inr ⟨i, by omega, b, c⟩
    · split at hr2
      · linarith
      · exact hr2
    · intro i a b
      rcases Nat.eq_or_lt_of_le a with rfl | h
      · split at hr2
        · exact hr2
        · linarith
      · exact hr3 i h b

theorem ceil_samples (T dt : ℝ) (hdt : 0 < dt) : T ≤ ⌈T / dt⌉₊ * dt ∧ ∀ i < ⌈T / dt⌉₊, (i : ℝ) * dt < T := by
  constructor
  · have := Nat.le_ceil (T / dt)
    rw [div_le_iff₀ hdt] at this
    exact this
  · intro i hi
    have := Nat.lt_ceil.mp hi
    rwa [lt_div_iff₀ hdt] at this

/-- C102: the sampled maximum is the largest of the values every `dt` before the end of the trajectory, the first one at its start. -/
theorem C102_maximum (tr : Trajectory ℝ) (k : ℕ) (dt : ℝ) (F : ℝ → List ℝ) (hF : ∀ t, 0 ≤ t → t < tr.maxTime → tr.evaluate t k = .ok (F t)) (hdt : 0 < dt)
    (hT : 0 < tr.maxTime) (fuel : ℕ) (hf : ⌈tr.maxTime / dt⌉₊ ≤ fuel) :
    ∃ m, getMaximumMagnitude fuel tr k dt = .ok m ∧ (∃ i : ℕ, i * dt < tr.maxTime ∧ m = euclid (F (i * dt))) ∧
      ∀ i : ℕ, i * dt < tr.maxTime → euclid (F (i * dt)) ≤ m := by
  obtain ⟨hN, hN'⟩ := ceil_samples tr.maxTime dt hdt
  obtain ⟨r, hr, hr1, hr2, hr3⟩ := maximumLoop_eq tr k dt F hF hdt ⌈tr.maxTime / dt⌉₊ hN hN' ⌈tr.maxTime / dt⌉₊ 0 fuel (by omega) hf (-1000000000)
  have hlt : ∀ i : ℕ, i * dt < tr.maxTime → i < ⌈tr.maxTime / dt⌉₊ := fun i hi => Nat.lt_ceil.mpr (by rwa [lt_div_iff₀ hdt])
  refine ⟨r, by unfold getMaximumMagnitude; simpa using hr, ?_, fun i hi => hr3 i (Nat.zero_le _) (hlt i hi)⟩
  rcases hr1 with h | ⟨i, _, b, c⟩
  · exfalso
    have h0 := hr3 0 le_rfl (hlt 0 (by simpa using hT))
    have : 0 ≤ euclid (F ((0 : ℕ) * dt)) := Real.sqrt_nonneg _
    linarith
  · exact ⟨i, hN' i b, c⟩

/-- C102: if the magnitude changes by at most `L` per unit of time, the sampled maximum is a value of the trajectory and less than `L dt` below every other value before its
end. -/
theorem C102_accuracy (tr : Trajectory ℝ) (k : ℕ) (dt L : ℝ) (F : ℝ → List ℝ) (hF : ∀ t, 0 ≤ t → t < tr.maxTime → tr.evaluate t k = .ok (F t)) (hdt : 0 < dt)
    (hT : 0 < tr.maxTime) (hL : ∀ t u, 0 ≤ t → t ≤ u → u < tr.maxTime → |euclid (F u) - euclid (F t)| ≤ L * (u - t)) (fuel : ℕ) (hf : ⌈tr.maxTime / dt⌉₊ ≤ fuel) :
    ∃ m, getMaximumMagnitude fuel tr k dt = .ok m ∧ (∃ t, 0 ≤ t ∧ t < tr.maxTime ∧ m = euclid (F t)) ∧
      ∀ t, 0 ≤ t → t < tr.maxTime → euclid (F t) ≤ m + L * dt := by
  obtain ⟨m, h1, ⟨i, h2, h3⟩, h4⟩ := C102_maximum tr k dt F hF hdt hT fuel hf
  refine ⟨m, h1, ⟨i * dt, by positivity, h2, h3⟩, fun t ht0 htT => ?_⟩
  obtain ⟨ha, hb⟩ := sample_floor 0 t dt hdt ht0
  rw [sub_zero, zero_add] at ha hb
  set j := ⌊t / dt⌋₊
  have hj := h4 j (lt_of_le_of_lt ha htT)
  have hl := (abs_le.mp (hL (j * dt) t (by positivity) ha htT)).2
  have hL0 : 0 ≤ L := by
    have := (abs_nonneg _).trans (hL 0 (tr.maxTime / 2) le_rfl (by linarith) (by linarith))
    by_contra hc
    push Not at hc
    nlinarith
  have : L * (t - j * dt) ≤ L * dt := mul_le_mul_of_nonneg_left (by linarith) hL0
  linarith

/-- C102: of a trajectory without duration the maximum is reported as `-10⁹`. -/
theorem C102_no_duration (tr : Trajectory ℝ) (k : ℕ) (dt : ℝ) (hT : tr.maxTime ≤ 0) (fuel : ℕ) :
    getMaximumMagnitude fuel tr k dt = .ok (-1000000000) ∧ computeCostNumeric fuel tr k dt = .ok 0 := by
  unfold getMaximumMagnitude computeCostNumeric
  cases fuel <;> rw [maximumLoop, costLoop, if_neg (not_lt.mpr hT), if_neg (not_lt.mpr hT)] <;> exact ⟨rfl, rfl⟩

/-- The loop of `computeCostNumeric`. -/
theorem costLoop_eq (tr : Trajectory ℝ) (k : ℕ) (dt : ℝ) (F : ℝ → List ℝ) (hF : ∀ t, 0 ≤ t → t < tr.maxTime → tr.evaluate t k = .ok (F t)) (hdt : 0 < dt) (N : ℕ)
    (hN : tr.maxTime ≤ N * dt) (hN' : ∀ i < N, i * dt < tr.maxTime) (d j fuel : ℕ) (hj : j + d = N) (hf : d ≤ fuel) (c : ℝ) :
    costLoop tr k dt fuel (j * dt) c = .ok (c + ∑ i ∈ Finset.Ico j N, euclid (F (i * dt)) ^ 2 * dt) := by
  induction d generalizing j fuel c with
  | zero =>
    have : ¬ (j * dt < tr.maxTime) := by
      rw [show j = N by omega]; exact not_lt.mpr hN
    rw [show j = N by omega] at this ⊢
    cases fuel <;> rw [costLoop, if_neg this] <;> simp
  | succ d ih =>
    obtain ⟨f, rfl⟩ : ∃ f, fuel = f + 1 := ⟨fuel - 1, by omega⟩
    have h1 := hN' j (by omega)
    have e : (j : ℝ) * dt + dt = ((j + 1 : ℕ) : ℝ) * dt := by push_cast; ring
    rw [costLoop, if_pos h1, hF _ (by positivity) h1]
    simp only [bind, Except.bind]
    rw [e, ih (j + 1) f (by omega) (by omega), Finset.sum_eq_sum_Ico_succ_bot (show j < N by omega)]
    have : euclid (F (j * dt)) ^ 2 = ((F (j * dt)).map fun x => x ^ 2).sum := by
      unfold euclid
      refine Real.sq_sqrt (List.sum_nonneg ?_)
      intro x hx
      obtain ⟨y, _, rfl⟩ := List.mem_map.mp hx
      positivity
    rw [this, add_assoc]

/-- C102: the sampled cost is the left Riemann sum with step `dt` of the squared magnitude, up to the last sample before the end. -/
theorem C102_cost (tr : Trajectory ℝ) (k : ℕ) (dt : ℝ) (F : ℝ → List ℝ) (hF : ∀ t, 0 ≤ t → t < tr.maxTime → tr.evaluate t k = .ok (F t)) (hdt : 0 < dt)
    (fuel : ℕ) (hf : ⌈tr.maxTime / dt⌉₊ ≤ fuel) :
    computeCostNumeric fuel tr k dt = .ok (∑ i ∈ Finset.range ⌈tr.maxTime / dt⌉₊, euclid (F (i * dt)) ^ 2 * dt) := by
  obtain ⟨hN, hN'⟩ := ceil_samples tr.maxTime dt hdt
  have := costLoop_eq tr k dt F hF hdt ⌈tr.maxTime / dt⌉₊ hN hN' ⌈tr.maxTime / dt⌉₊ 0 fuel (by omega) hf 0
  unfold computeCostNumeric
  simpa using this

/-- C102: if the squared magnitude `w` is at most `B` and changes by at most `L` per unit of time, the sampled cost differs from its integral by at most `(L T + B) dt`. -/
theorem C102_cost_accuracy (tr : Trajectory ℝ) (k : ℕ) (dt L B : ℝ) (F : ℝ → List ℝ) (hF : ∀ t, 0 ≤ t → t < tr.maxTime → tr.evaluate t k = .ok (F t)) (hdt : 0 < dt)
    (hT : 0 < tr.maxTime) (w : ℝ → ℝ) (hw : ∀ t, 0 ≤ t → t < tr.maxTime → w t = euclid (F t) ^ 2) (hc : ContinuousOn w (Set.Icc 0 tr.maxTime))
    (hB : ∀ t ∈ Set.Icc 0 tr.maxTime, w t ≤ B) (hL : ∀ t ∈ Set.Icc 0 tr.maxTime, ∀ u ∈ Set.Icc 0 tr.maxTime, |w u - w t| ≤ L * |u - t|)
    (fuel : ℕ) (hf : ⌈tr.maxTime / dt⌉₊ ≤ fuel) :
    ∃ c, computeCostNumeric fuel tr k dt = .ok c ∧ |c - ∫ t in (0 : ℝ)..tr.maxTime, w t| ≤ (L * tr.maxTime + B) * dt := by
  refine ⟨_, C102_cost tr k dt F hF hdt fuel hf, ?_⟩
  obtain ⟨hN, hN'⟩ := ceil_samples tr.maxTime dt hdt
  set N := ⌈tr.maxTime / dt⌉₊
  set T := tr.maxTime
  have hNlt : (N : ℝ) * dt < T + dt := by
    have := Nat.ceil_lt_add_one (div_nonneg hT.le hdt.le)
    have h2 := mul_lt_mul_of_pos_right this hdt
    rw [add_mul, div_mul_cancel₀ _ hdt.ne', one_mul] at h2
    exact h2
  have hL0 : 0 ≤ L := by
    have h := (abs_nonneg _).trans (hL 0 ⟨le_rfl, hT.le⟩ T ⟨hT.le, le_rfl⟩)
    rw [sub_zero, abs_of_pos hT] at h
    by_contra hcon
    push Not at hcon
    nlinarith
  -- the ends of the intervals
  set a : ℕ → ℝ := fun i => min (i * dt) T with ha
  have ha0 : a 0 = 0 := by simp [ha, hT.le]
  have haN : a N = T := min_eq_right hN
  have hai : ∀ i < N, a i = i * dt := fun i hi => min_eq_left (hN' i hi).le
  have hstep : ∀ i, a i ≤ a (i + 1) ∧ a (i + 1) - a i ≤ dt := by
    intro i
    simp only [ha]
    push_cast
    have h1 : (i : ℝ) * dt ≤ (i + 1) * dt := by nlinarith
    refine ⟨min_le_min_right _ h1, ?_⟩
    rcases le_total ((i : ℝ) * dt) T with h | h
    · rw [min_eq_left h]
      have := min_le_left (((i : ℝ) + 1) * dt) T
      linarith
    · rw [min_eq_right h]
      have := min_le_right (((i : ℝ) + 1) * dt) T
      linarith
  have hmem : ∀ i, a i ∈ Set.Icc 0 T := fun i => ⟨le_min (by positivity) hT.le, min_le_right _ _⟩
  have hsub : ∀ i, Set.Icc (a i) (a (i + 1)) ⊆ Set.Icc 0 T := fun i x hx => ⟨(hmem i).1.trans hx.1, hx.2.trans (hmem (i + 1)).2⟩
  have hint : ∀ i < N, IntervalIntegrable w MeasureTheory.volume (a i) (a (i + 1)) := by
    intro i _
    refine ContinuousOn.intervalIntegrable ?_
    rw [Set.uIcc_of_le (hstep i).1]
    exact hc.mono (hsub i)
  have hsplit : ∫ t in (0 : ℝ)..T, w t = ∑ i ∈ Finset.range N, ∫ t in (a i)..(a (i + 1)), w t := by
    rw [intervalIntegral.sum_integral_adjacent_intervals hint, ha0, haN]
  have hpart : ∀ i < N, |w (a i) * (a (i + 1) - a i) - ∫ t in (a i)..(a (i + 1)), w t| ≤ L * dt * (a (i + 1) - a i) := by
    intro i hi
    have h1 : w (a i) * (a (i + 1) - a i) = ∫ _ in (a i)..(a (i + 1)), w (a i) := by
      rw [intervalIntegral.integral_const, smul_eq_mul, mul_comm]
    rw [h1, ← intervalIntegral.integral_sub intervalIntegrable_const (hint i hi)]
    have := intervalIntegral.norm_integral_le_of_norm_le_const (a := a i) (b := a (i + 1)) (f := fun t => w (a i) - w t) (C := L * dt) (by
      intro x hx
      rw [Set.uIoc_of_le (hstep i).1] at hx
      rw [Real.norm_eq_abs]
      have hx' : x ∈ Set.Icc (a i) (a (i + 1)) := ⟨hx.1.le, hx.2⟩
      refine (hL x (hsub i hx') (a i) (hmem i)).trans (mul_le_mul_of_nonneg_left ?_ hL0)
      rw [abs_le]
      constructor <;> linarith [hx.1, hx.2, (hstep i).2])
    rwa [Real.norm_eq_abs, abs_of_nonneg (sub_nonneg.mpr (hstep i).1)] at this
  have htel : ∑ i ∈ Finset.range N, (a (i + 1) - a i) = T := by
    rw [Finset.sum_range_sub, ha0, haN, sub_zero]
  have hsum1 : |∑ i ∈ Finset.range N, w (a i) * (a (i + 1) - a i) - ∫ t in (0 : ℝ)..T, w t| ≤ L * dt * T := by
    rw [hsplit, ← Finset.sum_sub_distrib, ← htel, Finset.mul_sum]
    exact (Finset.abs_sum_le_sum_abs _ _).trans (Finset.sum_le_sum fun i hi => hpart i (Finset.mem_range.mp hi))
  have hw0 : ∀ i < N, 0 ≤ w (a i) := by
    intro i hi
    rw [hai i hi, hw _ (by positivity) (hN' i hi)]
    positivity
  have hcost : ∑ i ∈ Finset.range N, euclid (F (i * dt)) ^ 2 * dt = ∑ i ∈ Finset.range N, w (a i) * dt := by
    refine Finset.sum_congr rfl fun i hi => ?_
    have hi := Finset.mem_range.mp hi
    rw [hai i hi, hw _ (by positivity) (hN' i hi)]
  have hrest : 0 ≤ ∑ i ∈ Finset.range N, w (a i) * (dt - (a (i + 1) - a i)) ∧ ∑ i ∈ Finset.range N, w (a i) * (dt - (a (i + 1) - a i)) ≤ B * dt := by
    constructor
    · exact Finset.sum_nonneg fun i hi => mul_nonneg (hw0 i (Finset.mem_range.mp hi)) (by linarith [(hstep i).2])
    · have hB0 : 0 ≤ B := by
        have h0 := hB 0 ⟨le_rfl, hT.le⟩
        rw [hw 0 le_rfl hT] at h0
        exact (sq_nonneg _).trans h0
      calc ∑ i ∈ Finset.range N, w (a i) * (dt - (a (i + 1) - a i)) ≤ ∑ i ∈ Finset.range N, B * (dt - (a (i + 1) - a i)) :=
            Finset.sum_le_sum fun i _ => mul_le_mul_of_nonneg_right (hB _ (hmem i)) (by linarith [(hstep i).2])
        _ = B * (N * dt - T) := by rw [← Finset.mul_sum, Finset.sum_sub_distrib, htel]; simp
        _ ≤ B * dt := mul_le_mul_of_nonneg_left (by linarith) hB0
  have hdec : ∑ i ∈ Finset.range N, w (a i) * dt = ∑ i ∈ Finset.range N, w (a i) * (a (i + 1) - a i) + ∑ i ∈ Finset.range N, w (a i) * (dt - (a (i + 1) - a i)) := by
    rw [← Finset.sum_add_distrib]
    exact Finset.sum_congr rfl fun i _ => by ring
  rw [hcost, hdec, abs_le]
  have := abs_le.mp hsum1
  constructor
  · have h3 : 0 ≤ B * dt := hrest.1.trans hrest.2
    linarith [this.1, hrest.1]
  · linarith [this.2, hrest.2]

/-- C102: with a step that is not positive neither call returns. -/
theorem C102_never_ends (tr : Trajectory ℝ) (k : ℕ) (dt : ℝ) (hdt : dt ≤ 0) (hT : 0 < tr.maxTime) (hev : ∀ t ≤ 0, ∃ v, tr.evaluate t k = .ok v) (fuel : ℕ) :
    getMaximumMagnitude fuel tr k dt = .error .hang ∧ computeCostNumeric fuel tr k dt = .error .hang := by
  have h1 : ∀ fuel t m, t ≤ 0 → maximumLoop tr k dt fuel t m = .error .hang := by
    intro fuel
    induction fuel with
    | zero => intro t m ht; rw [maximumLoop, if_pos (lt_of_le_of_lt ht hT)]
    | succ f ih =>
      intro t m ht
      obtain ⟨v, hv⟩ := hev t ht
      rw [maximumLoop, if_pos (lt_of_le_of_lt ht hT), hv]
      exact ih _ _ (by linarith)
  have h2 : ∀ fuel t m, t ≤ 0 → costLoop tr k dt fuel t m = .error .hang := by
    intro fuel
    induction fuel with
    | zero => intro t m ht; rw [costLoop, if_pos (lt_of_le_of_lt ht hT)]
    | succ f ih =>
      intro t m ht
      obtain ⟨v, hv⟩ := hev t ht
      rw [costLoop, if_pos (lt_of_le_of_lt ht hT), hv]
      exact ih _ _ (by linarith)
  exact ⟨h1 fuel 0 _ le_rfl, h2 fuel 0 _ le_rfl⟩

-- A trajectory with one dimension and position `t` for one second meets the hypotheses.
example : ∃ (tr : Trajectory ℝ) (F : ℝ → List ℝ), 0 < tr.maxTime ∧ (∀ t, 0 ≤ t → t < tr.maxTime → tr.evaluate t 0 = .ok (F t)) ∧
    (∀ t u, 0 ≤ t → t ≤ u → u < tr.maxTime → |euclid (F u) - euclid (F t)| ≤ 1 * (u - t)) ∧
    (∀ t, 0 ≤ t → t < tr.maxTime → t ^ 2 = euclid (F t) ^ 2) ∧ ∀ t ∈ Set.Icc 0 tr.maxTime, t ^ 2 ≤ 1 := by
  have hn : ∀ t : ℝ, euclid [t] = |t| := fun t => by simp [euclid, Real.sqrt_sq_eq_abs]
  refine ⟨⟨1, 2, 1, [⟨2, 1, [[0, 1]]⟩]⟩, fun t => [t], one_pos, ?_, ?_, ?_, ?_⟩
  · intro t h0 h1
    have h1 : t < 1 := h1
    rw [evaluate_inside (⟨1, 2, 1, [⟨2, 1, [[0, 1]]⟩]⟩ : Trajectory ℝ) t 0 0 ⟨2, 1, [[0, 1]]⟩ (by simp) (by simp) rfl (by simpa [startOf, duration] using h0)
      (by simpa [startOf, duration] using h1)]
    simp [segDeriv, derivAt, ofCoeffs, startOf, duration, Finset.sum_range_succ]
  · intro t u h0 h1 _
    rw [hn, hn, abs_of_nonneg h0, abs_of_nonneg (h0.trans h1), abs_of_nonneg (by linarith)]
    linarith
  · intro t _ _
    simp only [hn, sq_abs]
  · rintro t ⟨h0, h1⟩
    have h1 : t ≤ 1 := h1
    nlinarith

end Verif.Properties
