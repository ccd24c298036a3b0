import Verif.Lemmas.MagnitudeApprox
import Verif.Properties.ScaleToMeet
import Verif.Properties.OptMagnitude

/-!
# Properties C05, C07, C12, C75 with an inexact root finder

`FindsExtrema rf ε s dims k` (in `Spec/Magnitude`) asks only that the root finder locates, up to `ε`, the zeros of the one polynomial that belongs to the segment
and derivative in question; `CurvatureBound` bounds the second derivative of the squared magnitude. The results are then right up to `M ε²` in the squared
magnitude. With `ε = 0` they are exact.
-/

namespace Verif.Properties

open Spec LinOpt Lemmas

/-- `v` is attained by `f` at `x` in `[a, b]`, and no square of a value of `f` exceeds `v ^ 2` by more than `δ`. -/
def IsMaxWithin (f : ℝ → ℝ) (a b x v δ : ℝ) : Prop := x ∈ Set.Icc a b ∧ v = f x ∧ ∀ y ∈ Set.Icc a b, f y ^ 2 ≤ v ^ 2 + δ

/-- `v` is attained by `f` at `x` in `[a, b]`, and no square of a value of `f` is smaller than `v ^ 2` by more than `δ`. -/
def IsMinWithin (f : ℝ → ℝ) (a b x v δ : ℝ) : Prop := x ∈ Set.Icc a b ∧ v = f x ∧ ∀ y ∈ Set.Icc a b, v ^ 2 ≤ f y ^ 2 + δ

/-- C05: the selected maximum is attained, and its square misses the largest squared magnitude by at most `M ε²`; with several dimensions the same holds for the
minimum. -/
theorem C05_accuracy (rf : Poly.RootFinder ℝ) (ε M : ℝ) (s : Segment ℝ) (k : ℕ) (t0 t1 : ℝ) (dims : List ℕ)
    (hrf : FindsExtrema rf ε s dims k) (hM : CurvatureBound s dims k t0 t1 M) (hR : Regular s) (hk : k < s.N) (hne : dims ≠ [])
    (hdims : ∀ d ∈ dims, d < s.polys.length) (h01 : t0 ≤ t1) (mn mx : Extremum ℝ) :
    ∃ cands mn' mx', s.computeMinMaxMagnitudeCandidates rf k t0 t1 (dims.map Int.ofNat) = .ok cands ∧
      Segment.selectMinMaxMagnitudeFromCandidates t0 t1 cands mn mx = some (mn', mx') ∧
      IsMaxWithin (magnitude s dims k) t0 t1 mx'.time mx'.value (M * ε ^ 2) ∧
      (2 ≤ dims.length → (∀ τ ∈ Set.Icc t0 t1, magnitude s dims k τ < Poly.dblMax) →
        IsMinWithin (magnitude s dims k) t0 t1 mn'.time mn'.value (M * ε ^ 2)) := by
  obtain ⟨ts, h1, h2, h3, h4, h5⟩ := candidateTimes_near rf ε s k t0 t1 dims hrf hR hk hne hdims h01
  have hc := candidates_eq rf s k t0 t1 dims hR hdims ts h1
  obtain ⟨a1, a2, a3, a4, a5, a6⟩ := selectFold_spec (magnitude s dims k) t0 t1 ts h4
    ({ mn with value := Poly.dblMax }, { mx with value := -Poly.dblMax })
  have hsel : Segment.selectMinMaxMagnitudeFromCandidates t0 t1
      (ts.map fun t => (⟨t, magnitude s dims k t, 0⟩ : Extremum ℝ)) mn mx =
      some (List.foldl (fun acc c => if c.time < t0 ∨ t1 < c.time then acc else (Segment.minE acc.1 c, Segment.maxE acc.2 c))
        ({ mn with value := Poly.dblMax }, { mx with value := -Poly.dblMax })
        (ts.map fun t => (⟨t, magnitude s dims k t, 0⟩ : Extremum ℝ))) := by
    unfold Segment.selectMinMaxMagnitudeFromCandidates
    rw [if_neg (not_lt.mpr h01)]
  generalize hF : List.foldl _ _ _ = F at hsel a1 a2 a3 a4 a5 a6
  refine ⟨_, F.1, F.2, hc, hsel, ?_, ?_⟩
  · rcases a2 with h | ⟨h, h'⟩
    · exfalso
      have hle := a6 t0 h2
      rw [h] at hle
      have h0 : 0 ≤ magnitude s dims k t0 := Real.sqrt_nonneg _
      have := dblMax_pos
      simp only at hle
      linarith
    · refine ⟨h4 _ h, h', fun y hy => ?_⟩
      obtain ⟨x, hx, hxy⟩ := near_max s k dims t0 t1 ε M h01 hM ts h2 h3 h4 h5 y hy
      have h0 : 0 ≤ magnitude s dims k x := Real.sqrt_nonneg _
      have := pow_le_pow_left₀ h0 (a6 x hx) 2
      linarith
  · intro hlen hrange
    rcases a1 with h | ⟨h, h'⟩
    · exfalso
      have hle := a5 t0 h2
      rw [h] at hle
      have := hrange t0 (Set.left_mem_Icc.mpr h01)
      simp only at hle
      linarith
    · refine ⟨h4 _ h, h', fun y hy => ?_⟩
      obtain ⟨x, hx, hxy⟩ := near_min s k dims hlen t0 t1 ε M h01 hM ts h2 h3 h4 h5 y hy
      have h0 : 0 ≤ F.1.value := by rw [h']; exact Real.sqrt_nonneg _
      have := pow_le_pow_left₀ h0 (a5 x hx) 2
      linarith

theorem minMaxLoop_near (rf : Poly.RootFinder ℝ) (ε M : ℝ) (k : ℕ) (dims : List ℕ) (hne : dims ≠ [])
    (segs : List (Segment ℝ)) (hs : ∀ s ∈ segs, Regular s ∧ k < s.N ∧ 0 ≤ s.time ∧ ∀ d ∈ dims, d < s.polys.length)
    (hrf : ∀ s ∈ segs, FindsExtrema rf ε s dims k ∧ CurvatureBound s dims k 0 s.time M)
    (n : ℕ) (mn mx : Extremum ℝ) :
    ∃ mn' mx', Trajectory.minMaxLoop rf k (dims.map Int.ofNat) segs n mn mx = .ok (true, mn', mx') ∧
      (mx' = mx ∨ ∃ (j : ℕ) (s : Segment ℝ), segs[j]? = some s ∧ mx'.segmentIdx = n + j ∧ mx'.time ∈ Set.Icc 0 s.time ∧
        mx'.value = magnitude s dims k mx'.time) ∧ mx.value ≤ mx'.value ∧
      (∀ (j : ℕ) (s : Segment ℝ), segs[j]? = some s → 0 ≤ mx'.value ∧
        ∀ τ ∈ Set.Icc 0 s.time, magnitude s dims k τ ^ 2 ≤ mx'.value ^ 2 + M * ε ^ 2) ∧
      ((2 ≤ dims.length ∧ ∀ (j : ℕ) (s : Segment ℝ), segs[j]? = some s → ∀ τ ∈ Set.Icc 0 s.time, magnitude s dims k τ < Poly.dblMax) →
        0 ≤ mn.value →
        (mn' = mn ∨ ∃ (j : ℕ) (s : Segment ℝ), segs[j]? = some s ∧ mn'.segmentIdx = n + j ∧ mn'.time ∈ Set.Icc 0 s.time ∧
          mn'.value = magnitude s dims k mn'.time) ∧ 0 ≤ mn'.value ∧ mn'.value ≤ mn.value ∧
        (∀ (j : ℕ) (s : Segment ℝ), segs[j]? = some s → mn'.value < Poly.dblMax ∧
          ∀ τ ∈ Set.Icc 0 s.time, mn'.value ^ 2 ≤ magnitude s dims k τ ^ 2 + M * ε ^ 2)) := by
  induction segs generalizing n mn mx with
  | nil => exact ⟨mn, mx, rfl, Or.inl rfl, le_refl _, by simp, by simp⟩
  | cons s ss ih =>
    obtain ⟨hR, hk, hT, hd⟩ := hs s (by simp)
    obtain ⟨hf, hM⟩ := hrf s (by simp)
    obtain ⟨c, m1, m2, e1, e2, e3, e4⟩ := C05_accuracy rf ε M s k 0 s.time dims hf hM hR hk hne hd hT ⟨0, 0, 0⟩ ⟨0, 0, 0⟩
    set mnn : Extremum ℝ := if m1.value < mn.value then { m1 with segmentIdx := n } else mn with hmnn
    set mxx : Extremum ℝ := if m2.value > mx.value then { m2 with segmentIdx := n } else mx with hmxx
    obtain ⟨mn', mx', f1, f2, f3, f4, f5⟩ := ih (fun x hx => hs x (by simp [hx])) (fun x hx => hrf x (by simp [hx])) (n + 1) mnn mxx
    have hx1 : mx.value ≤ mxx.value ∧ m2.value ≤ mxx.value ∧ (mxx = mx ∨ mxx = { m2 with segmentIdx := n }) := by
      rw [hmxx]; split
      · rename_i h; exact ⟨le_of_lt h, le_refl _, Or.inr rfl⟩
      · rename_i h; exact ⟨le_refl _, not_lt.mp h, Or.inl rfl⟩
    have hn1 : mnn.value ≤ mn.value ∧ mnn.value ≤ m1.value ∧ (mnn = mn ∨ mnn = { m1 with segmentIdx := n }) := by
      rw [hmnn]; split
      · rename_i h; exact ⟨h.le, le_refl _, Or.inr rfl⟩
      · rename_i h; exact ⟨le_refl _, not_lt.mp h, Or.inl rfl⟩
    have hm20 : 0 ≤ m2.value := by rw [e3.2.1]; exact Real.sqrt_nonneg _
    refine ⟨mn', mx', ?_, ?_, hx1.1.trans f3, ?_, ?_⟩
    · rw [Trajectory.minMaxLoop, e1]
      simp only [bind, Except.bind, e2]
      exact f1
    · rcases f2 with h | ⟨j, s', hj, g1, g2, g3⟩
      · rcases hx1.2.2 with h' | h'
        · left; rw [h, h']
        · right; refine ⟨0, s, rfl, ?_⟩
          rw [h, h']; exact ⟨rfl, e3.1, e3.2.1⟩
      · right; exact ⟨j + 1, s', by simpa using hj, by rw [g1]; omega, g2, g3⟩
    · intro j s' hj
      have hle := hx1.2.1.trans f3
      cases j with
      | zero =>
        simp at hj; subst hj
        refine ⟨hm20.trans hle, fun τ hτ => ?_⟩
        have := pow_le_pow_left₀ hm20 hle 2
        linarith [e3.2.2 τ hτ]
      | succ j => exact f4 j s' (by simpa using hj)
    · rintro ⟨hlen, hrange⟩ hmn0
      have e5 := e4 hlen (hrange 0 s rfl)
      have hm10 : 0 ≤ m1.value := by rw [e5.2.1]; exact Real.sqrt_nonneg _
      have hmnn0 : 0 ≤ mnn.value := by rcases hn1.2.2 with h | h <;> rw [h] <;> assumption
      obtain ⟨p1, p0, p2, p3⟩ := f5 ⟨hlen, fun j s' hj => hrange (j + 1) s' (by simpa using hj)⟩ hmnn0
      refine ⟨?_, p0, p2.trans hn1.1, ?_⟩
      · rcases p1 with h | ⟨j, s', hj, g1, g2, g3⟩
        · rcases hn1.2.2 with h' | h'
          · left; rw [h, h']
          · right; refine ⟨0, s, rfl, ?_⟩
            rw [h, h']; exact ⟨rfl, e5.1, e5.2.1⟩
        · right; exact ⟨j + 1, s', by simpa using hj, by rw [g1]; omega, g2, g3⟩
      · intro j s' hj
        cases j with
        | zero =>
          simp at hj; subst hj
          have hle := p2.trans hn1.2.1
          refine ⟨hle.trans_lt (by rw [e5.2.1]; exact hrange 0 s rfl _ e5.1), fun τ hτ => ?_⟩
          have := pow_le_pow_left₀ p0 hle 2
          linarith [e5.2.2 τ hτ]
        | succ j => exact p3 j s' (by simpa using hj)

/-- C07: the maximum reported for a trajectory is the magnitude in the reported segment at the reported time, and its square misses the largest one by at most
`M ε²`; with several dimensions the same holds for the minimum. -/
theorem C07_accuracy (rf : Poly.RootFinder ℝ) (ε M : ℝ) (tr : Trajectory ℝ) (k : ℕ) (dims : List ℕ) (hne : dims ≠ []) (hseg : tr.segments ≠ [])
    (hs : ∀ s ∈ tr.segments, Regular s ∧ k < s.N ∧ 0 ≤ s.time ∧ ∀ d ∈ dims, d < s.polys.length)
    (hrf : ∀ s ∈ tr.segments, FindsExtrema rf ε s dims k ∧ CurvatureBound s dims k 0 s.time M) (mn mx : Extremum ℝ) :
    ∃ mn' mx', tr.computeMinMaxMagnitude rf k (dims.map Int.ofNat) mn mx = .ok (true, mn', mx') ∧
      (∃ s, tr.segments[mx'.segmentIdx]? = some s ∧ mx'.time ∈ Set.Icc 0 s.time ∧ mx'.value = magnitude s dims k mx'.time) ∧
      (∀ (j : ℕ) (s : Segment ℝ), tr.segments[j]? = some s → ∀ τ ∈ Set.Icc 0 s.time, magnitude s dims k τ ^ 2 ≤ mx'.value ^ 2 + M * ε ^ 2) ∧
      ((2 ≤ dims.length ∧ ∀ (j : ℕ) (s : Segment ℝ), tr.segments[j]? = some s → ∀ τ ∈ Set.Icc 0 s.time,
          magnitude s dims k τ < Poly.dblMax) →
        (∃ s, tr.segments[mn'.segmentIdx]? = some s ∧ mn'.time ∈ Set.Icc 0 s.time ∧ mn'.value = magnitude s dims k mn'.time) ∧
        (∀ (j : ℕ) (s : Segment ℝ), tr.segments[j]? = some s → ∀ τ ∈ Set.Icc 0 s.time,
          mn'.value ^ 2 ≤ magnitude s dims k τ ^ 2 + M * ε ^ 2)) := by
  obtain ⟨mn', mx', h1, h2, h3, h4, h5⟩ := minMaxLoop_near rf ε M k dims hne tr.segments hs hrf 0
    { mn with value := Poly.dblMax } { mx with value := -Poly.dblMax }
  obtain ⟨s0, hs0⟩ : ∃ s, tr.segments[0]? = some s := by
    cases h : tr.segments with
    | nil => exact absurd h hseg
    | cons s ss => exact ⟨s, rfl⟩
  refine ⟨mn', mx', h1, ?_, fun j s hj => (h4 j s hj).2, ?_⟩
  · rcases h2 with h | ⟨j, s, hj, g1, g2, g3⟩
    · exfalso
      have := (h4 0 s0 hs0).1
      rw [h] at this
      have := dblMax_pos
      simp only at *
      linarith
    · exact ⟨s, by rw [g1, zero_add]; exact hj, g2, g3⟩
  · intro hh
    obtain ⟨p1, _, p2, p3⟩ := h5 hh dblMax_pos.le
    refine ⟨?_, fun j s hj => (p3 j s hj).2⟩
    rcases p1 with h | ⟨j, s, hj, g1, g2, g3⟩
    · exfalso
      have a := (p3 0 s0 hs0).1
      rw [h] at a
      simp only at a
      linarith
    · exact ⟨s, by rw [g1, zero_add]; exact hj, g2, g3⟩

theorem meetLoop_true (rf : Poly.RootFinder ℝ) (vMax aMax : ℝ) (n : ℕ) (tr tr' : Trajectory ℝ)
    (h : Trajectory.meetLoop rf vMax aMax n tr = .ok (true, tr')) (hs : ∀ s ∈ tr.segments, Regular s ∧ 2 < s.N ∧ 0 ≤ s.time ∧ s.polys.length = tr.D) :
    tr'.D = tr.D ∧ (∀ s ∈ tr'.segments, Regular s ∧ 2 < s.N ∧ 0 ≤ s.time ∧ s.polys.length = tr.D) ∧
      ∃ b v a, tr'.computeMaxVelocityAndAcceleration rf = .ok (b, v, a) ∧ v / vMax ≤ 1 + 1 / 1000 ∧ a / aMax ≤ 1 + 1 / 1000 := by
  induction n generalizing tr with
  | zero => cases h
  | succ n ih =>
    unfold Trajectory.meetLoop at h
    cases hm : tr.computeMaxVelocityAndAcceleration rf with
    | error e => rw [hm] at h; cases h
    | ok va =>
      rw [hm] at h
      simp only [bind, Except.bind] at h
      split at h
      · rename_i hok
        cases h
        exact ⟨rfl, hs, va.1, va.2.1, va.2.2, hm, hok⟩
      · have h1 : 1 ≤ max 1 (max (va.2.1 / vMax) (Real.sqrt (va.2.2 / aMax))) := le_max_left _ _
        generalize max 1 (max (va.2.1 / vMax) (Real.sqrt (va.2.2 / aMax))) = f at h h1
        refine ih (tr.scaleAll f) h ?_
        intro s hm
        simp only [Trajectory.scaleAll, List.mem_map] at hm ⊢
        obtain ⟨x, hx, rfl⟩ := hm
        obtain ⟨hr, hN, ht, hl⟩ := hs x hx
        refine ⟨⟨?_, hr.2⟩, hN, mul_nonneg ht (by linarith), by simpa [Segment.scale] using hl⟩
        intro p hp
        simp only [Segment.scale, List.mem_map] at hp
        obtain ⟨q, hq, rfl⟩ := hp
        rw [length_scaleInTime]; exact hr.1 q hq

/-- C12: whenever `scaleSegmentTimesToMeetConstraints` returns true, the trajectory it leaves behind is within 0.1 % of the limits up to the accuracy of the root
finder on that very trajectory. -/
theorem C12_accuracy (rf : Poly.RootFinder ℝ) (ε M vMax aMax : ℝ) (hv : 0 < vMax) (ha : 0 < aMax) (tr tr' : Trajectory ℝ)
    (h : tr.scaleSegmentTimesToMeetConstraints rf vMax aMax = .ok (true, tr')) (hD : 0 < tr.D)
    (hs : ∀ s ∈ tr.segments, Regular s ∧ 2 < s.N ∧ 0 ≤ s.time ∧ s.polys.length = tr.D)
    (hrf : ∀ s ∈ tr'.segments, ∀ k, (k = 1 ∨ k = 2) →
      FindsExtrema rf ε s (List.range tr.D) k ∧ CurvatureBound s (List.range tr.D) k 0 s.time M) :
    ∀ (j : ℕ) (s : Segment ℝ), tr'.segments[j]? = some s → ∀ τ ∈ Set.Icc 0 s.time,
      magnitude s (List.range tr.D) 1 τ ^ 2 ≤ (vMax * (1 + 1 / 1000)) ^ 2 + M * ε ^ 2 ∧
      magnitude s (List.range tr.D) 2 τ ^ 2 ≤ (aMax * (1 + 1 / 1000)) ^ 2 + M * ε ^ 2 := by
  intro j s hj τ hτ
  unfold Trajectory.scaleSegmentTimesToMeetConstraints at h
  rw [if_neg (by push Not; exact ⟨hv.ne', ha.ne'⟩)] at h
  obtain ⟨hD', hs, b, v, a, h1, h2, h3⟩ := meetLoop_true rf vMax aMax _ tr tr' h hs
  have hseg : tr'.segments ≠ [] := by rintro e; rw [e] at hj; simp at hj
  have hne : List.range tr.D ≠ [] := by simp; omega
  have key : ∀ k, (k = 1 ∨ k = 2) → ∃ mn' mx', tr'.computeMinMaxMagnitude rf k ((List.range tr.D).map Int.ofNat) ⟨0, 0, 0⟩ ⟨0, 0, 0⟩ = .ok (true, mn', mx') ∧
      0 ≤ mx'.value ∧ magnitude s (List.range tr.D) k τ ^ 2 ≤ mx'.value ^ 2 + M * ε ^ 2 := by
    intro k hk
    obtain ⟨mn', mx', g1, ⟨s', g2, g3, g4⟩, g5, _⟩ := C07_accuracy rf ε M tr' k (List.range tr.D) hne hseg
      (fun s hm => by
        obtain ⟨c1, c2, c3, c4⟩ := hs s hm
        exact ⟨c1, by omega, c3, fun d hd => by rw [c4]; simpa using hd⟩)
      (fun s hm => hrf s hm k hk) ⟨0, 0, 0⟩ ⟨0, 0, 0⟩
    exact ⟨mn', mx', g1, by rw [g4]; exact Real.sqrt_nonneg _, g5 j s hj τ hτ⟩
  obtain ⟨n1, x1, a1, a2, a3⟩ := key 1 (.inl rfl)
  obtain ⟨n2, x2, b1, b2, b3⟩ := key 2 (.inr rfl)
  unfold Trajectory.computeMaxVelocityAndAcceleration at h1
  rw [hD'] at h1
  simp only [a1, b1, bind, Except.bind, pure, Except.pure] at h1
  have h1 := Except.ok.inj h1
  have ev : x1.value = v := congrArg (fun p => p.2.1) h1
  have ea : x2.value = a := congrArg (fun p => p.2.2) h1
  rw [div_le_iff₀ hv, ← ev] at h2
  rw [div_le_iff₀ ha, ← ea] at h3
  have q1 := pow_le_pow_left₀ a2 h2 2
  have q2 := pow_le_pow_left₀ b2 h3 2
  constructor
  · rw [mul_comm vMax]; linarith
  · rw [mul_comm aMax]; linarith

theorem magnitudeCandidates_near (h : ℕ) (rf : Poly.RootFinder ℝ) (ε M : ℝ) (k : ℕ) (hk : k + 1 < h + h)
    (segs : List (Segment ℝ)) (hs : ∀ s ∈ segs, Regular s ∧ k < s.N ∧ 0 ≤ s.time ∧ 0 < s.polys.length)
    (hrf : ∀ s ∈ segs, FindsExtrema rf ε s (List.range s.polys.length) k ∧ CurvatureBound s (List.range s.polys.length) k 0 s.time M) (n : ℕ) :
    ∃ cs, magnitudeCandidates h rf k segs n = .ok cs ∧
      (∀ c ∈ cs, ∃ (j : ℕ) (s : Segment ℝ), segs[j]? = some s ∧ c.segmentIdx = n + j ∧ c.time ∈ Set.Icc 0 s.time ∧
        c.value = magnitude s (List.range s.polys.length) k c.time) ∧
      ∀ (j : ℕ) (s : Segment ℝ), segs[j]? = some s → ∀ τ ∈ Set.Icc 0 s.time, ∃ c ∈ cs,
        magnitude s (List.range s.polys.length) k τ ^ 2 ≤ c.value ^ 2 + M * ε ^ 2 := by
  induction segs generalizing n with
  | nil => exact ⟨[], rfl, by simp, by simp⟩
  | cons s segs ih =>
    obtain ⟨hR, hkN, hT, hD⟩ := hs s (by simp)
    obtain ⟨hf, hM⟩ := hrf s (by simp)
    have hne : List.range s.polys.length ≠ [] := by
      intro e
      have := congrArg List.length e
      simp only [List.length_range, List.length_nil] at this
      omega
    have hdims : ∀ d ∈ List.range s.polys.length, d < s.polys.length := fun d hd => List.mem_range.mp hd
    obtain ⟨ts, h1, h2, h3, h4, h5⟩ := candidateTimes_near rf ε s k 0 s.time _ hf hR hkN hne hdims hT
    have h6 := near_max s k _ 0 s.time ε M hT hM ts h2 h3 h4 h5
    obtain ⟨cs, i1, i2, i3⟩ := ih (fun x hx => hs x (by simp [hx])) (fun x hx => hrf x (by simp [hx])) (n + 1)
    have hm : ts.mapM (candidateAt s k n) = .ok (ts.map fun t => ⟨t, magnitude s (List.range s.polys.length) k t, n⟩) :=
      mapM_ok _ _ _ fun t _ => candidateAt_eq s hR k n t
    refine ⟨(ts.map fun t => ⟨t, magnitude s (List.range s.polys.length) k t, n⟩) ++ cs, ?_, ?_, ?_⟩
    · rw [magnitudeCandidates]
      unfold computeSegmentMaximumMagnitudeCandidates
      have e : s.candidateTimes rf k 0 s.time ((List.range s.D).map Int.ofNat) = .ok (some ts) := h1
      rw [if_neg (not_not.mpr hk), e]
      simp only [bind, Except.bind, pure, Except.pure, Option.getD_some]
      rw [hm, i1]
    · intro c hc
      rw [List.mem_append, List.mem_map] at hc
      rcases hc with ⟨t, ht, e⟩ | hc
      · rw [← e]
        exact ⟨0, s, rfl, rfl, h4 t ht, rfl⟩
      · obtain ⟨j, s', hj, g1, g2⟩ := i2 c hc
        exact ⟨j + 1, s', by simpa using hj, by rw [g1]; omega, g2⟩
    · intro j s' hj τ hτ
      cases j with
      | zero =>
        simp at hj
        subst hj
        obtain ⟨x, hx, hle⟩ := h6 τ hτ
        exact ⟨_, List.mem_append_left _ (List.mem_map.mpr ⟨x, hx, rfl⟩), hle⟩
      | succ j =>
        obtain ⟨c, hc, hle⟩ := i3 j s' (by simpa using hj) τ hτ
        exact ⟨c, List.mem_append_right _ hc, hle⟩

theorem maximum_near {h : ℕ} (rf : Poly.RootFinder ℝ) (ε M : ℝ) (o : LinOpt h ℝ) (k : ℕ) (hk : k + 1 < h + h)
    (hne : o.segments ≠ []) (hn : o.nSegments = o.segments.length)
    (hs : ∀ s ∈ o.segments, Regular s ∧ k < s.N ∧ 0 ≤ s.time ∧ 0 < s.polys.length)
    (hrf : ∀ s ∈ o.segments, FindsExtrema rf ε s (List.range s.polys.length) k ∧
      CurvatureBound s (List.range s.polys.length) k 0 s.time M) :
    ∃ e cs, o.computeMaximumOfMagnitude rf k = .ok (e, cs) ∧
      (∃ s, o.segments[e.segmentIdx]? = some s ∧ e.time ∈ Set.Icc 0 s.time ∧ e.value = magnitude s (List.range s.polys.length) k e.time) ∧
      (∀ s ∈ o.segments, ∀ τ ∈ Set.Icc 0 s.time, magnitude s (List.range s.polys.length) k τ ^ 2 ≤ e.value ^ 2 + M * ε ^ 2) := by
  obtain ⟨cs, h1, h2, h3⟩ := magnitudeCandidates_near h rf ε M k hk o.segments hs hrf 0
  have hlast : o.segments[o.segments.length - 1]? = some (o.segments.getLast hne) := by
    rw [← List.getLast?_eq_getElem?, List.getLast?_eq_some_getLast hne]
  set s := o.segments.getLast hne with hsdef
  obtain ⟨hR, hkN, hT, hD⟩ := hs s (List.getLast_mem hne)
  have hall : ∀ c ∈ cs ++ [⟨s.time, magnitude s (List.range s.polys.length) k s.time, o.nSegments - 1⟩],
      ∃ s, o.segments[c.segmentIdx]? = some s ∧ c.time ∈ Set.Icc 0 s.time ∧
        c.value = magnitude s (List.range s.polys.length) k c.time := by
    intro c hc
    rw [List.mem_append, List.mem_singleton] at hc
    rcases hc with hc | hc
    · obtain ⟨j, s', hj, g1, g2⟩ := h2 c hc
      exact ⟨s', by rw [g1, Nat.zero_add]; exact hj, g2⟩
    · rw [hc]
      exact ⟨s, by simp only; rw [hn]; exact hlast, Set.right_mem_Icc.mpr hT, rfl⟩
  have hpos : ∀ c ∈ cs ++ [⟨s.time, magnitude s (List.range s.polys.length) k s.time, o.nSegments - 1⟩], 0 ≤ c.value := by
    intro c hc
    obtain ⟨_, _, _, e⟩ := hall c hc
    rw [e]; exact Real.sqrt_nonneg _
  obtain ⟨f1, f2, f3⟩ := foldMax_spec (cs ++ [⟨s.time, magnitude s (List.range s.polys.length) k s.time, o.nSegments - 1⟩]) ⟨0, 0, 0⟩
  generalize hr : (cs ++ [(⟨s.time, magnitude s (List.range s.polys.length) k s.time, o.nSegments - 1⟩ : Extremum ℝ)]).foldl
    (fun (e c : Extremum ℝ) => if e.value < c.value then c else e) ⟨0, 0, 0⟩ = r at f1 f2 f3
  have hlow : ∀ s' ∈ o.segments, ∀ τ ∈ Set.Icc 0 s'.time,
      magnitude s' (List.range s'.polys.length) k τ ^ 2 ≤ r.value ^ 2 + M * ε ^ 2 := by
    intro s' hs' τ hτ
    obtain ⟨j, hj⟩ := List.mem_iff_getElem?.mp hs'
    obtain ⟨c, hc, hle⟩ := h3 j s' hj τ hτ
    have hc' := List.mem_append_left [(⟨s.time, magnitude s (List.range s.polys.length) k s.time, o.nSegments - 1⟩ : Extremum ℝ)] hc
    have := pow_le_pow_left₀ (hpos c hc') (f3 c hc') 2
    linarith
  refine ⟨r, cs ++ [⟨s.time, magnitude s (List.range s.polys.length) k s.time, o.nSegments - 1⟩], ?_, ?_, hlow⟩
  · unfold computeMaximumOfMagnitude
    rw [h1]
    simp only [bind, Except.bind]
    rw [List.getLast?_eq_some_getLast hne, ← hsdef]
    simp only
    rw [candidateAt_eq s hR]
    simp only [pure, Except.pure]
    rw [hr]
  · rcases f1 with h0 | hm
    · -- nothing exceeded 0, so the last candidate has magnitude 0 and so has the start of the first segment
      obtain ⟨s0, hs0⟩ : ∃ s0, o.segments[0]? = some s0 := ⟨_, List.getElem?_eq_getElem (List.length_pos_iff.mpr hne)⟩
      obtain ⟨hR0, hk0, hT0, hD0⟩ := hs s0 (List.mem_of_getElem? hs0)
      obtain ⟨c, hc, ec⟩ : ∃ c ∈ cs, c = ⟨0, magnitude s0 (List.range s0.polys.length) k 0, 0⟩ := by
        obtain ⟨l, hl⟩ : ∃ l, o.segments = s0 :: l := by
          cases hh : o.segments with
          | nil => exact absurd hh hne
          | cons a l => rw [hh] at hs0; simp at hs0; subst hs0; exact ⟨l, rfl⟩
        have hne' : List.range s0.polys.length ≠ [] := by
          intro e
          have := congrArg List.length e
          simp only [List.length_range, List.length_nil] at this
          omega
        obtain ⟨ts, g1, g2, _⟩ := candidateTimes_near rf ε s0 k 0 s0.time _ (hrf s0 (List.mem_of_getElem? hs0)).1 hR0 hk0 hne'
          (fun d hd => List.mem_range.mp hd) hT0
        rw [hl, magnitudeCandidates] at h1
        unfold computeSegmentMaximumMagnitudeCandidates at h1
        have e : s0.candidateTimes rf k 0 s0.time ((List.range s0.D).map Int.ofNat) = .ok (some ts) := g1
        rw [if_neg (not_not.mpr hk), e] at h1
        simp only [bind, Except.bind, pure, Except.pure, Option.getD_some] at h1
        rw [mapM_ok _ (fun t => (⟨t, magnitude s0 (List.range s0.polys.length) k t, 0⟩ : Extremum ℝ)) _ fun t _ => candidateAt_eq s0 hR0 k 0 t] at h1
        simp only at h1
        split at h1
        · exact absurd h1 nofun
        · rw [← Except.ok.inj h1]
          exact ⟨_, List.mem_append_left _ (List.mem_map.mpr ⟨0, g2, rfl⟩), rfl⟩
      have hle2 := f3 c (List.mem_append_left _ hc)
      rw [h0, ec] at hle2
      rw [h0]
      exact ⟨s0, hs0, Set.left_mem_Icc.mpr hT0, le_antisymm (Real.sqrt_nonneg _) hle2⟩
    · exact hall _ hm

/-- C75: after solving, or after setting free derivatives, the reported maximum is the magnitude at the reported time of the reported segment, and its square
misses the largest one by at most `M ε²` when the root finder is accurate up to `ε` on the segments in question. -/
theorem C75_accuracy {h dim : ℕ} {solve : LinSolver ℝ} (rf : Poly.RootFinder ℝ) (ε M : ℝ) (q : Problem ℝ)
    (o o' : LinOpt h ℝ) (hh : LinHistory h dim solve (some q) o) (hdim : 0 < dim) (hq : q.times ≠ [])
    (hu : (∃ values, o.setFreeConstraints values = .ok o') ∨ o.solveLinear solve = .ok o') (tr : Trajectory ℝ)
    (htr : o'.getTrajectory = .ok tr) (k : ℕ) (hk : k + 1 < h + h)
    (hrf : ∀ s ∈ tr.segments, FindsExtrema rf ε s (List.range dim) k ∧ CurvatureBound s (List.range dim) k 0 s.time M) :
    ∃ e cs, o'.computeMaximumOfMagnitude rf k = .ok (e, cs) ∧
      (∃ s, tr.segments[e.segmentIdx]? = some s ∧ e.time ∈ Set.Icc 0 s.time ∧ e.value = magnitude s (List.range dim) k e.time) ∧
      ∀ s ∈ tr.segments, ∀ τ ∈ Set.Icc 0 s.time, magnitude s (List.range dim) k τ ^ 2 ≤ e.value ^ 2 + M * ε ^ 2 := by
  have hi := (inv_history dim solve _ o hh).2 q rfl
  have hi' : Inv dim q o' := by
    rcases hu with ⟨v, hu⟩ | hu
    · exact inv_setFree dim q o o' v hi hu
    · exact inv_solve dim q solve o o' hi hu
  obtain ⟨free, hi1, _, hl, hlen, hs⟩ := solved_spec dim q solve o o' hi hu
  rw [setSegments_segments _ _ htr] at hrf ⊢
  have hpos : 0 < q.times.length := List.length_pos_iff.mpr hq
  have hN : h + h ≤ 22 := (hi.segment 0 _ (List.getElem?_eq_getElem hpos)).1
  have hshape : ∀ s ∈ o'.segments, Regular s ∧ k < s.N ∧ 0 ≤ s.time ∧ s.polys.length = dim := by
    intro s hm
    obtain ⟨j, hj⟩ := List.mem_iff_getElem?.mp hm
    have hsh := hi'.shape s hm
    have ht := (hs j s hj).2.1 hdim
    obtain ⟨_, hge, _⟩ := hi.segment j _ ht
    exact ⟨⟨fun p hp => by rw [hsh.2.2 p hp, hsh.1], by rw [hsh.1]; exact hN⟩, by rw [hsh.1]; omega,
      (lt_of_lt_of_le dblEps_pos hge).le, hsh.2.1⟩
  have hne : o'.segments ≠ [] := by
    intro e
    rw [e] at hl
    simp at hl
    omega
  obtain ⟨e, cs, g1, ⟨s, g2, g3, g4⟩, g5⟩ := maximum_near rf ε M o' k hk hne
    (hi'.nSegments.trans hl.symm) (fun s hm => by
      obtain ⟨a, b, c, d⟩ := hshape s hm
      exact ⟨a, b, c, by omega⟩) (fun s hm => by rw [(hshape s hm).2.2.2]; exact hrf s hm)
  refine ⟨e, cs, g1, ⟨s, g2, g3, ?_⟩, ?_⟩
  · rw [← (hshape s (List.mem_of_getElem? g2)).2.2.2]; exact g4
  · intro s' hm τ hτ
    rw [← (hshape s' hm).2.2.2]
    exact g5 s' hm τ hτ

/-- With `ε = 0` the statement is exact, for a root finder that is only known to work on the polynomials of this trajectory. -/
theorem C07_exact_where_needed (rf : Poly.RootFinder ℝ) (tr : Trajectory ℝ) (k : ℕ) (dims : List ℕ) (hne : dims ≠ []) (hseg : tr.segments ≠ [])
    (hs : ∀ s ∈ tr.segments, Regular s ∧ k < s.N ∧ 0 ≤ s.time ∧ ∀ d ∈ dims, d < s.polys.length)
    (hrf : ∀ s ∈ tr.segments, FindsExtrema rf 0 s dims k) (mn mx : Extremum ℝ) :
    ∃ mn' mx', tr.computeMinMaxMagnitude rf k (dims.map Int.ofNat) mn mx = .ok (true, mn', mx') ∧
      (∃ s, tr.segments[mx'.segmentIdx]? = some s ∧ mx'.time ∈ Set.Icc 0 s.time ∧ mx'.value = magnitude s dims k mx'.time) ∧
      ∀ (j : ℕ) (s : Segment ℝ), tr.segments[j]? = some s → ∀ τ ∈ Set.Icc 0 s.time, magnitude s dims k τ ≤ mx'.value := by
  -- a bound for the second derivatives exists because the intervals are compact
  have hM : ∀ segs : List (Segment ℝ), ∃ M, ∀ s ∈ segs, CurvatureBound s dims k 0 s.time M := by
    intro segs
    induction segs with
    | nil => exact ⟨0, by simp⟩
    | cons s ss ih =>
      obtain ⟨M, hM⟩ := ih
      obtain ⟨C, hC⟩ := (isCompact_Icc (a := (0 : ℝ)) (b := s.time)).exists_bound_of_continuousOn
        (f := fun τ => (Polynomial.derivative (Polynomial.derivative (sqPoly s dims k))).eval τ) (Polynomial.continuous _).continuousOn
      refine ⟨max M C, fun s' hs' => ?_⟩
      rcases List.mem_cons.mp hs' with rfl | h
      · rw [curvature_iff]; exact fun τ hτ => (hC τ hτ).trans (le_max_right _ _)
      · exact fun τ hτ => (hM s' h τ hτ).trans (le_max_left _ _)
  obtain ⟨M, hM⟩ := hM tr.segments
  obtain ⟨mn', mx', h1, h2, h3, _⟩ := C07_accuracy rf 0 M tr k dims hne hseg hs (fun s hm => ⟨hrf s hm, hM s hm⟩) mn mx
  refine ⟨mn', mx', h1, h2, fun j s hj τ hτ => ?_⟩
  obtain ⟨s', _, _, h4⟩ := h2
  have h0 : 0 ≤ mx'.value := by rw [h4]; exact Real.sqrt_nonneg _
  have := h3 j s hj τ hτ
  rw [zero_pow two_ne_zero, mul_zero, add_zero] at this
  exact abs_le_of_sq_le_sq' this h0 |>.2

-- the speed of `(t - t², t²)`: its square is `1 - 4 t + 8 t²`, with second derivative 16, and a root finder that is off by 1/100 meets the contract
example : CurvatureBound sampleSeg [0, 1] 1 0 1 16 := by
  intro τ _
  have e : (fun t => magnitude sampleSeg [0, 1] 1 t ^ 2) = fun t : ℝ => 1 - 4 * t + 8 * t ^ 2 := by
    funext t
    rw [magnitude_sq]
    simp [sqMag, sampleSeg, derivAt, ofCoeffs, Finset.sum_range_succ]
    ring
  have e1 : (deriv fun t : ℝ => 1 - 4 * t + 8 * t ^ 2) = fun t => -4 + 16 * t := by
    funext t
    have h := ((((hasDerivAt_id t).const_mul (4 : ℝ)).const_sub 1).add (((hasDerivAt_id t).pow 2).const_mul (8 : ℝ))).deriv
    simp only [id] at h
    refine Eq.trans ?_ (h.trans ?_)
    · rfl
    · push_cast; ring
  have e2 : deriv (fun t : ℝ => -4 + 16 * t) τ = 16 := by
    have h := (((hasDerivAt_id τ).const_mul (16 : ℝ)).const_add (-4)).deriv
    simp only [id] at h
    exact h.trans (by ring)
  rw [e, e1, e2]
  norm_num

example : ∃ rf : Poly.RootFinder ℝ, ∀ s dims k, FindsExtrema rf (1 / 100) s dims k := by
  refine ⟨fun r => (ofCoeffs r).roots.toList.map (fun x => (x + 1 / 100, 0)), fun s dims k r _ _ hne x hx => ⟨(x + 1 / 100, 0), ?_, ?_, by simp⟩⟩
  · simp only [List.mem_map, Multiset.mem_toList]
    exact ⟨x, (Polynomial.mem_roots hne).mpr hx, rfl⟩
  · rw [add_sub_cancel_left, abs_of_pos (by norm_num)]

end Verif.Properties
