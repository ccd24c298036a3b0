import Verif.Properties.Magnitude

/-!
# Property C12: scaling a trajectory to meet velocity and acceleration limits
-/

namespace Verif.Properties

open Spec

/-- `tr'` flies the path of `tr`, stretched in time by the factor `c`. -/
def Stretched (tr tr' : Trajectory ℝ) (c : ℝ) : Prop :=
  tr'.segments.map (·.time) = tr.segments.map (fun s => s.time * c) ∧ tr'.maxTime = c * tr.maxTime ∧
  ∀ (t : ℝ) (k : ℕ) (v : List ℝ), tr.evaluate t k = .ok v → tr'.evaluate (c * t) k = .ok (v.map (· / c ^ k))

theorem stretched_refl (tr : Trajectory ℝ) : Stretched tr tr 1 := by
  refine ⟨by simp, by simp, ?_⟩
  intro t k v h
  simpa using h

theorem scale_short {tr : Trajectory ℝ} (hR : ∀ s ∈ tr.segments, ∀ p ∈ s.polys, p.length ≤ 22) (c : ℝ) :
    ∀ s ∈ (tr.scaleAll c).segments, ∀ p ∈ s.polys, p.length ≤ 22 := by
  intro s hs p hp
  simp only [Trajectory.scaleAll, List.mem_map] at hs
  obtain ⟨x, hx, rfl⟩ := hs
  simp only [Segment.scale, List.mem_map] at hp
  obtain ⟨q, hq, rfl⟩ := hp
  rw [length_scaleInTime]
  exact hR x hx q hq

theorem stretched_trans (tr tr' : Trajectory ℝ) (c d : ℝ) (hc : Consistent tr) (hpos : 0 < c)
    (hR : ∀ s ∈ tr.segments, ∀ p ∈ s.polys, p.length ≤ 22) (h : Stretched (tr.scaleAll c) tr' d) : Stretched tr tr' (c * d) := by
  obtain ⟨h1, h2, h3⟩ := h
  refine ⟨?_, ?_, ?_⟩
  · rw [h1]; simp [Trajectory.scaleAll, Segment.scale, Function.comp_def, mul_assoc]
  · rw [h2, scaleAll_maxTime tr c hc]; ring
  · intro t k v hv
    have := h3 _ k _ (evaluate_scaleAll tr c t k hpos v hR hv)
    rw [show c * d * t = d * (c * t) by ring, this]
    simp [Function.comp_def, div_div, mul_pow]

theorem meetLoop_stretched (rf : Poly.RootFinder ℝ) (vMax aMax : ℝ) (n : ℕ) (tr : Trajectory ℝ) (hc : Consistent tr)
    (hR : ∀ s ∈ tr.segments, ∀ p ∈ s.polys, p.length ≤ 22) (b : Bool) (tr' : Trajectory ℝ)
    (h : Trajectory.meetLoop rf vMax aMax n tr = .ok (b, tr')) : ∃ c, 1 ≤ c ∧ Stretched tr tr' c := by
  induction n generalizing tr with
  | zero => cases h; exact ⟨1, le_refl _, stretched_refl _⟩
  | succ n ih =>
    unfold Trajectory.meetLoop at h
    cases hm : tr.computeMaxVelocityAndAcceleration rf with
    | error e => rw [hm] at h; cases h
    | ok va =>
      rw [hm] at h
      simp only [bind, Except.bind] at h
      split at h
      · cases h; exact ⟨1, le_refl _, stretched_refl _⟩
      · set f := max 1 (max (va.2.1 / vMax) (Real.sqrt (va.2.2 / aMax))) with hf
        have hf1 : 1 ≤ f := le_max_left _ _
        obtain ⟨d, hd, hs⟩ := ih _ (consistent_scaleAll tr f hc) (scale_short hR f) h
        exact ⟨f * d, one_le_mul_of_one_le_of_one_le hf1 hd, stretched_trans tr tr' f d hc (by linarith) hR hs⟩

/-- C12: whatever the root finder does and whatever the flag, when `scaleSegmentTimesToMeetConstraints` returns, the trajectory has
been stretched by one common factor that is at least 1, and keeps its path. -/
theorem C12_only_stretches (rf : Poly.RootFinder ℝ) (vMax aMax : ℝ) (tr : Trajectory ℝ) (hc : Consistent tr)
    (hR : ∀ s ∈ tr.segments, Regular s) (b : Bool) (tr' : Trajectory ℝ)
    (h : tr.scaleSegmentTimesToMeetConstraints rf vMax aMax = .ok (b, tr')) : ∃ c, 1 ≤ c ∧ Stretched tr tr' c := by
  unfold Trajectory.scaleSegmentTimesToMeetConstraints at h
  split at h
  · cases h
  · exact meetLoop_stretched rf vMax aMax 20 tr hc (fun s hs => (hR s hs).le) b tr' h

theorem magnitude_scale (s : Segment ℝ) (dims : List ℕ) (k : ℕ) (c τ : ℝ) (hc : 0 < c) :
    magnitude (s.scale c (1 / c)) dims k (c * τ) = magnitude s dims k τ / c ^ k := by
  have hd : ∀ d, derivAt ((s.scale c (1 / c)).polys.getD d []) k (c * τ) = derivAt (s.polys.getD d []) k τ / c ^ k := by
    intro d
    simp only [Segment.scale, List.getD_eq_getElem?_getD, List.getElem?_map]
    cases s.polys[d]? with
    | none =>
      have : ∀ (k : ℕ) (x : ℝ), derivAt ([] : List ℝ) k x = 0 := fun k x => derivAt_of_length_le [] k x (by simp)
      simp [this]
    | some p =>
      simp only [Option.map_some, Option.getD_some]
      rw [derivAt_scaleInTime, show 1 / c * (c * τ) = τ by field_simp]
      rw [one_div, inv_pow]
      field_simp
  simp only [magnitude]
  have : ∀ d ∈ dims, derivAt ((s.scale c (1 / c)).polys.getD d []) k (c * τ) ^ 2 =
      derivAt (s.polys.getD d []) k τ ^ 2 * (1 / c ^ k) ^ 2 := by
    intro d _; rw [hd]; ring
  rw [List.map_congr_left this, List.sum_map_mul_right, Real.sqrt_mul' _ (by positivity), Real.sqrt_sq (by positivity)]
  ring

theorem isTrajMax_scale (tr : Trajectory ℝ) (dims : List ℕ) (k : ℕ) (v c : ℝ) (hc : 0 < c) (h : IsTrajMax tr dims k v) :
    IsTrajMax (tr.scaleAll c) dims k (v / c ^ k) := by
  obtain ⟨⟨j, s, τ, h1, h2, h3⟩, h4⟩ := h
  refine ⟨⟨j, s.scale c (1 / c), c * τ, by simp [Trajectory.scaleAll, h1], ?_, ?_⟩, ?_⟩
  · simp only [Segment.scale]
    exact ⟨mul_nonneg hc.le h2.1, by rw [mul_comm]; exact mul_le_mul_of_nonneg_right h2.2 hc.le⟩
  · rw [magnitude_scale _ _ _ _ _ hc, h3]
  · intro j' s' hj τ' hτ
    simp only [Trajectory.scaleAll, List.getElem?_map, Option.map_eq_some_iff] at hj
    obtain ⟨x, hx, rfl⟩ := hj
    have e : τ' = c * (τ' / c) := by field_simp
    rw [e, magnitude_scale _ _ _ _ _ hc]
    apply div_le_div_of_nonneg_right _ (by positivity)
    apply h4 j' x hx
    simp only [Segment.scale] at hτ
    exact ⟨div_nonneg hτ.1 hc.le, by rw [div_le_iff₀ hc]; exact hτ.2⟩

theorem isTrajMax_unique (tr : Trajectory ℝ) (dims : List ℕ) (k : ℕ) (v w : ℝ) (hv : IsTrajMax tr dims k v)
    (hw : IsTrajMax tr dims k w) : v = w := by
  obtain ⟨⟨j, s, τ, h1, h2, h3⟩, h4⟩ := hv
  obtain ⟨⟨j', s', τ', h1', h2', h3'⟩, h4'⟩ := hw
  exact le_antisymm (h3 ▸ h4' j s h1 τ h2) (h3' ▸ h4 j' s' h1' τ' h2')

theorem isTrajMax_nonneg (tr : Trajectory ℝ) (dims : List ℕ) (k : ℕ) (v : ℝ) (hv : IsTrajMax tr dims k v) : 0 ≤ v := by
  obtain ⟨⟨j, s, τ, h1, h2, h3⟩, _⟩ := hv
  rw [h3]; exact Real.sqrt_nonneg _

/-- C12: with a complete root finder one pass suffices. With `v` and `a` the true maximum speed and acceleration, the trajectory is returned as it is if both are
within 0.1 % of the limits, and otherwise all times are multiplied once, by the largest of 1, `v / vMax` and the square root of `a / aMax`; the call returns true. -/
theorem C12_one_pass (rf : Poly.RootFinder ℝ) (hrf : ∀ c, FindsRealRoots c (rf c)) (vMax aMax : ℝ) (hv : 0 < vMax)
    (ha : 0 < aMax) (tr : Trajectory ℝ) (hc : Consistent tr) (hseg : tr.segments ≠ []) (hD : 0 < tr.D) (hN : 2 < tr.N)
    (hs : ∀ s ∈ tr.segments, Regular s ∧ 0 ≤ s.time) :
    ∃ v a, IsTrajMax tr (List.range tr.D) 1 v ∧ IsTrajMax tr (List.range tr.D) 2 a ∧
      (v ≤ vMax * (1 + 1 / 1000) → a ≤ aMax * (1 + 1 / 1000) → tr.scaleSegmentTimesToMeetConstraints rf vMax aMax = .ok (true, tr)) ∧
      (¬ (v ≤ vMax * (1 + 1 / 1000) ∧ a ≤ aMax * (1 + 1 / 1000)) → ∃ tr',
        tr.scaleSegmentTimes (max 1 (max (v / vMax) (Real.sqrt (a / aMax)))) = (true, tr') ∧
        tr.scaleSegmentTimesToMeetConstraints rf vMax aMax = .ok (true, tr') ∧
        ∃ v' a', IsTrajMax tr' (List.range tr.D) 1 v' ∧ IsTrajMax tr' (List.range tr.D) 2 a' ∧ v' ≤ vMax ∧ a' ≤ aMax) := by
  obtain ⟨v, a, h1, h2, h3⟩ := C07_computeMaxVelocityAndAcceleration rf hrf tr hc hseg hD hN hs
  have hiff : (v / vMax ≤ 1 + 1 / 1000 ∧ a / aMax ≤ 1 + 1 / 1000) ↔ (v ≤ vMax * (1 + 1 / 1000) ∧ a ≤ aMax * (1 + 1 / 1000)) := by
    rw [div_le_iff₀ hv, div_le_iff₀ ha, mul_comm vMax, mul_comm aMax]
  refine ⟨v, a, h2, h3, fun hv1 ha1 => ?_, fun hnot => ?_⟩
  · unfold Trajectory.scaleSegmentTimesToMeetConstraints
    rw [if_neg (by push Not; exact ⟨hv.ne', ha.ne'⟩)]
    unfold Trajectory.meetLoop
    simp only [h1, bind, Except.bind]
    rw [if_pos (hiff.mpr ⟨hv1, ha1⟩)]
  · set f := max 1 (max (v / vMax) (Real.sqrt (a / aMax))) with hf
    have hf1 : 1 ≤ f := le_max_left _ _
    have hf0 : 0 < f := by linarith
    refine ⟨tr.scaleAll f, ?_, ?_⟩
    · unfold Trajectory.scaleSegmentTimes
      rw [if_neg (by push Not; norm_num; linarith)]
    have hs' : ∀ s ∈ (tr.scaleAll f).segments, Regular s ∧ 0 ≤ s.time := by
      intro s hm
      simp only [Trajectory.scaleAll, List.mem_map] at hm
      obtain ⟨x, hx, rfl⟩ := hm
      obtain ⟨hr, ht⟩ := hs x hx
      refine ⟨⟨?_, hr.2⟩, mul_nonneg ht hf0.le⟩
      intro p hp
      simp only [Segment.scale, List.mem_map] at hp
      obtain ⟨q, hq, rfl⟩ := hp
      rw [length_scaleInTime]; exact hr.1 q hq
    obtain ⟨v', a', g1, g2, g3⟩ := C07_computeMaxVelocityAndAcceleration rf hrf (tr.scaleAll f) (consistent_scaleAll tr f hc)
      (by simpa [Trajectory.scaleAll] using hseg) hD hN hs'
    have hD' : (tr.scaleAll f).D = tr.D := rfl
    have ev := isTrajMax_unique _ _ _ _ _ g2 (isTrajMax_scale tr _ 1 v f hf0 h2)
    have ea := isTrajMax_unique _ _ _ _ _ g3 (isTrajMax_scale tr _ 2 a f hf0 h3)
    have hv' : v' / vMax ≤ 1 := by
      rw [ev, pow_one, div_div, div_le_one (by positivity)]
      have : v / vMax ≤ f := (le_max_left _ _).trans (le_max_right _ _)
      rwa [div_le_iff₀ hv] at this
    have ha' : a' / aMax ≤ 1 := by
      have h0 : 0 ≤ a / aMax := div_nonneg (isTrajMax_nonneg _ _ _ _ h3) ha.le
      have : Real.sqrt (a / aMax) ≤ f := (le_max_right _ _).trans (le_max_right _ _)
      have h4 : a / aMax ≤ f ^ 2 := (Real.sqrt_le_left hf0.le).mp this
      rw [ea, div_div, div_le_one (by positivity)]
      rwa [div_le_iff₀ ha] at h4
    refine ⟨?_, v', a', g2, g3, (div_le_one hv).mp hv', (div_le_one ha).mp ha'⟩
    unfold Trajectory.scaleSegmentTimesToMeetConstraints
    rw [if_neg (by push Not; exact ⟨hv.ne', ha.ne'⟩)]
    unfold Trajectory.meetLoop
    simp only [h1, bind, Except.bind]
    rw [if_neg (hiff.not.mpr hnot), ← hf]
    unfold Trajectory.meetLoop
    simp only [g1, bind, Except.bind]
    rw [if_pos ⟨by linarith, by linarith⟩]

/-- C12: with a complete root finder, positive limits and at least 3 coefficients, the function returns true, and afterwards the
true maximum speed and acceleration over the whole trajectory are within 0.1 % of the limits. -/
theorem C12_meets_constraints (rf : Poly.RootFinder ℝ) (hrf : ∀ c, FindsRealRoots c (rf c)) (vMax aMax : ℝ) (hv : 0 < vMax)
    (ha : 0 < aMax) (tr : Trajectory ℝ) (hc : Consistent tr) (hseg : tr.segments ≠ []) (hD : 0 < tr.D) (hN : 2 < tr.N)
    (hs : ∀ s ∈ tr.segments, Regular s ∧ 0 ≤ s.time) :
    ∃ tr', tr.scaleSegmentTimesToMeetConstraints rf vMax aMax = .ok (true, tr') ∧
      (∀ (j : ℕ) (s : Segment ℝ), tr'.segments[j]? = some s → ∀ τ ∈ Set.Icc 0 s.time,
        magnitude s (List.range tr.D) 1 τ ≤ vMax * (1 + 1 / 1000) ∧
        magnitude s (List.range tr.D) 2 τ ≤ aMax * (1 + 1 / 1000)) := by
  obtain ⟨v, a, h2, h3, hin, hout⟩ := C12_one_pass rf hrf vMax aMax hv ha tr hc hseg hD hN hs
  by_cases hok : v ≤ vMax * (1 + 1 / 1000) ∧ a ≤ aMax * (1 + 1 / 1000)
  · exact ⟨tr, hin hok.1 hok.2, fun j s hj τ hτ => ⟨(h2.2 j s hj τ hτ).trans hok.1, (h3.2 j s hj τ hτ).trans hok.2⟩⟩
  · obtain ⟨tr', _, h4, v', a', g2, g3, hv', ha'⟩ := hout hok
    refine ⟨tr', h4, fun j s hj τ hτ => ⟨(g2.2 j s hj τ hτ).trans ?_, (g3.2 j s hj τ hτ).trans ?_⟩⟩ <;> nlinarith

/-- C12: a trajectory already within the limits is left unchanged. -/
theorem C12_no_change_when_feasible (rf : Poly.RootFinder ℝ) (hrf : ∀ c, FindsRealRoots c (rf c)) (vMax aMax : ℝ) (hv : 0 < vMax)
    (ha : 0 < aMax) (tr : Trajectory ℝ) (hc : Consistent tr) (hseg : tr.segments ≠ []) (hD : 0 < tr.D) (hN : 2 < tr.N)
    (hs : ∀ s ∈ tr.segments, Regular s ∧ 0 ≤ s.time)
    (hfeas : ∀ (j : ℕ) (s : Segment ℝ), tr.segments[j]? = some s → ∀ τ ∈ Set.Icc 0 s.time,
        magnitude s (List.range tr.D) 1 τ ≤ vMax ∧ magnitude s (List.range tr.D) 2 τ ≤ aMax) :
    tr.scaleSegmentTimesToMeetConstraints rf vMax aMax = .ok (true, tr) := by
  obtain ⟨v, a, h1, ⟨⟨j, s, τ, e1, e2, e3⟩, _⟩, ⟨⟨j', s', τ', e1', e2', e3'⟩, _⟩⟩ :=
    C07_computeMaxVelocityAndAcceleration rf hrf tr hc hseg hD hN hs
  have b1 := (hfeas j s e1 τ e2).1
  have b2 := (hfeas j' s' e1' τ' e2').2
  rw [← e3] at b1; rw [← e3'] at b2
  unfold Trajectory.scaleSegmentTimesToMeetConstraints
  rw [if_neg (by push Not; exact ⟨hv.ne', ha.ne'⟩)]
  unfold Trajectory.meetLoop
  simp only [h1, bind, Except.bind]
  rw [if_pos]
  have c1 := (div_le_one hv).mpr b1
  have c2 := (div_le_one ha).mpr b2
  constructor <;> linarith

/-- C12, the excluded case: a zero limit gives a division by zero. -/
theorem C12_zero_limit (rf : Poly.RootFinder ℝ) (vMax aMax : ℝ) (h : vMax = 0 ∨ aMax = 0) (tr : Trajectory ℝ) :
    tr.scaleSegmentTimesToMeetConstraints rf vMax aMax = .error .nonfinite := by
  unfold Trajectory.scaleSegmentTimesToMeetConstraints; rw [if_pos h]

-- `C07`'s example trajectory meets the hypotheses of the C12 theorems with the limits 1/10, below the speed 1 it has at time 0
example : let tr : Trajectory ℝ := ⟨2, 3, 1, [sampleSeg]⟩
    Consistent tr ∧ tr.segments ≠ [] ∧ 0 < tr.D ∧ 2 < tr.N ∧ (∀ s ∈ tr.segments, Regular s ∧ 0 ≤ s.time) ∧
    magnitude sampleSeg (List.range tr.D) 1 0 = 1 := by
  refine ⟨⟨by simp [duration, sampleSeg], by simp [sampleSeg]⟩, by simp, by simp, by simp, by simp [sampleSeg, Regular], ?_⟩
  simp [magnitude, sampleSeg, derivAt, ofCoeffs, Finset.sum_range_succ, List.range_succ]

end Verif.Properties
