import Mathlib.Tactic.NormNum
import Verif.Lemmas.TrajectoryOps

set_option linter.unusedSectionVars false

/-!
# Properties C08–C11: evaluating, building and scaling trajectories
-/

namespace Verif.Properties

open Spec

variable {K : Type*} [Field K] [LinearOrder K] [IsStrictOrderedRing K]

/-- A two-segment, two-dimensional sample trajectory used in the examples: (t, 1) for 2 s, then (2 + t², 1 - t) for 1 s. -/
def sampleTraj : Trajectory ℚ :=
  ⟨2, 3, 3, [⟨3, 2, [[0, 1, 0], [1, 0, 0]]⟩, ⟨3, 1, [[2, 0, 1], [1, -1, 0]]⟩]⟩

/-! ## C08 -/

/-- C08: which segment answers, and at which local time, for every `t`: the segment whose half-open interval contains `t`; the last
one at the end; zeros beyond the end; the first segment extrapolated before 0; undefined behaviour on an empty trajectory. -/
theorem C08_evaluate (tr : Trajectory K) (t : K) (k : ℕ)
    (hT : ∀ s ∈ tr.segments, 0 ≤ s.time) (hR : ∀ s ∈ tr.segments, Regular s) :
    (∀ j s, tr.segments[j]? = some s → startOf tr.segments j ≤ t → t < startOf tr.segments j + s.time →
      tr.evaluate t k = .ok (segDeriv s k (t - startOf tr.segments j))) ∧
    (∀ s, tr.segments.getLast? = some s → t = duration tr.segments → tr.evaluate t k = .ok (segDeriv s k s.time)) ∧
    (duration tr.segments < t → tr.evaluate t k = .ok (List.replicate tr.D 0)) ∧
    (∀ s, tr.segments.head? = some s → t < 0 → tr.evaluate t k = .ok (segDeriv s k t)) ∧
    (tr.segments = [] → t ≤ 0 → tr.evaluate t k = .error .ub) := by
  refine ⟨fun j s hj h1 h2 => ?_, fun s hs ht => ?_, fun h => evaluate_beyond tr t k hT h, fun s hs ht => ?_, fun h ht => ?_⟩
  · exact evaluate_inside tr t k j s hT (hR s (List.mem_of_getElem? hj)).le hj h1 h2
  · obtain ⟨pre, hpre⟩ := List.getLast?_eq_some_iff.mp hs
    rw [ht]
    exact evaluate_end tr k pre s hpre hT (hR s (by rw [hpre]; simp)).le
  · obtain ⟨post, hpost⟩ : ∃ post, tr.segments = s :: post := by
      cases hl : tr.segments with
      | nil => rw [hl] at hs; cases hs
      | cons x xs => rw [hl] at hs; cases hs; exact ⟨xs, rfl⟩
    have hm : s ∈ tr.segments := by rw [hpost]; simp
    exact evaluate_before tr t k s post hpost (hT s hm) (hR s hm).le ht
  · unfold Trajectory.evaluate
    rw [h]
    simp [Trajectory.findSegment, not_lt.mpr ht, at?, bind, Except.bind]

/-- C08: the first clause applies to every time of the trajectory before its end. -/
theorem C08_every_time_has_a_segment (segs : List (Segment K)) (t : K) (h0 : 0 ≤ t) (h1 : t < duration segs) :
    ∃ (j : ℕ) (s : Segment K), segs[j]? = some s ∧ startOf segs j ≤ t ∧ t < startOf segs j + s.time :=
  exists_segment segs t h0 h1

example : (∀ s ∈ sampleTraj.segments, 0 ≤ s.time) ∧ (∀ s ∈ sampleTraj.segments, Regular s) ∧
    sampleTraj.evaluate 2 0 = .ok [2, 1] ∧ sampleTraj.evaluate 3 1 = .ok [2, -1] ∧ sampleTraj.evaluate 4 0 = .ok [0, 0] := by
  refine ⟨by decide +kernel, ?_, by decide +kernel, by decide +kernel, by decide +kernel⟩
  intro s hs
  constructor
  · revert s; decide +kernel
  · revert s; decide +kernel

/-! ## C09 -/

/-- C09: if neighbouring segments agree at their joint in the derivatives `k` and `k+1` (dimension `d`), then at every time strictly
inside the trajectory, joints included, the evaluation of order `k+1` is the time derivative of the evaluation of order `k`. `F i u` is
the vector that evaluation of order `i` at time `u` returns. -/
theorem C09_derivative_of_evaluation (tr : Trajectory ℝ) (k d : ℕ)
    (hT : ∀ s ∈ tr.segments, 0 < s.time) (hR : ∀ s ∈ tr.segments, Regular s)
    (hjoin : ∀ j s s', tr.segments[j]? = some s → tr.segments[j + 1]? = some s' → ∀ i, i = k ∨ i = k + 1 →
      (segDeriv s i s.time).getD d 0 = (segDeriv s' i 0).getD d 0)
    (F : ℕ → ℝ → List ℝ) (hF : ∀ i u, 0 < u → u < duration tr.segments → tr.evaluate u i = .ok (F i u))
    (t : ℝ) (h0 : 0 < t) (h1 : t < duration tr.segments) :
    HasDerivAt (fun u => (F k u).getD d 0) ((F (k + 1) t).getD d 0) t := by
  have hT' : ∀ s ∈ tr.segments, 0 ≤ s.time := fun s hs => (hT s hs).le
  have key : ∀ i u j s, 0 < u → u < duration tr.segments → tr.segments[j]? = some s → startOf tr.segments j ≤ u →
      u < startOf tr.segments j + s.time → (F i u).getD d 0 = (segDeriv s i (u - startOf tr.segments j)).getD d 0 := by
    intro i u j s hu0 hu1 hj ha hb
    have e := hF i u hu0 hu1
    rw [evaluate_inside tr u i j s hT' (hR s (List.mem_of_getElem? hj)).le hj ha hb] at e
    rw [← Except.ok.inj e]
  have hder : ∀ (s : Segment ℝ) (i : ℕ) (a u : ℝ),
      HasDerivAt (fun u => (segDeriv s i (u - a)).getD d 0) ((segDeriv s (i + 1) (u - a)).getD d 0) u := by
    intro s i a u
    simp only [segDeriv, List.getD_eq_getElem?_getD, List.getElem?_map]
    cases s.polys[d]? with
    | none => simpa using hasDerivAt_const u (0 : ℝ)
    | some p => simpa using (hasDerivAt_derivAt p i (u - a)).comp_sub_const u a
  obtain ⟨j, s, hj, ha, hb⟩ := exists_segment tr.segments t h0.le h1
  rw [key (k + 1) t j s h0 h1 hj ha hb]
  have hright : ∀ u, t ≤ u → u < duration tr.segments → u < startOf tr.segments j + s.time →
      (F k u).getD d 0 = (segDeriv s k (u - startOf tr.segments j)).getD d 0 := fun u hu hu1 hu2 =>
    key k u j s (lt_of_lt_of_le h0 hu) hu1 hj (ha.trans hu) hu2
  have hub : Set.Iio (min (duration tr.segments) (startOf tr.segments j + s.time)) ∈ nhds t := Iio_mem_nhds (lt_min h1 hb)
  have hR' : HasDerivWithinAt (fun u => (F k u).getD d 0) ((segDeriv s (k + 1) (t - startOf tr.segments j)).getD d 0)
      (Set.Ici t) t := by
    refine ((hder s k (startOf tr.segments j) t).hasDerivWithinAt).congr_of_eventuallyEq ?_ (hright t le_rfl h1 hb)
    filter_upwards [self_mem_nhdsWithin, mem_nhdsWithin_of_mem_nhds hub] with u hu1 hu2
    exact hright u hu1 (lt_of_lt_of_le hu2 (min_le_left _ _)) (lt_of_lt_of_le hu2 (min_le_right _ _))
  have hL' : HasDerivWithinAt (fun u => (F k u).getD d 0) ((segDeriv s (k + 1) (t - startOf tr.segments j)).getD d 0)
      (Set.Iic t) t := by
    rcases ha.lt_or_eq with hlt | heq
    · refine ((hder s k (startOf tr.segments j) t).hasDerivWithinAt).congr_of_eventuallyEq ?_ (hright t le_rfl h1 hb)
      have hlb : Set.Ioi (max 0 (startOf tr.segments j)) ∈ nhds t := Ioi_mem_nhds (max_lt h0 hlt)
      filter_upwards [self_mem_nhdsWithin, mem_nhdsWithin_of_mem_nhds hlb] with u hu1 hu2
      have hu1 : u ≤ t := hu1
      have hu2 : max 0 (startOf tr.segments j) < u := hu2
      exact key k u j s (lt_of_le_of_lt (le_max_left _ _) hu2) (lt_of_le_of_lt hu1 h1) hj
        (lt_of_le_of_lt (le_max_right _ _) hu2).le (lt_of_le_of_lt hu1 hb)
    · -- `t` is the joint between the segments `j' = j - 1` and `j`
      obtain ⟨j', rfl⟩ : ∃ j', j = j' + 1 := by
        cases j with
        | zero => rw [startOf_zero] at heq; exact absurd heq h0.ne
        | succ j' => exact ⟨j', rfl⟩
      have hjl := (List.getElem?_eq_some_iff.mp hj).1
      obtain ⟨s₀, hs₀⟩ : ∃ s₀, tr.segments[j']? = some s₀ := ⟨_, List.getElem?_eq_getElem (by omega)⟩
      have hst := startOf_succ tr.segments j' s₀ hs₀
      have hpos := hT s₀ (List.mem_of_getElem? hs₀)
      have hj0 := hjoin j' s₀ s hs₀ hj
      have e1 : t - startOf tr.segments (j' + 1) = 0 := by rw [heq]; ring
      have e2 : t - startOf tr.segments j' = s₀.time := by rw [← heq, hst]; ring
      rw [e1, ← hj0 (k + 1) (Or.inr rfl), ← e2]
      refine ((hder s₀ k (startOf tr.segments j') t).hasDerivWithinAt).congr_of_eventuallyEq ?_ ?_
      · have hlb : Set.Ioi (max 0 (startOf tr.segments j')) ∈ nhds t := by
          apply Ioi_mem_nhds (max_lt h0 _); rw [← heq, hst]; linarith
        filter_upwards [self_mem_nhdsWithin, mem_nhdsWithin_of_mem_nhds hlb] with u hu1 hu2
        have hu1 : u ≤ t := hu1
        have hu2 : max 0 (startOf tr.segments j') < u := hu2
        rcases hu1.lt_or_eq with hu | rfl
        · exact key k u j' s₀ (lt_of_le_of_lt (le_max_left _ _) hu2) (lt_of_le_of_lt hu1 h1) hs₀
            (lt_of_le_of_lt (le_max_right _ _) hu2).le (by rw [← hst, heq]; exact hu)
        · rw [hright u le_rfl h1 hb, e1, e2, hj0 k (Or.inl rfl)]
      · rw [hright t le_rfl h1 hb, e1, e2, hj0 k (Or.inl rfl)]
  have := hL'.union hR'
  rwa [Set.Iic_union_Ici, hasDerivWithinAt_univ] at this

-- the hypotheses hold for a two-segment curve t, then 1 + t + t² (position and velocity agree at the joint t = 1)
example : ∃ (tr : Trajectory ℝ) (F : ℕ → ℝ → List ℝ), tr.segments.length = 2 ∧
    (∀ s ∈ tr.segments, 0 < s.time) ∧ (∀ s ∈ tr.segments, Regular s) ∧
    (∀ j s s', tr.segments[j]? = some s → tr.segments[j + 1]? = some s' → ∀ i, i = 0 ∨ i = 0 + 1 →
      (segDeriv s i s.time).getD 0 0 = (segDeriv s' i 0).getD 0 0) ∧
    (∀ i u, 0 < u → u < duration tr.segments → tr.evaluate u i = .ok (F i u)) := by
  let tr : Trajectory ℝ := ⟨1, 3, 2, [⟨3, 1, [[0, 1, 0]]⟩, ⟨3, 1, [[1, 1, 1]]⟩]⟩
  have hT : ∀ s ∈ tr.segments, 0 < s.time := by simp [tr]
  have hR : ∀ s ∈ tr.segments, Regular s := by simp [tr, Regular]
  refine ⟨tr, fun i u => match tr.evaluate u i with | .ok v => v | _ => [], rfl, hT, hR, ?_, ?_⟩
  · intro j s s' hj hj' i hi
    match j with
    | 0 =>
      simp [tr] at hj hj'
      subst hj hj'
      rcases hi with rfl | rfl <;> simp [segDeriv, derivAt, ofCoeffs, Finset.sum_range_succ]
    | 1 => simp [tr] at hj'
    | j + 2 => simp [tr] at hj
  · intro i u h0 h1
    obtain ⟨j, s, hj, ha, hb⟩ := exists_segment tr.segments u h0.le h1
    have e := evaluate_inside tr u i j s (fun s hs => (hT s hs).le) (hR s (List.mem_of_getElem? hj)).le hj ha hb
    simp only [e]

/-! ## C10 -/

/-- The operations that build or change a trajectory. -/
inductive TrajOp where
  | setSegments (segs : List (Segment ℝ))
  | addSegments (segs : List (Segment ℝ))
  | addTrajectories (ts : List (Trajectory ℝ))
  | addTrajectoriesInPlace (ts : List (Trajectory ℝ))
  | scale (x : ℝ)
  | meetConstraints (v a : ℝ)
  | offset (r : List ℝ)
  | clear

/-- One operation applied to the current trajectory; `rf` is the root finder. -/
noncomputable def TrajOp.run (rf : Poly.RootFinder ℝ) (tr : Trajectory ℝ) : TrajOp → Res (Trajectory ℝ)
  | .setSegments segs => Trajectory.setSegments segs
  | .addSegments segs => tr.addSegments segs
  | .addTrajectories ts => do let r ← tr.addTrajectories ts; return r.2
  | .addTrajectoriesInPlace ts => do let r ← tr.addTrajectoriesInPlace ts; return r.2
  | .scale x => .ok (tr.scaleSegmentTimes x).2
  | .meetConstraints v a => do let r ← tr.scaleSegmentTimesToMeetConstraints rf v a; return r.2
  | .offset r => .ok (tr.offsetTrajectory r).2
  | .clear => .ok Trajectory.empty

theorem meetLoop_consistent (rf : Poly.RootFinder ℝ) (v a : ℝ) (n : ℕ) (tr : Trajectory ℝ) (b : Bool)
    (tr' : Trajectory ℝ) (hc : Consistent tr) (h : Trajectory.meetLoop rf v a n tr = .ok (b, tr')) : Consistent tr' := by
  induction n generalizing tr with
  | zero => cases h; exact hc
  | succ n ih =>
    unfold Trajectory.meetLoop at h
    cases hm : tr.computeMaxVelocityAndAcceleration rf with
    | error e => rw [hm] at h; cases h
    | ok va =>
      rw [hm] at h
      simp only [bind, Except.bind] at h
      split at h
      · cases h; exact hc
      · exact ih _ (consistent_scaleAll _ _ hc) h

/-- C10: after every sequence of operations that returns, the maximum time is the sum of the segment times, and all stored segments
have the trajectory's D and N. -/
theorem C10_maxTime_under_all_histories (rf : Poly.RootFinder ℝ) (ops : List TrajOp) (tr : Trajectory ℝ)
    (h : ops.foldlM (TrajOp.run rf) Trajectory.empty = .ok tr) :
    tr.maxTime = (tr.segments.map (·.time)).sum ∧ ∀ s ∈ tr.segments, s.polys.length = tr.D ∧ s.N = tr.N := by
  have step : ∀ (op : TrajOp) (a b : Trajectory ℝ), Consistent a → op.run rf a = .ok b → Consistent b := by
    intro op a b hc hr
    cases op with
    | setSegments segs => exact (consistent_setSegments b segs hr).1
    | addSegments segs => exact consistent_addSegments a b segs hc hr
    | addTrajectories ts =>
      simp only [TrajOp.run, Trajectory.addTrajectories, bind, Except.bind] at hr
      split at hr
      · cases hr
      · rename_i x hx; cases hr; exact consistent_addTrajectoriesLoop _ _ _ _ _ _ hc hx
    | addTrajectoriesInPlace ts =>
      simp only [TrajOp.run, Trajectory.addTrajectoriesInPlace, bind, Except.bind] at hr
      split at hr
      · cases hr
      · rename_i x hx; cases hr; exact consistent_addTrajectoriesLoop _ _ _ _ _ _ consistent_empty hx
    | scale x =>
      cases hr
      simp only [Trajectory.scaleSegmentTimes]
      split
      · exact hc
      · exact consistent_scaleAll _ _ hc
    | meetConstraints v w =>
      simp only [TrajOp.run, Trajectory.scaleSegmentTimesToMeetConstraints, bind, Except.bind] at hr
      split at hr
      · cases hr
      · rename_i x hx
        cases hr
        split at hx
        · cases hx
        · exact meetLoop_consistent rf v w 20 a x.1 x.2 hc hx
    | offset r => cases hr; exact consistent_offset a r hc
    | clear => cases hr; exact consistent_empty
  have main : ∀ (ops : List TrajOp) (a b : Trajectory ℝ), Consistent a → ops.foldlM (TrajOp.run rf) a = .ok b → Consistent b := by
    intro ops
    induction ops with
    | nil => intro a b hc hb; cases hb; exact hc
    | cons op ops ih =>
      intro a b hc hb
      rw [List.foldlM_cons] at hb
      cases hr : op.run rf a with
      | error e => rw [hr] at hb; cases hb
      | ok x => rw [hr] at hb; exact ih x b (step op a x hc hr) hb
  exact main ops _ tr consistent_empty h

/-- C10: the segment times handed out are those of the segments in order, so the first `j` of them add up to the instant at which segment `j` starts and all of
them to the maximum time. -/
theorem C10_segmentTimes (rf : Poly.RootFinder ℝ) (ops : List TrajOp) (tr : Trajectory ℝ) (h : ops.foldlM (TrajOp.run rf) Trajectory.empty = .ok tr) :
    tr.getSegmentTimes.length = tr.segments.length ∧ (∀ (j : ℕ) (s : Segment ℝ), tr.segments[j]? = some s → tr.getSegmentTimes[j]? = some s.time) ∧
    (∀ j, (tr.getSegmentTimes.take j).sum = startOf tr.segments j) ∧ tr.getSegmentTimes.sum = tr.maxTime := by
  obtain ⟨hm, _⟩ := C10_maxTime_under_all_histories rf ops tr h
  unfold Trajectory.getSegmentTimes
  refine ⟨by simp, fun j s hj => by simp [hj], fun j => ?_, hm.symm⟩
  rw [← List.map_take]
  rfl

-- a history of three operations that returns and leaves two segments
example (rf : Poly.RootFinder ℝ) : ∃ tr, [TrajOp.setSegments [⟨1, 2, [[5]]⟩], .addSegments [⟨1, 3, [[7]]⟩], .scale 2].foldlM
    (TrajOp.run rf) Trajectory.empty = .ok tr ∧ tr.segments.length = 2 ∧ tr.maxTime = 10 := by
  refine ⟨_, rfl, ?_, ?_⟩
  · rw [Trajectory.scaleSegmentTimes, if_neg (by norm_num)]; rfl
  · rw [Trajectory.scaleSegmentTimes, if_neg (by norm_num)]
    simp [Trajectory.scaleAll, Segment.scale]; norm_num

/-! ## C11 -/

/-- C11: refusal exactly below 10⁻⁶, with nothing changed; otherwise all times are multiplied by `c`. -/
theorem C11_scale_times (tr : Trajectory K) (c : K) (hc : Consistent tr) :
    (c < 1 / 10 ^ 6 → tr.scaleSegmentTimes c = (false, tr)) ∧
    (1 / 10 ^ 6 ≤ c → (tr.scaleSegmentTimes c).1 = true ∧
      (tr.scaleSegmentTimes c).2.segments.map (·.time) = tr.segments.map (fun s => s.time * c) ∧
      (tr.scaleSegmentTimes c).2.maxTime = c * tr.maxTime) := by
  constructor
  · intro h; rw [Trajectory.scaleSegmentTimes, if_pos h]
  · intro h
    rw [Trajectory.scaleSegmentTimes, if_neg (not_lt.mpr h)]
    refine ⟨rfl, ?_, scaleAll_maxTime tr c hc⟩
    simp [Trajectory.scaleAll, Segment.scale, List.map_map, Function.comp_def]

/-- C11: an accepted scaling keeps the path: evaluation at `c * t` afterwards is the evaluation at `t` before, with the `k`-th
derivative divided by `c ^ k`; for every `t` (also outside the range). -/
theorem C11_scale_keeps_path (tr : Trajectory K) (c t : K) (k : ℕ) (v : List K) (hc : 1 / 10 ^ 6 ≤ c)
    (hR : ∀ s ∈ tr.segments, Regular s) (h : tr.evaluate t k = .ok v) :
    (tr.scaleSegmentTimes c).2.evaluate (c * t) k = .ok (v.map (· / c ^ k)) := by
  rw [Trajectory.scaleSegmentTimes, if_neg (not_lt.mpr hc)]
  exact evaluate_scaleAll tr c t k (lt_of_lt_of_le (by positivity) hc) v (fun s hs => (hR s hs).le) h

example : sampleTraj.evaluate (5 / 2) 1 = .ok [1, -1] ∧
    (sampleTraj.scaleSegmentTimes 2).2.evaluate (2 * (5 / 2)) 1 = .ok [1 / 2, -1 / 2] := by decide +kernel

end Verif.Properties
