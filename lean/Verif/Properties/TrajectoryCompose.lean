import Mathlib.Tactic.NormNum
import Verif.Properties.Trajectory

set_option linter.unusedSectionVars false

/-!
# Properties C14–C17: taking trajectories apart and putting them together
-/

namespace Verif.Properties

open Spec

variable {K : Type*} [Field K] [LinearOrder K] [IsStrictOrderedRing K]

/-! ## C14 -/

/-- C14 for segments: extracting dimension `d` succeeds exactly for existing dimensions, keeps the time, and evaluates to the `d`-th
coordinate at every local time and derivative. -/
theorem C14_segment (s : Segment K) (d : ℤ) :
    (∀ (n : ℕ) (x : Poly K), d = n → s.polys[n]? = some x → ∃ r, s.getSegmentWithSingleDimension d = some r ∧
      r.time = s.time ∧ r.N = s.N ∧ ∀ k τ, (segDeriv r k τ).map some = [(segDeriv s k τ)[n]?]) ∧
    ((d < 0 ∨ (s.polys.length : ℤ) ≤ d) → s.getSegmentWithSingleDimension d = none) := by
  constructor
  · rintro n x rfl hx
    refine ⟨⟨s.N, s.time, [x]⟩, ?_, rfl, rfl, fun k τ => ?_⟩
    · simp [Segment.getSegmentWithSingleDimension, hx]
    · simp [segDeriv, hx]
  · rintro (h | h)
    · simp [Segment.getSegmentWithSingleDimension, h]
    · unfold Segment.getSegmentWithSingleDimension
      split
      · rfl
      · rw [List.getElem?_eq_none (by omega)]

/-- The full claim C14 for trajectories: the extracted trajectory evaluates to the coordinate at every time of the original. -/
def C14Full : Prop :=
  ∀ (tr : Trajectory ℚ) (n : ℕ), Consistent tr → (∀ s ∈ tr.segments, Regular s ∧ 0 ≤ s.time) → tr.segments ≠ [] → n < tr.D →
    ∃ r, tr.getTrajectoryWithSingleDimension n = .ok r ∧
      ∀ t k v, 0 ≤ t → t ≤ tr.maxTime → tr.evaluate t k = .ok v → r.evaluate t k = .ok [v.getD n 0]

theorem sampleTraj_consistent : Consistent sampleTraj := by
  constructor
  · unfold duration; decide +kernel
  · decide +kernel

theorem sampleTraj_regular : ∀ s ∈ sampleTraj.segments, Regular s ∧ 0 ≤ s.time := by
  intro s hs
  refine ⟨⟨?_, ?_⟩, ?_⟩ <;> (revert s; decide +kernel)

/-- C14 is false of the code for trajectories: the extracted trajectory has duration 0, so it evaluates to zero. -/
theorem C14_trajectory_refuted : ¬ C14Full := by
  intro h
  obtain ⟨r, h1, h2⟩ := h sampleTraj 0 sampleTraj_consistent sampleTraj_regular (by decide +kernel) (by decide)
  have hv : sampleTraj.evaluate 1 0 = .ok [1, 1] := by decide +kernel
  have := h2 1 0 [1, 1] (by norm_num) (by decide +kernel) hv
  have hr : sampleTraj.getTrajectoryWithSingleDimension (0 : ℕ) = .ok ⟨1, 3, 0, [⟨3, 0, [[0, 1, 0]]⟩, ⟨3, 0, [[2, 0, 1]]⟩]⟩ := by
    decide +kernel
  rw [hr] at h1
  cases h1
  revert this
  decide +kernel

/-- C14: a dimension the trajectory does not have is refused, for trajectories of any length. -/
theorem C14_trajectory_refuses (tr : Trajectory K) (d : ℤ) (hd : d < 0 ∨ (tr.D : ℤ) ≤ d) :
    tr.getTrajectoryWithSingleDimension d = .error .check := by
  unfold Trajectory.getTrajectoryWithSingleDimension
  split
  · rfl
  · rename_i h
    have hneg : d < 0 := by omega
    cases hs : tr.segments with
    | nil => rfl
    | cons s ss =>
      simp only [List.mapM_cons, hneg, if_true, bind, Except.bind]

-- one past the last dimension, and a negative one
example : ((sampleTraj.D : ℤ) ≤ sampleTraj.D) ∧ ((-1 : ℤ) < 0) := by decide +kernel

/-- C14, what holds for trajectories: the result has one segment per original segment, whose polynomial is the requested one (so
segment-wise evaluation is the coordinate), but every segment time and the maximum time are 0. -/
theorem C14_trajectory_partial (tr : Trajectory K) (n : ℕ) (hc : Consistent tr) (hne : tr.segments ≠ []) (hn : n < tr.D) :
    ∃ r, tr.getTrajectoryWithSingleDimension n = .ok r ∧ r.maxTime = 0 ∧ r.segments.length = tr.segments.length ∧
      ∀ (j : ℕ) (s : Segment K), tr.segments[j]? = some s → ∃ s', r.segments[j]? = some s' ∧ s'.time = 0 ∧
        ∀ (k : ℕ) (τ : K), (segDeriv s' k τ).map some = [(segDeriv s k τ)[n]?] := by
  let g : Segment K → Segment K := fun s => ⟨tr.N, 0, [s.polys.getD n []]⟩
  have hm : (tr.segments.mapM fun s => do
      let p ← if (n : ℤ) < 0 then (.error .check : Res (Poly K)) else s.index (n : ℤ).toNat
      return (⟨tr.N, 0, [p]⟩ : Segment K)) = .ok (tr.segments.map g) := by
    apply mapM_ok
    intro s hs
    have hl : n < s.polys.length := by rw [(hc.2 s hs).1]; exact hn
    simp [Segment.index, List.getElem?_eq_getElem hl, bind, Except.bind, pure, Except.pure, g, List.getD_eq_getElem?_getD]
  have hset : Trajectory.setSegments (tr.segments.map g) = .ok ⟨1, tr.N, 0, tr.segments.map g⟩ := by
    have hdur : duration (tr.segments.map g) = 0 := by
      simp [duration, List.map_map, Function.comp_def, g]
    cases hsegs : tr.segments with
    | nil => exact absurd hsegs hne
    | cons s ss =>
      rw [hsegs] at hdur
      rw [List.map_cons]
      unfold Trajectory.setSegments
      simp only
      rw [addSegments_of]
      · rw [← List.map_cons, hdur]; simp [g, Segment.D]
      · intro x hx
        rw [← List.map_cons, List.mem_map] at hx
        obtain ⟨y, _, rfl⟩ := hx
        simp [g, Segment.D]
  refine ⟨⟨1, tr.N, 0, tr.segments.map g⟩, ?_, rfl, by simp, ?_⟩
  · unfold Trajectory.getTrajectoryWithSingleDimension
    rw [if_neg (by omega), hm]
    exact hset
  · intro j s hj
    refine ⟨g s, by simp [hj], rfl, fun k τ => ?_⟩
    have hl : n < s.polys.length := by rw [(hc.2 s (List.mem_of_getElem? hj)).1]; exact hn
    simp [segDeriv, g, List.getElem?_eq_getElem hl, List.getD_eq_getElem?_getD]

/-! ## C15 -/

/-- The combined segment plays both segments, each reparametrised linearly from its own duration to the common one. -/
def PlaysBoth (s a r : Segment K) : Prop :=
  r.time = max s.time a.time ∧ r.polys.length = s.polys.length + a.polys.length ∧
  ∀ k τ, segDeriv r k τ =
    (segDeriv s k (s.time / r.time * τ)).map ((s.time / r.time) ^ k * ·) ++
    (segDeriv a k (a.time / r.time * τ)).map ((a.time / r.time) ^ k * ·)

theorem segDeriv_scaled (l : List (Poly K)) (b τ : K) (k : ℕ) :
    (l.map fun p => Poly.scaleInTime p b).map (fun p => derivAt p k τ) = (l.map fun p => derivAt p k (b * τ)).map (b ^ k * ·) := by
  rw [List.map_map, List.map_map]
  apply List.map_congr_left
  intro p _
  simp [derivAt_scaleInTime]

theorem segDeriv_unscaled (l : List (Poly K)) (b τ : K) (k : ℕ) (hb : b = 1) :
    l.map (fun p => derivAt p k τ) = (l.map fun p => derivAt p k (b * τ)).map (b ^ k * ·) := by
  rw [List.map_map]
  apply List.map_congr_left
  intro p _
  simp [hb]

theorem appendCoefficients_ok (p : Poly K) (n : ℕ) (h : p.length ≤ n) :
    (Poly.appendCoefficients p n).1 = true ∧ ∀ k τ, derivAt (Poly.appendCoefficients p n).2 k τ = derivAt p k τ := by
  unfold Poly.appendCoefficients
  split
  · exact ⟨rfl, fun _ _ => rfl⟩
  · rw [if_neg (by omega)]
    refine ⟨rfl, fun k τ => ?_⟩
    simp only [derivAt, ofCoeffs_append_zeros]

/-- C15 for segments, where it holds: both have the same number of coefficients, or the same duration. -/
theorem C15_segment_partial (s a : Segment K) (hs : Regular s) (ha : Regular a) (hsN : s.N ≠ 0) (haN : a.N ≠ 0)
    (hsD : s.polys ≠ []) (haD : a.polys ≠ []) (hst : 0 < s.time) (hat : 0 < a.time)
    (hcase : s.N = a.N ∨ s.time = a.time) :
    ∃ r, s.getSegmentWithAppendedDimension a = some r ∧ PlaysBoth s a r ∧ r.N = max s.N a.N := by
  have hmax : 0 < max s.time a.time := lt_max_of_lt_left hst
  have hsD' : s.D ≠ 0 := by simpa [Segment.D] using hsD
  have haD' : a.D ≠ 0 := by simpa [Segment.D] using haD
  unfold Segment.getSegmentWithAppendedDimension
  rw [if_neg (by tauto), if_neg (by tauto)]
  simp only [hmax, and_true]
  by_cases hN : s.N = a.N
  · rw [if_pos hN]
    refine ⟨_, rfl, ⟨rfl, ?_, fun k τ => ?_⟩, by simp [max_comm]⟩
    · simp only [List.length_append]; congr 1 <;> (repeat' split) <;> simp
    · simp only [segDeriv, List.map_append]
      congr 1
      · split
        · exact segDeriv_scaled _ _ _ _
        · rename_i h
          have : max s.time a.time = s.time := le_antisymm (not_lt.mp h) (le_max_left _ _)
          exact segDeriv_unscaled _ _ _ _ (by rw [this, div_self hst.ne'])
      · split
        · rename_i h
          have : max s.time a.time = a.time := by
            rcases max_choice s.time a.time with h' | h'
            · rw [h'] at h; exact absurd h (lt_irrefl _)
            · exact h'
          exact segDeriv_unscaled _ _ _ _ (by rw [this, div_self hat.ne'])
        · split
          · exact segDeriv_scaled _ _ _ _
          · rename_i h
            have : max s.time a.time = a.time := le_antisymm (not_lt.mp h) (le_max_right _ _)
            exact segDeriv_unscaled _ _ _ _ (by rw [this, div_self hat.ne'])
  · have ht : s.time = a.time := hcase.resolve_left hN
    rw [if_neg hN]
    have hall : ∀ p ∈ s.polys ++ a.polys, p.length ≤ max a.N s.N := by
      intro p hp
      rcases List.mem_append.mp hp with hp | hp
      · rw [hs.1 p hp]; exact le_max_right _ _
      · rw [ha.1 p hp]; exact le_max_left _ _
    rw [if_pos (by
      rw [List.all_eq_true]
      intro x hx
      obtain ⟨p, hp, rfl⟩ := List.mem_map.mp hx
      exact (appendCoefficients_ok p _ (hall p hp)).1)]
    refine ⟨_, rfl, ⟨rfl, by simp, fun k τ => ?_⟩, by simp [max_comm]⟩
    have e : s.time / max s.time a.time = 1 := by rw [← ht, max_self, div_self hst.ne']
    have e' : a.time / max s.time a.time = 1 := by rw [ht, max_self, div_self hat.ne']
    simp only [segDeriv, e, e', one_mul, one_pow, List.map_map]
    rw [← List.map_append]
    apply List.map_congr_left
    intro p hp
    exact (appendCoefficients_ok p _ (hall p hp)).2 k τ

/-- C15 for segments, exactly, when the numbers of coefficients differ: the result lasts as long as the longer segment and plays both unscaled, so the shorter one is continued past
its end. -/
theorem C15_segment_exact_partial (s a : Segment K) (hs : Regular s) (ha : Regular a) (hsN : s.N ≠ 0) (haN : a.N ≠ 0)
    (hsD : s.polys ≠ []) (haD : a.polys ≠ []) (hN : s.N ≠ a.N) :
    ∃ r, s.getSegmentWithAppendedDimension a = some r ∧ r.time = max s.time a.time ∧ r.N = max s.N a.N ∧
      ∀ k τ, segDeriv r k τ = segDeriv s k τ ++ segDeriv a k τ := by
  have hsD' : s.D ≠ 0 := by simpa [Segment.D] using hsD
  have haD' : a.D ≠ 0 := by simpa [Segment.D] using haD
  unfold Segment.getSegmentWithAppendedDimension
  rw [if_neg (by tauto), if_neg (by tauto)]
  simp only
  rw [if_neg hN]
  have hall : ∀ p ∈ s.polys ++ a.polys, p.length ≤ max a.N s.N := by
    intro p hp
    rcases List.mem_append.mp hp with hp | hp
    · rw [hs.1 p hp]; exact le_max_right _ _
    · rw [ha.1 p hp]; exact le_max_left _ _
  rw [if_pos (by
    rw [List.all_eq_true]
    intro x hx
    obtain ⟨p, hp, rfl⟩ := List.mem_map.mp hx
    exact (appendCoefficients_ok p _ (hall p hp)).1)]
  refine ⟨_, rfl, rfl, by simp [max_comm], fun k τ => ?_⟩
  simp only [segDeriv, List.map_map]
  rw [← List.map_append]
  apply List.map_congr_left
  intro p hp
  exact (appendCoefficients_ok p _ (hall p hp)).2 k τ

-- a segment with two coefficients and one with three meet the hypotheses
example : ∃ r, Segment.getSegmentWithAppendedDimension (⟨2, 1, [[0, 1]]⟩ : Segment ℚ) ⟨3, 2, [[0, 0, 1]]⟩ = some r ∧ r.time = 2 ∧
    ∀ k τ, segDeriv r k τ = segDeriv (⟨2, 1, [[0, 1]]⟩ : Segment ℚ) k τ ++ segDeriv ⟨3, 2, [[0, 0, 1]]⟩ k τ := by
  obtain ⟨r, h1, h2, _, h3⟩ := C15_segment_exact_partial (⟨2, 1, [[0, 1]]⟩ : Segment ℚ) ⟨3, 2, [[0, 0, 1]]⟩ ⟨by simp, by simp⟩ ⟨by simp, by simp⟩
    (by simp) (by simp) (by simp) (by simp) (by simp)
  exact ⟨r, h1, by rw [h2]; norm_num, h3⟩

/-- C15: an empty operand (no coefficients or no dimensions) yields the other one. -/
theorem C15_segment_empty (s a : Segment K) :
    ((s.N = 0 ∨ s.polys = []) → s.getSegmentWithAppendedDimension a = some a) ∧
    (¬ (s.N = 0 ∨ s.polys = []) → (a.N = 0 ∨ a.polys = []) → s.getSegmentWithAppendedDimension a = some s) := by
  constructor
  · intro h; unfold Segment.getSegmentWithAppendedDimension; rw [if_pos (by simpa [Segment.D] using h)]
  · intro h h'
    unfold Segment.getSegmentWithAppendedDimension
    rw [if_neg (by simpa [Segment.D] using h), if_pos (by simpa [Segment.D] using h')]

/-- The full claim C15 for segments. -/
def C15Full : Prop :=
  ∀ (s a : Segment ℚ), Regular s → Regular a → s.N ≠ 0 → a.N ≠ 0 → s.polys ≠ [] → a.polys ≠ [] → 0 < s.time → 0 < a.time →
    ∃ r, s.getSegmentWithAppendedDimension a = some r ∧ PlaysBoth s a r

/-- C15 is false of the code when both the number of coefficients and the duration differ: the scaled copies are not used. -/
theorem C15_segment_refuted : ¬ C15Full := by
  intro h
  obtain ⟨r, h1, h2⟩ := h ⟨2, 1, [[0, 1]]⟩ ⟨3, 2, [[0, 0, 1]]⟩ (by simp [Regular]) (by simp [Regular]) (by simp) (by simp)
    (by simp) (by simp) (by norm_num) (by norm_num)
  have hr : Segment.getSegmentWithAppendedDimension (⟨2, 1, [[0, 1]]⟩ : Segment ℚ) ⟨3, 2, [[0, 0, 1]]⟩ =
      some ⟨3, 2, [[0, 1, 0], [0, 0, 1]]⟩ := by decide +kernel
  rw [hr] at h1
  cases h1
  have := congrArg (fun l => l.getD 0 0) (h2.2.2 0 1)
  simp [segDeriv, derivAt, ofCoeffs, Finset.sum_range_succ] at this

-- the hypotheses of `C15_segment_partial` hold for two segments of different duration
example : Segment.getSegmentWithAppendedDimension (⟨2, 1, [[0, 1]]⟩ : Segment ℚ) ⟨2, 2, [[3, 1]]⟩ =
    some ⟨2, 2, [[0, 1 / 2], [3, 1]]⟩ := by decide +kernel

theorem appendLoop_spec (ss as : List (Segment K)) (hlen : ss.length = as.length)
    (h : ∀ (j : ℕ) (s a : Segment K), ss[j]? = some s → as[j]? = some a → ∃ r, s.getSegmentWithAppendedDimension a = some r) :
    ∃ rs, Trajectory.appendLoop ss as = some rs ∧ rs.length = ss.length ∧
      ∀ (j : ℕ) (s a : Segment K), ss[j]? = some s → as[j]? = some a → ∃ r, rs[j]? = some r ∧ s.getSegmentWithAppendedDimension a = some r := by
  induction ss generalizing as with
  | nil => exact ⟨[], by simp [Trajectory.appendLoop], rfl, by simp⟩
  | cons s ss ih =>
    cases as with
    | nil => simp at hlen
    | cons a as =>
      obtain ⟨r, hr⟩ := h 0 s a rfl rfl
      obtain ⟨rs, h1, h2, h3⟩ := ih as (by simpa using hlen) (fun j x y hx hy => h (j + 1) x y (by simpa using hx) (by simpa using hy))
      refine ⟨r :: rs, by simp [Trajectory.appendLoop, hr, h1], by simp [h2], ?_⟩
      intro j x y hx hy
      cases j with
      | zero => simp at hx hy; subst hx hy; exact ⟨r, rfl, hr⟩
      | succ j => simpa using h3 j x y (by simpa using hx) (by simpa using hy)

/-- C15 for trajectories with the same number of segments, under the same restriction (equal numbers of coefficients, or equal
segment times): the result consists of the pairwise combined segments. A different number of segments aborts. -/
theorem C15_trajectory_partial (tr a : Trajectory K) (hc : Consistent tr) (hca : Consistent a)
    (hs : ∀ s ∈ tr.segments, Regular s ∧ 0 < s.time) (ha : ∀ s ∈ a.segments, Regular s ∧ 0 < s.time)
    (hN : tr.N ≠ 0 ∧ a.N ≠ 0) (hD : tr.D ≠ 0 ∧ a.D ≠ 0) (hne : tr.segments ≠ [])
    (hlen : tr.segments.length = a.segments.length)
    (hcase : tr.N = a.N ∨ tr.segments.map (·.time) = a.segments.map (·.time)) :
    ∃ r, tr.getTrajectoryWithAppendedDimension a = .ok (some r) ∧ r.segments.length = tr.segments.length ∧
      r.D = tr.D + a.D ∧ r.N = max tr.N a.N ∧
      ∀ (j : ℕ) (s s' : Segment K), tr.segments[j]? = some s → a.segments[j]? = some s' → ∃ q, r.segments[j]? = some q ∧ PlaysBoth s s' q := by
  have hsegspec : ∀ (j : ℕ) (s s' : Segment K), tr.segments[j]? = some s → a.segments[j]? = some s' →
      ∃ r, s.getSegmentWithAppendedDimension s' = some r ∧ PlaysBoth s s' r ∧ r.N = max s.N s'.N := by
    intro j s s' hj hj'
    have m := List.mem_of_getElem? hj
    have m' := List.mem_of_getElem? hj'
    have c := hc.2 s m
    have c' := hca.2 s' m'
    refine C15_segment_partial s s' (hs s m).1 (ha s' m').1 (by rw [c.2]; exact hN.1) (by rw [c'.2]; exact hN.2)
      (by intro h; rw [h] at c; exact hD.1 c.1.symm) (by intro h; rw [h] at c'; exact hD.2 c'.1.symm)
      (hs s m).2 (ha s' m').2 ?_
    rcases hcase with h | h
    · left; rw [c.2, c'.2, h]
    · right
      have := congrArg (fun l => l[j]?) h
      simpa [hj, hj'] using this
  obtain ⟨rs, h1, h2, h3⟩ := appendLoop_spec tr.segments a.segments hlen
    (fun j s s' hj hj' => by obtain ⟨r, hr, _⟩ := hsegspec j s s' hj hj'; exact ⟨r, hr⟩)
  have hdims : ∀ x ∈ rs, x.polys.length = tr.D + a.D ∧ x.N = max tr.N a.N := by
    intro x hx
    obtain ⟨j, hj⟩ := List.mem_iff_getElem?.mp hx
    have hjl : j < tr.segments.length := by rw [← h2]; exact (List.getElem?_eq_some_iff.mp hj).1
    have e1 := List.getElem?_eq_getElem hjl
    have e2 := List.getElem?_eq_getElem (hlen ▸ hjl)
    obtain ⟨r, hr1, hr2⟩ := h3 j _ _ e1 e2
    obtain ⟨r', hr1', hr2', hr3'⟩ := hsegspec j _ _ e1 e2
    rw [hr2] at hr1'
    cases hr1'
    rw [hj] at hr1
    cases hr1
    have c := hc.2 _ (List.mem_of_getElem? e1)
    have c' := hca.2 _ (List.mem_of_getElem? e2)
    exact ⟨by rw [hr2'.2.1, c.1, c'.1], by rw [hr3', c.2, c'.2]⟩
  have hset : ∃ r, Trajectory.setSegments rs = .ok r ∧ r.segments = rs ∧ r.D = tr.D + a.D ∧ r.N = max tr.N a.N := by
    cases rs with
    | nil => simp at h2; exact absurd h2.symm (by simpa using hne)
    | cons x xs =>
      have hadd := addSegments_of (⟨x.D, x.N, 0, []⟩ : Trajectory K) (x :: xs) (by
        intro y hy
        have c := hdims x (by simp)
        have c' := hdims y hy
        exact ⟨by rw [c'.1, Segment.D, c.1], by rw [c'.2, c.2]⟩)
      refine ⟨_, hadd, ?_⟩
      · exact ⟨by simp, by simpa [Segment.D] using (hdims x (by simp)).1, by simpa using (hdims x (by simp)).2⟩
  obtain ⟨r, hr, hrs, hrD, hrN⟩ := hset
  refine ⟨r, ?_, by rw [hrs, h2], hrD, hrN, ?_⟩
  · unfold Trajectory.getTrajectoryWithAppendedDimension
    rw [if_neg (by tauto), if_neg (by tauto), if_neg (by simpa using hlen), h1]
    simp only [hr, bind, Except.bind, pure, Except.pure]
  · intro j s s' hj hj'
    obtain ⟨q, hq1, hq2⟩ := h3 j s s' hj hj'
    obtain ⟨r', hr1', hr2', _⟩ := hsegspec j s s' hj hj'
    rw [hq2] at hr1'
    cases hr1'
    exact ⟨q, by rw [hrs]; exact hq1, hr2'⟩

/-- C15: different numbers of segments abort. -/
theorem C15_trajectory_length_mismatch (tr a : Trajectory K) (hN : tr.N ≠ 0 ∧ a.N ≠ 0) (hD : tr.D ≠ 0 ∧ a.D ≠ 0)
    (hlen : tr.segments.length ≠ a.segments.length) : tr.getTrajectoryWithAppendedDimension a = .error .check := by
  unfold Trajectory.getTrajectoryWithAppendedDimension
  rw [if_neg (by tauto), if_neg (by tauto), if_pos hlen]

/-- C15: an empty operand (no coefficients or no dimensions) yields the other trajectory, as it is. -/
theorem C15_trajectory_empty (tr a : Trajectory K) :
    ((tr.N = 0 ∨ tr.D = 0) → tr.getTrajectoryWithAppendedDimension a = .ok (some a)) ∧
    (¬ (tr.N = 0 ∨ tr.D = 0) → (a.N = 0 ∨ a.D = 0) → tr.getTrajectoryWithAppendedDimension a = .ok (some tr)) := by
  unfold Trajectory.getTrajectoryWithAppendedDimension
  refine ⟨fun h => if_pos h, fun h h' => ?_⟩
  rw [if_neg h, if_pos h']

-- `sampleTraj` and the empty trajectory, in both orders
example : ((Trajectory.empty : Trajectory ℚ).N = 0 ∨ (Trajectory.empty : Trajectory ℚ).D = 0) ∧ ¬ (sampleTraj.N = 0 ∨ sampleTraj.D = 0) := by
  decide +kernel

-- `sampleTraj` appended to itself meets the hypotheses
example : (sampleTraj.N ≠ 0 ∧ sampleTraj.D ≠ 0 ∧ sampleTraj.segments ≠ []) ∧ (∀ s ∈ sampleTraj.segments, 0 < s.time) := by
  decide +kernel

/-! ## C16 -/

/-- Duration of a list of trajectories played one after another. -/
def totalTime (ts : List (Trajectory K)) : K := (ts.map (·.maxTime)).sum

theorem addTrajectoriesLoop_spec (D N : ℕ) (ts : List (Trajectory K)) (m : Trajectory K) (hm : m.D = D ∧ m.N = N)
    (hts : ∀ t ∈ ts, Consistent t) :
    ∃ b r, Trajectory.addTrajectoriesLoop D N ts m = .ok (b, r) ∧ (b = true ↔ ∀ t ∈ ts, t.D = D ∧ t.N = N) ∧
      (b = true → r = ⟨m.D, m.N, m.maxTime + totalTime ts, m.segments ++ (ts.map (·.segments)).flatten⟩) := by
  induction ts generalizing m with
  | nil => exact ⟨true, m, rfl, by simp, by simp [totalTime]⟩
  | cons t ts ih =>
    unfold Trajectory.addTrajectoriesLoop
    by_cases h : t.D ≠ D ∨ t.N ≠ N
    · rw [if_pos h]
      refine ⟨false, m, rfl, ?_, by simp⟩
      simp only [Bool.false_eq_true, false_iff]
      intro hall
      have := hall t (by simp)
      tauto
    · rw [if_neg h]
      push Not at h
      have hadd := addSegments_of m t.segments (fun s hs => by
        have := (hts t (by simp)).2 s hs
        exact ⟨by rw [this.1, h.1, hm.1], by rw [this.2, h.2, hm.2]⟩)
      rw [hadd]
      obtain ⟨b, r, h1, h2, h3⟩ := ih { m with maxTime := m.maxTime + duration t.segments, segments := m.segments ++ t.segments }
        hm (fun x hx => hts x (by simp [hx]))
      refine ⟨b, r, h1, ?_, ?_⟩
      · rw [h2]; simp [h]
      · intro hb
        rw [h3 hb, ← (hts t (by simp)).1]
        simp [totalTime, add_assoc]

/-- C16: merging consistent trajectories returns true exactly when all parts have the same D and N, and then the result lasts as
long as all parts together. -/
theorem C16_addTrajectories (tr : Trajectory K) (ts : List (Trajectory K)) (hts : ∀ t ∈ ts, Consistent t) :
    ∃ b r, tr.addTrajectories ts = .ok (b, r) ∧ (b = true ↔ ∀ t ∈ ts, t.D = tr.D ∧ t.N = tr.N) ∧
      (b = true → r.maxTime = totalTime (tr :: ts)) := by
  obtain ⟨b, r, h1, h2, h3⟩ := addTrajectoriesLoop_spec tr.D tr.N ts tr ⟨rfl, rfl⟩ hts
  exact ⟨b, r, h1, h2, fun hb => by rw [h3 hb]; simp [totalTime]⟩

theorem duration_flatten (ls : List (Trajectory K)) (h : ∀ t ∈ ls, Consistent t) :
    duration ((ls.map (·.segments)).flatten) = totalTime ls := by
  induction ls with
  | nil => simp [totalTime]
  | cons t l ih =>
    simp only [List.map_cons, List.flatten_cons, duration_append, ih (fun x hx => h x (by simp [hx])), totalTime, List.sum_cons]
    rw [← (h t (by simp)).1]

/-- C16: at a time inside part `j` (before its end) the merged trajectory evaluates like that part at the time since its start. -/
theorem C16_plays_in_sequence (tr : Trajectory K) (ts : List (Trajectory K)) (r : Trajectory K)
    (hmerge : tr.addTrajectories ts = .ok (true, r))
    (hc : ∀ t ∈ tr :: ts, Consistent t) (hs : ∀ t ∈ tr :: ts, ∀ s ∈ t.segments, Regular s ∧ 0 ≤ s.time)
    (j : ℕ) (p : Trajectory K) (hp : (tr :: ts)[j]? = some p) (u : K) (h0 : 0 ≤ u) (h1 : u < p.maxTime) (k : ℕ) :
    r.evaluate (totalTime ((tr :: ts).take j) + u) k = p.evaluate u k := by
  obtain ⟨b, r', e1, _, e3⟩ := addTrajectoriesLoop_spec tr.D tr.N ts tr ⟨rfl, rfl⟩ (fun t ht => hc t (by simp [ht]))
  unfold Trajectory.addTrajectories at hmerge
  rw [e1] at hmerge
  cases hmerge
  have hr := e3 rfl
  have hrs : r.segments = ((tr :: ts).map (·.segments)).flatten := by rw [hr]; simp
  have hpm := List.mem_of_getElem? hp
  obtain ⟨i, s, hi, ha, hb⟩ := exists_segment p.segments u h0 (by rw [← (hc p hpm).1]; exact h1)
  have hpd : p.evaluate u k = .ok (segDeriv s k (u - startOf p.segments i)) :=
    evaluate_inside p u k i s (fun x hx => (hs p hpm x hx).2) (hs p hpm s (List.mem_of_getElem? hi)).1.le hi ha hb
  have hsplit : (tr :: ts) = (tr :: ts).take j ++ p :: (tr :: ts).drop (j + 1) := by
    obtain ⟨hj, rfl⟩ := List.getElem?_eq_some_iff.mp hp
    rw [List.cons_getElem_drop_succ, List.take_append_drop]
  set pre := (tr :: ts).take j with hpre
  set post := (tr :: ts).drop (j + 1) with hpost
  have hprec : ∀ t ∈ pre, Consistent t := fun t ht => hc t (List.mem_of_mem_take ht)
  have hsegs : r.segments = (pre.map (·.segments)).flatten ++ (p.segments ++ (post.map (·.segments)).flatten) := by
    rw [hrs, hsplit]; simp
  set A := (pre.map (·.segments)).flatten with hA
  have hAd : duration A = totalTime pre := duration_flatten pre hprec
  have hil := (List.getElem?_eq_some_iff.mp hi).1
  have hget : r.segments[A.length + i]? = some s := by
    rw [hsegs, List.getElem?_append_right (by omega)]
    simp only [Nat.add_sub_cancel_left]
    rw [List.getElem?_append_left hil, hi]
  have hstart : startOf r.segments (A.length + i) = totalTime pre + startOf p.segments i := by
    rw [startOf, hsegs, List.take_append]
    simp only [Nat.add_sub_cancel_left, duration_append]
    rw [List.take_of_length_le (by omega), hAd, List.take_append, Nat.sub_eq_zero_of_le hil.le]
    simp [startOf]
  rw [hpd]
  have hTall : ∀ x ∈ r.segments, 0 ≤ x.time := by
    intro x hx
    rw [hrs] at hx
    obtain ⟨l, hl, hxl⟩ := List.mem_flatten.mp hx
    obtain ⟨t, ht, rfl⟩ := List.mem_map.mp hl
    exact (hs t ht x hxl).2
  rw [evaluate_inside r _ k (A.length + i) s hTall (hs p hpm s (List.mem_of_getElem? hi)).1.le hget
    (by rw [hstart]; linarith) (by rw [hstart]; linarith), hstart]
  congr 2
  ring

/-- C16: at the very end the merged trajectory evaluates like the last part at its end (parts with at least one segment). -/
theorem C16_end (tr : Trajectory K) (ts : List (Trajectory K)) (r : Trajectory K)
    (hmerge : tr.addTrajectories ts = .ok (true, r))
    (hc : ∀ t ∈ tr :: ts, Consistent t) (hs : ∀ t ∈ tr :: ts, ∀ s ∈ t.segments, Regular s ∧ 0 ≤ s.time)
    (p : Trajectory K) (hp : (tr :: ts).getLast? = some p) (hne : p.segments ≠ []) (k : ℕ) :
    r.evaluate r.maxTime k = p.evaluate p.maxTime k := by
  obtain ⟨b, r', e1, _, e3⟩ := addTrajectoriesLoop_spec tr.D tr.N ts tr ⟨rfl, rfl⟩ (fun t ht => hc t (by simp [ht]))
  unfold Trajectory.addTrajectories at hmerge
  rw [e1] at hmerge
  cases hmerge
  have hr := e3 rfl
  have hrs : r.segments = ((tr :: ts).map (·.segments)).flatten := by rw [hr]; simp
  have hcr : r.maxTime = duration r.segments := by
    rw [hrs, duration_flatten _ hc, hr]; simp [totalTime]
  obtain ⟨pre, hpre⟩ := List.getLast?_eq_some_iff.mp hp
  have hpm : p ∈ tr :: ts := by rw [hpre]; simp
  obtain ⟨s, hslast⟩ : ∃ s, p.segments.getLast? = some s := by
    cases h : p.segments.getLast? with
    | none => exact absurd (List.getLast?_eq_none_iff.mp h) hne
    | some s => exact ⟨s, rfl⟩
  obtain ⟨ini, hini⟩ := List.getLast?_eq_some_iff.mp hslast
  have hsp : s ∈ p.segments := by rw [hini]; simp
  have hTall : ∀ x ∈ r.segments, 0 ≤ x.time := by
    intro x hx
    rw [hrs] at hx
    obtain ⟨l, hl, hxl⟩ := List.mem_flatten.mp hx
    obtain ⟨t, ht, rfl⟩ := List.mem_map.mp hl
    exact (hs t ht x hxl).2
  rw [hcr, (hc p hpm).1, evaluate_end p k ini s hini (fun x hx => (hs p hpm x hx).2) (hs p hpm s hsp).1.le]
  refine evaluate_end r k ((pre.map (·.segments)).flatten ++ ini) s ?_ hTall (hs p hpm s hsp).1.le
  rw [hrs, hpre]
  simp [hini]

/-- C16, a trap: calling `addTrajectories` with the receiver itself as output clears the receiver first, so its own segments are
never part of the result, whatever it contained. -/
theorem C16_in_place_loses_receiver (tr tr' : Trajectory K) (ts : List (Trajectory K)) :
    tr.addTrajectoriesInPlace ts = tr'.addTrajectoriesInPlace ts ∧
    (∀ t ts', ts = t :: ts' → t.D ≠ 0 → tr.addTrajectoriesInPlace ts = .ok (false, Trajectory.empty)) := by
  refine ⟨rfl, ?_⟩
  rintro t ts' rfl hD
  unfold Trajectory.addTrajectoriesInPlace Trajectory.addTrajectoriesLoop
  rw [if_pos (Or.inl hD)]

example : ∃ r, sampleTraj.addTrajectories [sampleTraj, sampleTraj] = .ok (true, r) ∧ r.maxTime = 9 ∧
    r.evaluate (3 + 1) 0 = sampleTraj.evaluate 1 0 ∧ r.evaluate 9 0 = .ok [3, 0] := by
  refine ⟨⟨2, 3, 9, sampleTraj.segments ++ sampleTraj.segments ++ sampleTraj.segments⟩, ?_, rfl, ?_, ?_⟩ <;> decide +kernel

/-! ## C17 -/

/-- A position vector shifted by `r` in its first three coordinates. -/
def shift3 (r v : List K) : List K := v.mapIdx fun i x => if i < 3 then x + r.getD i 0 else x

theorem offsetSegment_spec (s : Segment K) (r : List K) (hr : min s.polys.length 3 ≤ r.length) (hp : ∀ p ∈ s.polys, p ≠ []) :
    ∃ s', s.offsetSegment r = some s' ∧ s'.time = s.time ∧ s'.N = s.N ∧ s'.polys.length = s.polys.length ∧
      (∀ τ, segDeriv s' 0 τ = shift3 r (segDeriv s 0 τ)) ∧ (∀ k τ, 0 < k → segDeriv s' k τ = segDeriv s k τ) ∧
      (s'.polys.map (·.length) = s.polys.map (·.length)) := by
  have hD : s.D = s.polys.length := rfl
  have hcond : ∀ i, i < s.polys.length → (i < min s.polys.length 3 ↔ i < 3) := fun i hi => by omega
  unfold Segment.offsetSegment
  rw [hD, if_neg (by omega)]
  refine ⟨_, rfl, rfl, rfl, by simp, ?_, ?_, ?_⟩
  · intro τ
    apply List.ext_getElem
    · simp [segDeriv, shift3]
    · intro i h1 h2
      simp only [segDeriv, List.length_map, List.length_mapIdx] at h1
      simp only [segDeriv, shift3, List.getElem_map, List.getElem_mapIdx, hcond i h1]
      split
      · have hne := hp _ (List.getElem_mem h1)
        simp [derivAt, ofCoeffs_offset _ _ hne]
      · rfl
  · intro k τ hk
    obtain ⟨k, rfl⟩ := Nat.exists_eq_succ_of_ne_zero hk.ne'
    apply List.ext_getElem
    · simp [segDeriv]
    · intro i h1 h2
      simp only [segDeriv, List.length_map, List.length_mapIdx] at h1
      simp only [segDeriv, List.getElem_map, List.getElem_mapIdx, hcond i h1]
      split
      · have hne := hp _ (List.getElem_mem h1)
        simp [derivAt, ofCoeffs_offset _ _ hne, Function.iterate_succ_apply]
      · rfl
  · apply List.ext_getElem
    · simp
    · intro i h1 h2
      simp only [List.getElem_map, List.getElem_mapIdx]
      split <;> simp

theorem offsetLoop_spec (r : List K) (segs : List (Segment K)) (h : ∀ s ∈ segs, min s.polys.length 3 ≤ r.length) :
    ∃ l, Trajectory.offsetLoop r segs = (true, l) ∧ l.length = segs.length ∧
      ∀ (j : ℕ) (s : Segment K), segs[j]? = some s → ∃ s', l[j]? = some s' ∧ s.offsetSegment r = some s' := by
  induction segs with
  | nil => exact ⟨[], rfl, rfl, by simp⟩
  | cons s ss ih =>
    obtain ⟨l, h1, h2, h3⟩ := ih (fun x hx => h x (by simp [hx]))
    have hs : ∃ s', s.offsetSegment r = some s' := by
      unfold Segment.offsetSegment
      rw [if_neg (by rw [not_lt]; exact h s (by simp))]
      exact ⟨_, rfl⟩
    obtain ⟨s', hs'⟩ := hs
    refine ⟨s' :: l, by simp [Trajectory.offsetLoop, hs', h1], by simp [h2], ?_⟩
    intro j x hx
    cases j with
    | zero => simp at hx; subst hx; exact ⟨s', rfl, hs'⟩
    | succ j => simpa using h3 j x (by simpa using hx)

theorem findSegment_congr (t : K) (l l' : List (Segment K)) (acc : K) (i : ℕ)
    (h : l'.map (·.time) = l.map (·.time)) : Trajectory.findSegment t l' acc i = Trajectory.findSegment t l acc i := by
  induction l generalizing l' acc i with
  | nil => simp at h; subst h; rfl
  | cons s l ih =>
    cases l' with
    | nil => simp at h
    | cons s' l' =>
      simp only [List.map_cons, List.cons.injEq] at h
      simp only [Trajectory.findSegment, h.1]
      split
      · rfl
      · exact ih l' _ _ h.2

/-- C17: an offset vector shorter than the first (up to) three dimensions is refused and changes nothing. -/
theorem C17_offset_refused (tr : Trajectory K) (r : List K) (h : r.length < min tr.D 3) :
    tr.offsetTrajectory r = (false, tr) := by
  unfold Trajectory.offsetTrajectory; rw [if_pos h]

/-- C17: otherwise the call succeeds; at every time within the trajectory the position is shifted by `r` in the first three
dimensions, the rest of the position and all higher derivatives are unchanged; durations do not change. -/
theorem C17_offset (tr : Trajectory K) (r : List K) (hc : Consistent tr) (hR : ∀ s ∈ tr.segments, Regular s) (hN : 0 < tr.N)
    (hr : min tr.D 3 ≤ r.length) :
    ∃ tr', tr.offsetTrajectory r = (true, tr') ∧ tr'.maxTime = tr.maxTime ∧
      tr'.segments.map (·.time) = tr.segments.map (·.time) ∧
      (∀ t v, t ≤ duration tr.segments → tr.evaluate t 0 = .ok v → tr'.evaluate t 0 = .ok (shift3 r v)) ∧
      (∀ t k v, 0 < k → tr.evaluate t k = .ok v → tr'.evaluate t k = .ok v) := by
  have hr' : ∀ s ∈ tr.segments, min s.polys.length 3 ≤ r.length := fun s hs => by rw [(hc.2 s hs).1]; exact hr
  obtain ⟨l, h1, h2, h3⟩ := offsetLoop_spec r tr.segments hr'
  have hpne : ∀ s ∈ tr.segments, ∀ p ∈ s.polys, p ≠ [] := by
    intro s hs p hp h
    have := (hR s hs).1 p hp
    rw [h, (hc.2 s hs).2] at this
    simp at this; omega
  have htimes : l.map (·.time) = tr.segments.map (·.time) := by
    have := offsetLoop_fields r tr.segments
    rw [h1] at this
    have := congrArg (List.map Prod.fst) this
    simpa [List.map_map, Function.comp_def] using this
  have hreg : ∀ s' ∈ l, ∀ p ∈ s'.polys, p.length ≤ 22 := by
    intro s' hs' p hp
    obtain ⟨j, hj⟩ := List.mem_iff_getElem?.mp hs'
    have hjl : j < tr.segments.length := by rw [← h2]; exact (List.getElem?_eq_some_iff.mp hj).1
    have e1 := List.getElem?_eq_getElem hjl
    obtain ⟨x, hx1, hx2⟩ := h3 j _ e1
    rw [hj] at hx1; cases hx1
    have hm := List.mem_of_getElem? e1
    obtain ⟨y, hy, _, _, _, _, _, hlen⟩ := offsetSegment_spec _ r (hr' _ hm) (hpne _ hm)
    rw [hx2] at hy; cases hy
    have : p.length ∈ s'.polys.map (·.length) := List.mem_map_of_mem hp
    rw [hlen] at this
    obtain ⟨q, hq, he⟩ := List.mem_map.mp this
    rw [← he]
    exact (hR _ hm).le q hq
  have key : ∀ t k, t ≤ (Trajectory.findSegment t tr.segments 0 0).1 → ∀ v, tr.evaluate t k = .ok v →
      ∃ s' s τ, s.offsetSegment r = some s' ∧ s ∈ tr.segments ∧ v = segDeriv s k τ ∧
        (⟨tr.D, tr.N, tr.maxTime, l⟩ : Trajectory K).evaluate t k = .ok (segDeriv s' k τ) := by
    intro t k ht v hv
    unfold Trajectory.evaluate at hv ⊢
    simp only [findSegment_congr t tr.segments l 0 0 htimes, h2]
    simp only [gt_iff_lt, not_lt.mpr ht, if_false] at hv ⊢
    set i := if tr.segments.length ≤ (Trajectory.findSegment t tr.segments 0 0).2 then tr.segments.length - 1 else
      (Trajectory.findSegment t tr.segments 0 0).2 with hi
    cases hs : tr.segments[i]? with
    | none => simp [at?, hs, bind, Except.bind] at hv
    | some s =>
      obtain ⟨s', hs'1, hs'2⟩ := h3 i s hs
      have hm := List.mem_of_getElem? hs
      have htm := (offsetSegment_times s s' r hs'2).1
      simp only [at?, hs, hs'1, bind, Except.bind] at hv ⊢
      rw [segment_evaluate_eq s _ k (hR s hm).le] at hv
      rw [segment_evaluate_eq s' _ k (hreg s' (List.mem_of_getElem? hs'1)), htm]
      exact ⟨s', s, _, hs'2, hm, (Except.ok.inj hv).symm, rfl⟩
  have hfs : ∀ t, t ≤ duration tr.segments → t ≤ (Trajectory.findSegment t tr.segments 0 0).1 := by
    have : ∀ (segs : List (Segment K)) (t acc : K) (i : ℕ), t ≤ acc + duration segs →
        t ≤ (Trajectory.findSegment t segs acc i).1 := by
      intro segs
      induction segs with
      | nil => intro t acc i h; simpa [Trajectory.findSegment] using h
      | cons s l ih =>
        intro t acc i h
        unfold Trajectory.findSegment
        split
        · rename_i h'; exact h'.le
        · exact ih t _ _ (by rw [duration_cons] at h; linarith)
    intro t ht
    exact this _ t 0 0 (by simpa using ht)
  refine ⟨⟨tr.D, tr.N, tr.maxTime, l⟩, ?_, rfl, htimes, ?_, ?_⟩
  · unfold Trajectory.offsetTrajectory
    rw [if_neg (by omega), h1]
  · intro t v ht hv
    obtain ⟨s', s, τ, e1, hm, rfl, e3⟩ := key t 0 (hfs t ht) v hv
    obtain ⟨y, hy, _, _, _, hpos, _⟩ := offsetSegment_spec s r (hr' s hm) (hpne s hm)
    rw [e1] at hy; cases hy
    rw [e3, hpos]
  · intro t k v hk hv
    by_cases ht : t ≤ (Trajectory.findSegment t tr.segments 0 0).1
    · obtain ⟨s', s, τ, e1, hm, rfl, e3⟩ := key t k ht v hv
      obtain ⟨y, hy, _, _, _, _, hder, _⟩ := offsetSegment_spec s r (hr' s hm) (hpne s hm)
      rw [e1] at hy; cases hy
      rw [e3, hder k τ hk]
    · unfold Trajectory.evaluate at hv ⊢
      simp only [findSegment_congr t tr.segments l 0 0 htimes]
      rw [if_pos (not_le.mp ht)] at hv ⊢
      exact hv

theorem offset_offset (p : Poly K) (o : K) : Poly.offset (Poly.offset p o) (-o) = p := by
  cases p <;> simp [Poly.offset]

/-- C17: success is reported exactly when the vector is long enough for the trajectory and for each of its segments, consistent or
not. -/
theorem C17_offset_reports (tr : Trajectory K) (r : List K) :
    (tr.offsetTrajectory r).1 = true ↔ min tr.D 3 ≤ r.length ∧ ∀ s ∈ tr.segments, min s.polys.length 3 ≤ r.length := by
  have hloop : ∀ l : List (Segment K), (Trajectory.offsetLoop r l).1 = true ↔ ∀ s ∈ l, min s.polys.length 3 ≤ r.length := by
    intro l
    induction l with
    | nil => simp [Trajectory.offsetLoop]
    | cons s l ih =>
      unfold Trajectory.offsetLoop Segment.offsetSegment
      by_cases h : r.length < min s.D 3
      · rw [if_pos h]
        simp only [Bool.false_eq_true, List.mem_cons, forall_eq_or_imp, false_iff, not_and]
        intro h'
        exact absurd h (Nat.not_lt.mpr h')
      · rw [if_neg h]
        simp only [List.mem_cons, forall_eq_or_imp]
        rw [ih]
        exact ⟨fun g => ⟨Nat.not_lt.mp h, g⟩, fun g => g.2⟩
  unfold Trajectory.offsetTrajectory
  by_cases h : r.length < min tr.D 3
  · rw [if_pos h]
    simp only [Bool.false_eq_true, false_iff, not_and]
    intro h'
    exact absurd h (Nat.not_lt.mpr h')
  · rw [if_neg h]
    exact ⟨fun g => ⟨Nat.not_lt.mp h, (hloop _).mp g⟩, fun g => (hloop _).mpr g.2⟩

/-- A segment with three dimensions in a trajectory that declares two: the vector is long enough for the trajectory only. -/
example : ((⟨2, 1, 1, [⟨1, 1, [[0], [0], [0]]⟩]⟩ : Trajectory ℚ).offsetTrajectory [1, 2]).1 = false := by decide +kernel

/-- C17: offsetting by `r` and then by `-r` restores the trajectory exactly. -/
theorem C17_offset_inverse (tr : Trajectory K) (r : List K) (hc : Consistent tr) (hr : min tr.D 3 ≤ r.length) :
    ((tr.offsetTrajectory r).2.offsetTrajectory (r.map (- ·))).2 = tr := by
  have hr' : ∀ s ∈ tr.segments, min s.polys.length 3 ≤ r.length := fun s hs => by rw [(hc.2 s hs).1]; exact hr
  obtain ⟨l, h1, h2, h3⟩ := offsetLoop_spec r tr.segments hr'
  have hlen : ∀ s ∈ l, min s.polys.length 3 ≤ (r.map (- ·)).length := by
    intro s' hs'
    obtain ⟨j, hj⟩ := List.mem_iff_getElem?.mp hs'
    have hjl : j < tr.segments.length := by rw [← h2]; exact (List.getElem?_eq_some_iff.mp hj).1
    have e1 := List.getElem?_eq_getElem hjl
    obtain ⟨x, hx1, hx2⟩ := h3 j _ e1
    rw [hj] at hx1; cases hx1
    rw [(offsetSegment_times _ _ r hx2).2.2]
    simpa using hr' _ (List.mem_of_getElem? e1)
  obtain ⟨l', h1', h2', h3'⟩ := offsetLoop_spec (r.map (- ·)) l hlen
  have hll : l' = tr.segments := by
    apply List.ext_getElem?
    intro j
    by_cases hj : j < tr.segments.length
    · have e1 := List.getElem?_eq_getElem hj
      obtain ⟨x, hx1, hx2⟩ := h3 j _ e1
      obtain ⟨y, hy1, hy2⟩ := h3' j x hx1
      rw [hy1, e1]
      congr 1
      set s := tr.segments[j] with hs
      have hD : s.D = s.polys.length := rfl
      have hDx : x.D = s.polys.length := (offsetSegment_times _ _ r hx2).2.2
      have hrl := hr' s (List.mem_of_getElem? e1)
      unfold Segment.offsetSegment at hx2 hy2
      rw [hD, if_neg (by omega)] at hx2
      cases hx2
      rw [hDx, if_neg (by rw [not_lt, List.length_map]; exact hrl)] at hy2
      cases hy2
      have : (s.polys.mapIdx (fun i p => if i < min s.polys.length 3 then Poly.offset p (r.getD i 0) else p)).mapIdx
          (fun i p => if i < min s.polys.length 3 then Poly.offset p ((r.map (- ·)).getD i 0) else p) = s.polys := by
        apply List.ext_getElem
        · simp
        · intro i ha hb
          simp only [List.getElem_mapIdx]
          split
          · rename_i hlt
            have hir : i < r.length := lt_of_lt_of_le hlt hrl
            have : (r.map (- ·)).getD i 0 = - r.getD i 0 := by
              simp [List.getD_eq_getElem?_getD, List.getElem?_eq_getElem hir]
            rw [this, offset_offset]
          · rfl
      simp only [this]
    · rw [List.getElem?_eq_none (by omega), List.getElem?_eq_none (by omega)]
  have e1 : tr.offsetTrajectory r = (true, { tr with segments := l }) := by
    unfold Trajectory.offsetTrajectory
    rw [if_neg (by omega), h1]
  rw [e1]
  unfold Trajectory.offsetTrajectory
  rw [if_neg (by rw [not_lt, List.length_map]; exact hr), h1']
  simp [hll]

example : Consistent sampleTraj ∧ (∀ s ∈ sampleTraj.segments, Regular s ∧ 0 ≤ s.time) ∧ 0 < sampleTraj.N ∧
    min sampleTraj.D 3 ≤ [5, (7 : ℚ)].length ∧ (sampleTraj.offsetTrajectory [5, 7]).2.evaluate 1 0 = .ok [6, 8] :=
  ⟨sampleTraj_consistent, sampleTraj_regular, by decide, by decide, by decide +kernel⟩

end Verif.Properties
