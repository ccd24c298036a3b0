import Mathlib.Tactic.IntervalCases
import Verif.Spec.RestLeg
import Verif.Properties.LinearOptCost
import Verif.Properties.SampledExtrema
import Verif.Properties.Vertex
import Verif.Properties.SegmentTimes

/-!
# C171: a leg from rest to rest
-/

namespace Verif.Properties

set_option linter.unusedSectionVars false
set_option linter.unusedSimpArgs false

open Verif Verif.Spec Verif.Lemmas Verif.LinOpt

/-- The polynomial of one dimension. -/
noncomputable def legPoly (x y T : ℝ) : List ℝ :=
  [x, 0, 0, 0, 0, 126 * (y - x) / T ^ 5, -420 * (y - x) / T ^ 6, 540 * (y - x) / T ^ 7, -315 * (y - x) / T ^ 8, 70 * (y - x) / T ^ 9]

theorem legPoly_start (x y T : ℝ) (k : ℕ) (hk : k < 5) : derivAt (legPoly x y T) k 0 = if k = 0 then x else 0 := by
  rw [derivAt_eq_sum]
  interval_cases k <;> simp [legPoly, Finset.sum_range_succ, Poly.rowTerm, baseEntry_eq, Nat.descFactorial]

theorem legPoly_end (x y T : ℝ) (hT : T ≠ 0) (k : ℕ) (hk : k < 5) : derivAt (legPoly x y T) k T = if k = 0 then y else 0 := by
  rw [derivAt_eq_sum]
  interval_cases k <;> simp [legPoly, Finset.sum_range_succ, Poly.rowTerm, baseEntry_eq, Nat.descFactorial] <;> field_simp <;> ring

theorem legPoly_position (x y T t : ℝ) (hT : T ≠ 0) : derivAt (legPoly x y T) 0 t = x + (y - x) * restProgress (t / T) := by
  rw [derivAt_eq_sum]
  simp [legPoly, Finset.sum_range_succ, Poly.rowTerm, baseEntry_eq, Nat.descFactorial, restProgress]
  field_simp
  ring

theorem legPoly_velocity (x y T t : ℝ) (hT : T ≠ 0) : derivAt (legPoly x y T) 1 t = (y - x) * (restSpeed (t / T) / T) := by
  rw [derivAt_eq_sum]
  simp [legPoly, Finset.sum_range_succ, Poly.rowTerm, baseEntry_eq, Nat.descFactorial, restSpeed]
  field_simp
  ring

theorem legPoly_acceleration (x y T t : ℝ) (hT : T ≠ 0) : derivAt (legPoly x y T) 2 t = (y - x) * (restAcceleration (t / T) / T ^ 2) := by
  rw [derivAt_eq_sum]
  simp [legPoly, Finset.sum_range_succ, Poly.rowTerm, baseEntry_eq, Nat.descFactorial, restAcceleration]
  field_simp
  ring

theorem euclid_scaled (c : ℝ) (a b : List ℝ) : euclid (List.zipWith (fun x y => (y - x) * c) a b) = |c| * legLength a b := by
  unfold legLength euclid
  rw [← Real.sqrt_sq_eq_abs, ← Real.sqrt_mul (sq_nonneg c), ← List.sum_map_mul_left]
  congr 2
  induction a generalizing b with
  | nil => simp
  | cons x a ih =>
    cases b with
    | nil => simp
    | cons y b =>
      simp only [List.zipWith_cons_cons, List.map_cons]
      rw [ih b]
      congr 1
      ring

/-- What `makeStartOrEnd` prescribes. -/
theorem rest_constraints (dim : ℕ) (a : List ℝ) (v : Vertex ℝ) (h : (Vertex.mk' dim : Vertex ℝ).makeStartOrEnd a 4 = .ok v) :
    a.length = dim ∧ WellFormed v ∧ ∀ k < 5, v.getConstraint (k : ℕ) = some (if k = 0 then a else List.replicate dim 0) := by
  have hl : a.length = dim := by
    by_contra hc
    unfold Vertex.makeStartOrEnd Vertex.addConstraint at h
    rw [if_neg (by simpa [Vertex.mk'] using hc)] at h
    cases h
  obtain ⟨w, h1, h2, h3, h4⟩ := makeStartOrEnd_ok (Vertex.mk' dim : Vertex ℝ) a 4 (by simp [WellFormed, Vertex.mk']) (by simpa [Vertex.mk'] using hl)
  rw [h] at h1
  cases h1
  refine ⟨hl, h3, fun k hk => ?_⟩
  rw [h4 k]
  by_cases h0 : k = 0
  · simp [h0]
  · rw [if_neg (by simpa using h0), if_pos (by constructor <;> omega), if_neg h0]
    rfl

section
variable {dim : ℕ} {solve : LinSolver ℝ}

/-- The one segment. -/
theorem leg_segment (hd : 0 < dim) (a b : List ℝ) (v w : Vertex ℝ) (T : ℝ) (d : Int) (hv : (Vertex.mk' dim : Vertex ℝ).makeStartOrEnd a 4 = .ok v)
    (hw : (Vertex.mk' dim : Vertex ℝ).makeStartOrEnd b 4 = .ok w) (o o' : LinOpt 5 ℝ) (hh : LinHistory 5 dim solve (some ⟨[v, w], [T], d⟩) o)
    (hu : (∃ values, o.setFreeConstraints values = .ok o') ∨ o.solveLinear solve = .ok o') (tr : Trajectory ℝ) (htr : o'.getTrajectory = .ok tr) :
    ∃ s, tr.segments = [s] ∧ s.time = T ∧ 0 < T ∧ ∀ k t, segDeriv s k t = List.zipWith (fun x y => derivAt (legPoly x y T) k t) a b := by
  obtain ⟨la, wa, ca⟩ := rest_constraints dim a v hv
  obtain ⟨lb, wb, cb⟩ := rest_constraints dim b w hw
  have hi := (inv_history dim solve _ o hh).2 _ rfl
  obtain ⟨free, _, _, hl, hlen, hs⟩ := solved_spec dim _ solve o o' hi hu
  obtain ⟨e1, e2, hm⟩ := C23_constraints _ o o' hh (by
    intro x hx
    simp only [List.mem_cons, List.not_mem_nil, or_false] at hx
    rcases hx with rfl | rfl
    · exact wa
    · exact wb) hu tr htr
  have es := setSegments_segments _ _ htr
  have e2 := e2 hd
  obtain ⟨s, hs1⟩ : ∃ s, tr.segments = [s] := by
    match h : tr.segments, e1 with
    | [s], _ => exact ⟨s, rfl⟩
  have hsT : s.time = T := by
    rw [hs1] at e2
    simpa using e2
  obtain ⟨sh, _, _⟩ := hs 0 s (by rw [← es, hs1]; rfl)
  obtain ⟨_, heps, _⟩ := hi.segment 0 T rfl
  have hT : 0 < T := lt_of_lt_of_le dblEps_pos heps
  refine ⟨s, hs1, hsT, hT, fun k t => ?_⟩
  have hstart : ∀ k < 5, segDeriv s k 0 = if k = 0 then a else List.replicate dim 0 := fun k hk =>
    (hm 0 s (by rw [hs1]; rfl) k _ hk).1 v rfl (ca k hk)
  have hend : ∀ k < 5, segDeriv s k T = if k = 0 then b else List.replicate dim 0 := fun k hk => by
    rw [← hsT]
    exact (hm 0 s (by rw [hs1]; rfl) k _ hk).2 w rfl (cb k hk)
  apply List.ext_getElem
  · simp [segDeriv, sh.2.1, la, lb]
  intro i h1 h2
  have hi1 : i < s.polys.length := by simpa [segDeriv] using h1
  have hi2 : i < dim := by rw [← sh.2.1]; exact hi1
  have get : ∀ k t, (segDeriv s k t)[i]? = some (derivAt s.polys[i] k t) := by
    intro k t
    simp [segDeriv, hi1]
  simp only [segDeriv, List.getElem_map, List.getElem_zipWith]
  refine derivAt_unique (h := 5) _ _ T hT.ne' (le_of_eq (sh.2.2 _ (List.getElem_mem hi1))) (by simp [legPoly]) (fun k hk => ?_) (fun k hk => ?_) k t
  · have := get k 0
    rw [hstart k hk] at this
    rw [legPoly_start _ _ _ k hk]
    by_cases h0 : k = 0
    · rw [if_pos h0, List.getElem?_eq_getElem (by omega)] at this
      rw [if_pos h0]
      exact (Option.some.inj this).symm
    · rw [if_neg h0, List.getElem?_eq_getElem (by simpa using hi2)] at this
      rw [if_neg h0]
      simpa using (Option.some.inj this).symm
  · have := get k T
    rw [hend k hk] at this
    rw [legPoly_end _ _ _ hT.ne' k hk]
    by_cases h0 : k = 0
    · rw [if_pos h0, List.getElem?_eq_getElem (by omega)] at this
      rw [if_pos h0]
      exact (Option.some.inj this).symm
    · rw [if_neg h0, List.getElem?_eq_getElem (by simpa using hi2)] at this
      rw [if_neg h0]
      simpa using (Option.some.inj this).symm

/-- C171: between two vertices made by `makeStartOrEnd` the trajectory is one segment, in which every component follows the same course from start to goal; it depends
neither on the derivative optimised nor on the solver. -/
theorem C171_course (hd : 0 < dim) (a b : List ℝ) (v w : Vertex ℝ) (T : ℝ) (d : Int) (hv : (Vertex.mk' dim : Vertex ℝ).makeStartOrEnd a 4 = .ok v)
    (hw : (Vertex.mk' dim : Vertex ℝ).makeStartOrEnd b 4 = .ok w) (o o' : LinOpt 5 ℝ) (hh : LinHistory 5 dim solve (some ⟨[v, w], [T], d⟩) o)
    (hu : (∃ values, o.setFreeConstraints values = .ok o') ∨ o.solveLinear solve = .ok o') (tr : Trajectory ℝ) (htr : o'.getTrajectory = .ok tr) :
    ∃ s, tr.segments = [s] ∧ s.time = T ∧ ∀ t,
      segDeriv s 0 t = List.zipWith (fun x y => x + (y - x) * restProgress (t / T)) a b ∧
      segDeriv s 1 t = List.zipWith (fun x y => (y - x) * (restSpeed (t / T) / T)) a b ∧
      segDeriv s 2 t = List.zipWith (fun x y => (y - x) * (restAcceleration (t / T) / T ^ 2)) a b := by
  obtain ⟨s, h1, h2, h3, h4⟩ := leg_segment hd a b v w T d hv hw o o' hh hu tr htr
  refine ⟨s, h1, h2, fun t => ?_⟩
  rw [h4, h4, h4]
  simp only [legPoly_position _ _ _ _ h3.ne', legPoly_velocity _ _ _ _ h3.ne', legPoly_acceleration _ _ _ _ h3.ne']
  exact ⟨trivial, trivial, trivial⟩

end

/-- C171: the progress grows from 0 to 1, without a stop and without passing the goal, and is symmetric. -/
theorem C171_progress : restProgress 0 = 0 ∧ restProgress 1 = 1 ∧ StrictMonoOn restProgress (Set.Icc 0 1) ∧ ∀ σ, restProgress (1 - σ) = 1 - restProgress σ := by
  have hder : ∀ σ, HasDerivAt restProgress (restSpeed σ) σ := by
    intro σ
    have h := (((((hasDerivAt_pow 5 σ).const_mul (126 : ℝ)).sub ((hasDerivAt_pow 6 σ).const_mul (420 : ℝ))).add ((hasDerivAt_pow 7 σ).const_mul (540 : ℝ))).sub
      ((hasDerivAt_pow 8 σ).const_mul (315 : ℝ))).add ((hasDerivAt_pow 9 σ).const_mul (70 : ℝ))
    refine h.congr_deriv ?_
    unfold restSpeed
    norm_num
    ring
  refine ⟨by norm_num [restProgress], by norm_num [restProgress], ?_, fun σ => by unfold restProgress; ring⟩
  refine strictMonoOn_of_deriv_pos (convex_Icc 0 1) (fun σ _ => (hder σ).continuousAt.continuousWithinAt) fun σ hσ => ?_
  rw [interior_Icc] at hσ
  rw [(hder σ).deriv]
  unfold restSpeed
  have := mul_pos hσ.1 (sub_pos.mpr hσ.2)
  positivity

theorem restSpeed_le (σ : ℝ) (h0 : 0 ≤ σ) (h1 : σ ≤ 1) : 0 ≤ restSpeed σ ∧ restSpeed σ ≤ 315 / 128 := by
  have a := mul_nonneg h0 (sub_nonneg.mpr h1)
  have b : σ * (1 - σ) ≤ 1 / 4 := by nlinarith [sq_nonneg (2 * σ - 1)]
  have c := pow_le_pow_left₀ a b 4
  unfold restSpeed
  refine ⟨by positivity, ?_⟩
  norm_num at c
  linarith

theorem restAcceleration_sq_le (σ : ℝ) (h0 : 0 ≤ σ) (h1 : σ ≤ 1) : restAcceleration σ ^ 2 ≤ 2520 ^ 2 * (729 / 52706752) := by
  have a := mul_nonneg h0 (sub_nonneg.mpr h1)
  set u := σ * (1 - σ) with hu
  have e : restAcceleration σ ^ 2 = 2520 ^ 2 * (u ^ 6 * (1 - 4 * u)) := by
    unfold restAcceleration
    rw [← hu, show (1 - 4 * u) = (1 - 2 * σ) ^ 2 by rw [hu]; ring]
    ring
  rw [e]
  refine mul_le_mul_of_nonneg_left ?_ (by norm_num)
  have f : 729 / 52706752 - u ^ 6 * (1 - 4 * u) =
      (u - 3 / 14) ^ 2 * (4 * u ^ 5 + 5 / 7 * u ^ 4 + 6 / 49 * u ^ 3 + 27 / 1372 * u ^ 2 + 27 / 9604 * u + 81 / 268912) := by ring
  have : 0 ≤ (u - 3 / 14) ^ 2 * (4 * u ^ 5 + 5 / 7 * u ^ 4 + 6 / 49 * u ^ 3 + 27 / 1372 * u ^ 2 + 27 / 9604 * u + 81 / 268912) := by positivity
  linarith

theorem restAcceleration_le (σ : ℝ) (h0 : 0 ≤ σ) (h1 : σ ≤ 1) : |restAcceleration σ| ≤ 1215 / (49 * Real.sqrt 7) := by
  refine abs_le_of_sq_le_sq ?_ (by positivity)
  rw [div_pow, mul_pow, Real.sq_sqrt (by norm_num)]
  refine (restAcceleration_sq_le σ h0 h1).trans (le_of_eq (by norm_num))

theorem restAcceleration_max : ∃ σ, 0 ≤ σ ∧ σ ≤ 1 ∧ |restAcceleration σ| = 1215 / (49 * Real.sqrt 7) := by
  have h7 : Real.sqrt 7 ^ 2 = 7 := Real.sq_sqrt (by norm_num)
  have hp : 0 < Real.sqrt 7 := Real.sqrt_pos.mpr (by norm_num)
  have h1 : 1 < Real.sqrt 7 := by rw [Real.lt_sqrt (by norm_num)]; norm_num
  refine ⟨1 / 2 - 1 / (2 * Real.sqrt 7), ?_, ?_, ?_⟩
  · rw [sub_nonneg, div_le_div_iff₀ (by positivity) (by norm_num)]
    linarith
  · have : 0 < 1 / (2 * Real.sqrt 7) := by positivity
    linarith
  · have hu : (1 / 2 - 1 / (2 * Real.sqrt 7)) * (1 - (1 / 2 - 1 / (2 * Real.sqrt 7))) = 3 / 14 := by
      field_simp
      nlinarith
    unfold restAcceleration
    rw [hu, show 1 - 2 * (1 / 2 - 1 / (2 * Real.sqrt 7)) = 1 / Real.sqrt 7 by field_simp; ring, abs_of_pos (by positivity)]
    field_simp
    norm_num

theorem legLength_eq (a b : List ℝ) : legLength a b = distance a b := by
  unfold legLength euclid distance
  rw [List.map_zipWith]
  simp only [sub_sq_comm]

theorem rest_estimateSegmentTimes {dim : ℕ} (a b : List ℝ) (v w : Vertex ℝ) (hv : (Vertex.mk' dim : Vertex ℝ).makeStartOrEnd a 4 = .ok v)
    (hw : (Vertex.mk' dim : Vertex ℝ).makeStartOrEnd b 4 = .ok w) (vMax aMax : ℝ) (hV : 0 < vMax) (hA : 0 < aMax) :
    estimateSegmentTimes [v, w] vMax aMax = .ok [legLength a b / vMax + vMax / aMax] := by
  obtain ⟨la, wa, ca⟩ := rest_constraints dim a v hv
  obtain ⟨lb, wb, cb⟩ := rest_constraints dim b w hw
  have hr : AtRest v := ⟨_, ca 1 (by omega), by simp⟩
  unfold estimateSegmentTimes nfabianLoop
  rw [if_neg (by simp), nfabianTime_eq v w a b vMax aMax (ca 0 (by omega)) (cb 0 (by omega)) (by omega) hV hA]
  unfold estimate
  rw [if_pos (.inl hr), ← legLength_eq]
  simp [nfabianLoop, bind, Except.bind, pure, Except.pure]

theorem rest_estimate {dim : ℕ} (a b : List ℝ) (v w : Vertex ℝ) (T : ℝ) (hv : (Vertex.mk' dim : Vertex ℝ).makeStartOrEnd a 4 = .ok v)
    (hw : (Vertex.mk' dim : Vertex ℝ).makeStartOrEnd b 4 = .ok w) (vMax aMax : ℝ) (hV : 0 < vMax) (hA : 0 < aMax)
    (hT : estimateSegmentTimes [v, w] vMax aMax = .ok [T]) : T = legLength a b / vMax + vMax / aMax := by
  rw [rest_estimateSegmentTimes a b v w hv hw vMax aMax hV hA] at hT
  simpa using hT.symm

section
variable {dim : ℕ} {solve : LinSolver ℝ}

/-- C171: the leg keeps a speed limit exactly if its duration is at least 315/128 of the one at constant limit speed. -/
theorem C171_speed (hd : 0 < dim) (a b : List ℝ) (v w : Vertex ℝ) (T : ℝ) (d : Int) (hv : (Vertex.mk' dim : Vertex ℝ).makeStartOrEnd a 4 = .ok v)
    (hw : (Vertex.mk' dim : Vertex ℝ).makeStartOrEnd b 4 = .ok w) (o o' : LinOpt 5 ℝ) (hh : LinHistory 5 dim solve (some ⟨[v, w], [T], d⟩) o)
    (hu : (∃ values, o.setFreeConstraints values = .ok o') ∨ o.solveLinear solve = .ok o') (tr : Trajectory ℝ) (htr : o'.getTrajectory = .ok tr) (limit : ℝ) :
    (∀ s ∈ tr.segments, ∀ t ∈ Set.Icc 0 s.time, segMagnitude s 1 t ≤ limit) ↔ 315 / 128 * legLength a b ≤ limit * T := by
  obtain ⟨s, h1, h2, h3, h4⟩ := leg_segment hd a b v w T d hv hw o o' hh hu tr htr
  have hm : ∀ t, segMagnitude s 1 t = |restSpeed (t / T)| / T * legLength a b := by
    intro t
    unfold segMagnitude
    rw [h4]
    simp only [legPoly_velocity _ _ _ _ h3.ne']
    rw [euclid_scaled, abs_div, abs_of_pos h3]
  have hD : 0 ≤ legLength a b := Real.sqrt_nonneg _
  rw [h1]
  simp only [List.mem_singleton, forall_eq, h2, hm]
  constructor
  · intro h
    have := h (T / 2) ⟨by linarith, by linarith⟩
    rw [show T / 2 / T = 1 / 2 by field_simp, show restSpeed (1 / 2) = 315 / 128 by norm_num [restSpeed], abs_of_pos (by norm_num), div_mul_eq_mul_div,
      div_le_iff₀ h3] at this
    exact this
  · intro h t ht
    obtain ⟨r0, r1⟩ := restSpeed_le (t / T) (div_nonneg ht.1 h3.le) ((div_le_one h3).mpr ht.2)
    rw [abs_of_nonneg r0, div_mul_eq_mul_div, div_le_iff₀ h3]
    exact (mul_le_mul_of_nonneg_right r1 hD).trans h

/-- C171: the leg keeps a limit of the acceleration exactly if the limit times the squared duration is at least `1215 / (49 √7)`, about 9.37, times its length. -/
theorem C171_acceleration (hd : 0 < dim) (a b : List ℝ) (v w : Vertex ℝ) (T : ℝ) (d : Int) (hv : (Vertex.mk' dim : Vertex ℝ).makeStartOrEnd a 4 = .ok v)
    (hw : (Vertex.mk' dim : Vertex ℝ).makeStartOrEnd b 4 = .ok w) (o o' : LinOpt 5 ℝ) (hh : LinHistory 5 dim solve (some ⟨[v, w], [T], d⟩) o)
    (hu : (∃ values, o.setFreeConstraints values = .ok o') ∨ o.solveLinear solve = .ok o') (tr : Trajectory ℝ) (htr : o'.getTrajectory = .ok tr) (limit : ℝ) :
    (∀ s ∈ tr.segments, ∀ t ∈ Set.Icc 0 s.time, segMagnitude s 2 t ≤ limit) ↔ 1215 / (49 * Real.sqrt 7) * legLength a b ≤ limit * T ^ 2 := by
  obtain ⟨s, h1, h2, h3, h4⟩ := leg_segment hd a b v w T d hv hw o o' hh hu tr htr
  have hm : ∀ t, segMagnitude s 2 t = |restAcceleration (t / T)| / T ^ 2 * legLength a b := by
    intro t
    unfold segMagnitude
    rw [h4]
    simp only [legPoly_acceleration _ _ _ _ h3.ne']
    rw [euclid_scaled, abs_div, abs_of_pos (by positivity : 0 < T ^ 2)]
  have hD : 0 ≤ legLength a b := Real.sqrt_nonneg _
  have h3' : 0 < T ^ 2 := by positivity
  rw [h1]
  simp only [List.mem_singleton, forall_eq, h2, hm]
  constructor
  · intro h
    obtain ⟨σ, s0, s1, s2⟩ := restAcceleration_max
    have := h (σ * T) ⟨by positivity, by nlinarith⟩
    rw [mul_div_cancel_right₀ _ h3.ne', s2, div_mul_eq_mul_div, div_le_iff₀ h3'] at this
    exact this
  · intro h t ht
    have r1 := restAcceleration_le (t / T) (div_nonneg ht.1 h3.le) ((div_le_one h3).mpr ht.2)
    rw [div_mul_eq_mul_div, div_le_iff₀ h3']
    exact (mul_le_mul_of_nonneg_right r1 hD).trans h

/-- C171: with the duration estimated for the same speed limit the leg keeps it exactly if it is shorter than 128/187 of the square of the limit over the acceleration. -/
theorem C171_estimate (hd : 0 < dim) (a b : List ℝ) (v w : Vertex ℝ) (T : ℝ) (d : Int) (hv : (Vertex.mk' dim : Vertex ℝ).makeStartOrEnd a 4 = .ok v)
    (hw : (Vertex.mk' dim : Vertex ℝ).makeStartOrEnd b 4 = .ok w) (o o' : LinOpt 5 ℝ) (hh : LinHistory 5 dim solve (some ⟨[v, w], [T], d⟩) o)
    (hu : (∃ values, o.setFreeConstraints values = .ok o') ∨ o.solveLinear solve = .ok o') (tr : Trajectory ℝ) (htr : o'.getTrajectory = .ok tr) (vMax aMax : ℝ)
    (hV : 0 < vMax) (hA : 0 < aMax) (hT : estimateSegmentTimes [v, w] vMax aMax = .ok [T]) :
    (∀ s ∈ tr.segments, ∀ t ∈ Set.Icc 0 s.time, segMagnitude s 1 t ≤ vMax) ↔ legLength a b ≤ 128 / 187 * (vMax ^ 2 / aMax) := by
  rw [C171_speed hd a b v w T d hv hw o o' hh hu tr htr vMax, rest_estimate a b v w T hv hw vMax aMax hV hA hT, mul_add, mul_div_cancel₀ _ hV.ne', ← mul_div_assoc, ← sq]
  constructor <;> intro h <;> linarith

/-- C171: every such leg is solved. -/
theorem C171_solved (solve : LinSolver ℝ) (a b : List ℝ) (ha : a.length = dim) (hb : b.length = dim) (T : ℝ) (hT : 1 / 2 ^ 52 ≤ T) (d : Int) (h0 : 0 ≤ d) (h5 : d < 5) :
    ∃ (v w : Vertex ℝ) (o o' : LinOpt 5 ℝ) (tr : Trajectory ℝ), (Vertex.mk' dim : Vertex ℝ).makeStartOrEnd a 4 = .ok v ∧
      (Vertex.mk' dim : Vertex ℝ).makeStartOrEnd b 4 = .ok w ∧ LinHistory 5 dim solve (some ⟨[v, w], [T], d⟩) o ∧ o.solveLinear solve = .ok o' ∧ o'.getTrajectory = .ok tr := by
  obtain ⟨v, v1, v2, v3, -⟩ := makeStartOrEnd_ok (Vertex.mk' dim : Vertex ℝ) a 4 (by simp [WellFormed, Vertex.mk']) (by simpa [Vertex.mk'] using ha)
  obtain ⟨w, w1, w2, w3, -⟩ := makeStartOrEnd_ok (Vertex.mk' dim : Vertex ℝ) b 4 (by simp [WellFormed, Vertex.mk']) (by simpa [Vertex.mk'] using hb)
  have hw : ∀ x ∈ [v, w], WellFormed x ∧ x.D = dim := by
    intro x hx
    simp only [List.mem_cons, List.not_mem_nil, or_false] at hx
    rcases hx with rfl | rfl
    · exact ⟨v3, v2⟩
    · exact ⟨w3, w2⟩
  obtain ⟨o, o', tr, e1, e2, e3⟩ := C28_solves (solve := solve) (h := 5) (dim := dim) ⟨[v, w], [T], d⟩ (by omega) (fun x hx => (hw x hx).1)
    ⟨h0, h5, rfl, fun x hx k c _ hc => by
      have hx := hw x hx
      rw [← hx.2]
      exact hx.1.2 _ ((IntMap.find_some_iff _ hx.1.1 k c).mp hc), by simpa using hT⟩ (by simp)
  exact ⟨v, w, o, o', tr, v1, w1, e1, e2, e3⟩

end

/-- The leg of the test `TwoVerticesSetup`, 5 m in 5 s: it keeps a limit of 5/2 m/s, but not the 2 m/s the test chooses the duration for. -/
example (solve : LinSolver ℝ) : ∃ (v w : Vertex ℝ) (o o' : LinOpt 5 ℝ) (tr : Trajectory ℝ), LinHistory 5 1 solve (some ⟨[v, w], [5], 4⟩) o ∧
    o.solveLinear solve = .ok o' ∧ o'.getTrajectory = .ok tr ∧ (∀ s ∈ tr.segments, ∀ t ∈ Set.Icc 0 s.time, segMagnitude s 1 t ≤ 5 / 2) ∧
    ¬ (∀ s ∈ tr.segments, ∀ t ∈ Set.Icc 0 s.time, segMagnitude s 1 t ≤ 2) := by
  obtain ⟨v, w, o, o', tr, hv, hw, hh, hs, htr⟩ := C171_solved (dim := 1) solve [0] [5] rfl rfl 5 (by norm_num) 4 (by norm_num) (by norm_num)
  have hl : legLength [0] [5] = 5 := by
    simp [legLength, euclid]
  refine ⟨v, w, o, o', tr, hh, hs, htr, ?_, ?_⟩
  · rw [C171_speed (by norm_num) [0] [5] v w 5 4 hv hw o o' hh (.inr hs) tr htr, hl]
    norm_num
  · rw [C171_speed (by norm_num) [0] [5] v w 5 4 hv hw o o' hh (.inr hs) tr htr, hl]
    norm_num

/-- A leg of 100 m with the duration estimated for 10 m/s and 5 m/s²: it is flown faster than 10 m/s. -/
example (solve : LinSolver ℝ) : ∃ (v w : Vertex ℝ) (o o' : LinOpt 5 ℝ) (tr : Trajectory ℝ), estimateSegmentTimes [v, w] 10 5 = .ok [12] ∧
    LinHistory 5 2 solve (some ⟨[v, w], [12], 4⟩) o ∧ o.solveLinear solve = .ok o' ∧ o'.getTrajectory = .ok tr ∧
    ¬ (∀ s ∈ tr.segments, ∀ t ∈ Set.Icc 0 s.time, segMagnitude s 1 t ≤ 10) := by
  obtain ⟨v, w, o, o', tr, hv, hw, hh, hs, htr⟩ := C171_solved (dim := 2) solve [0, 0] [60, 80] rfl rfl 12 (by norm_num) 4 (by norm_num) (by norm_num)
  have hl : legLength [0, 0] [60, 80] = 100 := by
    rw [legLength, euclid, show (100 : ℝ) = Real.sqrt (100 ^ 2) from (Real.sqrt_sq (by norm_num)).symm]
    norm_num
  have he : estimateSegmentTimes [v, w] 10 5 = .ok [12] := by
    rw [rest_estimateSegmentTimes [0, 0] [60, 80] v w hv hw 10 5 (by norm_num) (by norm_num), hl]
    norm_num
  refine ⟨v, w, o, o', tr, he, hh, hs, htr, ?_⟩
  rw [C171_estimate (by norm_num) [0, 0] [60, 80] v w 12 4 hv hw o o' hh (.inr hs) tr htr 10 5 (by norm_num) (by norm_num) he, hl]
  norm_num

end Verif.Properties
