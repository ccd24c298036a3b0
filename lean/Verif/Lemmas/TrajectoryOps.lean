import Mathlib.Analysis.Calculus.Deriv.Add
import Mathlib.Analysis.Calculus.Deriv.Comp
import Mathlib.Analysis.Calculus.Deriv.Shift
import Verif.Lemmas.Extremum
import Verif.Lemmas.Trajectory

set_option linter.unusedSectionVars false

namespace Verif

open Spec

variable {K : Type*}

section Ring
variable [CommRing K]

theorem addTimes_ok (D N : ℕ) (segs : List (Segment K)) (acc m : K) (h : Trajectory.addTimes D N segs acc = .ok m) :
    m = acc + duration segs ∧ ∀ s ∈ segs, s.polys.length = D ∧ s.N = N := by
  induction segs generalizing acc with
  | nil => simp [Trajectory.addTimes] at h; simp [h]
  | cons s ss ih =>
    unfold Trajectory.addTimes at h
    split at h
    · cases h
    · split at h
      · cases h
      · rename_i h1 h2
        push Not at h1 h2
        obtain ⟨h3, h4⟩ := ih _ h
        refine ⟨by rw [h3, duration_cons, add_assoc], ?_⟩
        intro x hx
        rcases List.mem_cons.mp hx with rfl | hx
        · exact ⟨h1, h2⟩
        · exact h4 x hx

theorem addTimes_of (D N : ℕ) (segs : List (Segment K)) (acc : K) (h : ∀ s ∈ segs, s.polys.length = D ∧ s.N = N) :
    Trajectory.addTimes D N segs acc = .ok (acc + duration segs) := by
  induction segs generalizing acc with
  | nil => simp [Trajectory.addTimes]
  | cons s ss ih =>
    have hs := h s (by simp)
    unfold Trajectory.addTimes
    rw [if_neg (by simp [Segment.D, hs.1]), if_neg (by simp [hs.2]), ih _ (fun x hx => h x (by simp [hx])), duration_cons, add_assoc]

theorem addSegments_ok (tr tr' : Trajectory K) (segs : List (Segment K)) (h : tr.addSegments segs = .ok tr') :
    tr' = { tr with maxTime := tr.maxTime + duration segs, segments := tr.segments ++ segs } ∧
    ∀ s ∈ segs, s.polys.length = tr.D ∧ s.N = tr.N := by
  unfold Trajectory.addSegments at h
  cases hm : Trajectory.addTimes tr.D tr.N segs tr.maxTime with
  | error e => rw [hm] at h; cases h
  | ok m =>
    rw [hm] at h
    obtain ⟨h1, h2⟩ := addTimes_ok _ _ _ _ _ hm
    cases h
    exact ⟨by rw [h1], h2⟩

theorem addSegments_of (tr : Trajectory K) (segs : List (Segment K))
    (h : ∀ s ∈ segs, s.polys.length = tr.D ∧ s.N = tr.N) :
    tr.addSegments segs = .ok { tr with maxTime := tr.maxTime + duration segs, segments := tr.segments ++ segs } := by
  unfold Trajectory.addSegments
  rw [addTimes_of _ _ _ _ h]; rfl

theorem consistent_addSegments (tr tr' : Trajectory K) (segs : List (Segment K)) (hc : Consistent tr)
    (h : tr.addSegments segs = .ok tr') : Consistent tr' := by
  obtain ⟨h1, h2⟩ := addSegments_ok tr tr' segs h
  subst h1
  refine ⟨by simp [hc.1], ?_⟩
  intro s hs
  rcases List.mem_append.mp hs with hs | hs
  · exact hc.2 s hs
  · exact h2 s hs

theorem consistent_setSegments (tr' : Trajectory K) (segs : List (Segment K))
    (h : Trajectory.setSegments segs = .ok tr') : Consistent tr' ∧ tr'.segments = segs := by
  unfold Trajectory.setSegments at h
  split at h
  · cases h
  · rename_i s ss
    refine ⟨consistent_addSegments _ _ _ ⟨by simp, by simp⟩ h, ?_⟩
    rw [(addSegments_ok _ _ _ h).1]; simp

theorem consistent_empty : Consistent (Trajectory.empty : Trajectory K) := ⟨by simp [Trajectory.empty], by simp [Trajectory.empty]⟩

theorem consistent_addTrajectoriesLoop (D N : ℕ) (ts : List (Trajectory K)) (m : Trajectory K) (b : Bool)
    (m' : Trajectory K) (hc : Consistent m) (h : Trajectory.addTrajectoriesLoop D N ts m = .ok (b, m')) : Consistent m' := by
  induction ts generalizing m with
  | nil => cases h; exact hc
  | cons t ts ih =>
    unfold Trajectory.addTrajectoriesLoop at h
    split at h
    · cases h; exact hc
    · cases hm : m.addSegments t.segments with
      | error e => rw [hm] at h; cases h
      | ok x => rw [hm] at h; exact ih x (consistent_addSegments _ _ _ hc hm) h

theorem offsetSegment_times (s s' : Segment K) (r : List K) (h : s.offsetSegment r = some s') :
    s'.time = s.time ∧ s'.N = s.N ∧ s'.polys.length = s.polys.length := by
  unfold Segment.offsetSegment at h
  split at h
  · cases h
  · cases h; simp

theorem offsetLoop_fields (r : List K) (segs : List (Segment K)) :
    (Trajectory.offsetLoop r segs).2.map (fun s => (s.time, s.N, s.polys.length)) =
      segs.map (fun s => (s.time, s.N, s.polys.length)) := by
  induction segs with
  | nil => rfl
  | cons s ss ih =>
    unfold Trajectory.offsetLoop
    cases h : s.offsetSegment r with
    | none => rfl
    | some s' =>
      obtain ⟨h1, h2, h3⟩ := offsetSegment_times s s' r h
      simp only [List.map_cons, ih, h1, h2, h3]

theorem consistent_of_fields (D N : ℕ) (m : K) (segs segs' : List (Segment K))
    (h : segs'.map (fun s => (s.time, s.N, s.polys.length)) = segs.map (fun s => (s.time, s.N, s.polys.length)))
    (hc : Consistent (⟨D, N, m, segs⟩ : Trajectory K)) : Consistent (⟨D, N, m, segs'⟩ : Trajectory K) := by
  have ht : segs'.map (·.time) = segs.map (·.time) := by
    have := congrArg (List.map Prod.fst) h
    simpa [List.map_map, Function.comp_def] using this
  refine ⟨by rw [hc.1]; simp only [duration, ht], ?_⟩
  intro s hs
  have : (s.time, s.N, s.polys.length) ∈ segs.map (fun s => (s.time, s.N, s.polys.length)) := by
    rw [← h]; exact List.mem_map_of_mem hs
  obtain ⟨x, hx, he⟩ := List.mem_map.mp this
  simp only [Prod.mk.injEq] at he
  have := hc.2 x hx
  exact ⟨by rw [← he.2.2]; exact this.1, by rw [← he.2.1]; exact this.2⟩

theorem consistent_offset (tr : Trajectory K) (r : List K) (hc : Consistent tr) : Consistent (tr.offsetTrajectory r).2 := by
  unfold Trajectory.offsetTrajectory
  split
  · exact hc
  · exact consistent_of_fields _ _ _ _ _ (offsetLoop_fields r tr.segments) hc

end Ring

section Field
variable [Field K] [LinearOrder K] [IsStrictOrderedRing K]

theorem duration_scale (segs : List (Segment K)) (c i : K) : duration (segs.map fun s => s.scale c i) = c * duration segs := by
  induction segs with
  | nil => simp
  | cons s l ih => rw [List.map_cons, duration_cons, ih, duration_cons, Segment.scale]; ring

theorem consistent_scaleAll (tr : Trajectory K) (c : K) (hc : Consistent tr) : Consistent (tr.scaleAll c) := by
  refine ⟨by simp [Trajectory.scaleAll, foldl_time], ?_⟩
  intro s hs
  simp only [Trajectory.scaleAll, List.mem_map] at hs
  obtain ⟨x, hx, rfl⟩ := hs
  simpa [Segment.scale, Trajectory.scaleAll] using hc.2 x hx

theorem scaleAll_maxTime (tr : Trajectory K) (c : K) (hc : Consistent tr) : (tr.scaleAll c).maxTime = c * tr.maxTime := by
  rw [(consistent_scaleAll tr c hc).1, hc.1]
  exact duration_scale _ _ _

theorem findSegment_scale (t c i : K) (hc : 0 < c) (segs : List (Segment K)) (acc : K) (n : ℕ) :
    Trajectory.findSegment (c * t) (segs.map fun s => s.scale c i) (c * acc) n =
      (c * (Trajectory.findSegment t segs acc n).1, (Trajectory.findSegment t segs acc n).2) := by
  induction segs generalizing acc n with
  | nil => rfl
  | cons s l ih =>
    have e : c * acc + (s.scale c i).time = c * (acc + s.time) := by simp [Segment.scale]; ring
    simp only [List.map_cons, Trajectory.findSegment, e]
    by_cases h : acc + s.time > t
    · rw [if_pos h, if_pos (mul_lt_mul_of_pos_left h hc)]
    · rw [if_neg h, if_neg (by
        intro hlt; exact h (lt_of_mul_lt_mul_left hlt hc.le)), ih]

theorem segDeriv_scale (s : Segment K) (c τ : K) (hc : c ≠ 0) (k : ℕ) :
    segDeriv (s.scale c (1 / c)) k (c * τ) = (segDeriv s k τ).map (· / c ^ k) := by
  simp only [segDeriv, Segment.scale, List.map_map]
  apply List.map_congr_left
  intro p _
  simp only [Function.comp_apply]
  rw [derivAt_scaleInTime]
  have : 1 / c * (c * τ) = τ := by field_simp
  rw [this]
  simp [div_eq_mul_inv, mul_comm]

theorem evaluate_scaleAll (tr : Trajectory K) (c t : K) (k : ℕ) (hc : 0 < c) (v : List K)
    (hR : ∀ s ∈ tr.segments, ∀ p ∈ s.polys, p.length ≤ 22) (h : tr.evaluate t k = .ok v) :
    (tr.scaleAll c).evaluate (c * t) k = .ok (v.map (· / c ^ k)) := by
  unfold Trajectory.evaluate at h ⊢
  have hf := findSegment_scale t c (1 / c) hc tr.segments 0 0
  rw [mul_zero] at hf
  simp only [Trajectory.scaleAll, List.length_map] at *
  rw [hf]
  dsimp only at h ⊢
  set r := Trajectory.findSegment t tr.segments 0 0 with hr
  by_cases hlt : t > r.1
  · rw [if_pos hlt] at h
    rw [if_pos (mul_lt_mul_of_pos_left hlt hc)]
    cases h; simp
  · rw [if_neg hlt] at h
    rw [if_neg (fun hh => hlt (lt_of_mul_lt_mul_left hh hc.le))]
    set i := if tr.segments.length ≤ r.2 then tr.segments.length - 1 else r.2 with hi
    cases hs : tr.segments[i]? with
    | none => simp [at?, hs, bind, Except.bind] at h
    | some s =>
      have hmem := List.mem_of_getElem? hs
      simp only [at?, hs, bind, Except.bind, List.getElem?_map, Option.map_some] at h ⊢
      rw [segment_evaluate_eq s _ k (hR s hmem)] at h
      cases h
      rw [segment_evaluate_eq _ _ k]
      · have e : c * t - (c * r.1 - (s.scale c (1 / c)).time) = c * (t - (r.1 - s.time)) := by
          simp [Segment.scale]; ring
        rw [e, segDeriv_scale s c _ hc.ne' k]
      · intro p hp
        simp only [Segment.scale, List.mem_map] at hp
        obtain ⟨q, hq, rfl⟩ := hp
        simpa using hR s hmem q hq

end Field

end Verif
