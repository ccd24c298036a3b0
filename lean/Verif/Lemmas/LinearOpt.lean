import Verif.Lemmas.LinearOptReorder
import Verif.Spec.LinearOpt

/-!
# Invariant of the linear optimisation object
-/

set_option linter.unusedSectionVars false
set_option linter.unusedSimpArgs false

namespace Verif

open Spec Lemmas

namespace LinOpt
variable {K : Type*} [Field K] [LinearOrder K] [IsStrictOrderedRing K] {h : ℕ}

/-- Shape of a stored segment. -/
def SegShape (h dim : ℕ) (s : Segment K) : Prop := s.N = h + h ∧ s.polys.length = dim ∧ ∀ p ∈ s.polys, p.length = h + h

/-- The columns of the reordering matrix: fixed, then free constraints. -/
def cols (h dim n : ℕ) (vs : List (Vertex K)) : List (Constraint K) :=
  (constraintSets (constraintSeq h dim n vs)).1 ++ (constraintSets (constraintSeq h dim n vs)).2

/-- What holds of an object set up for problem `q` (with the vertices after filtering). -/
structure Inv (dim : ℕ) (q : Problem K) (o : LinOpt h K) : Prop where
  dimension : o.dimension = dim
  derivative : o.derivative = q.derivative
  range : 0 ≤ q.derivative ∧ q.derivative ≤ (h : Int) - 1
  times : o.times = q.times
  length : q.vertices.length = q.times.length + 1
  nSegments : o.nSegments = q.times.length
  vertices : q.vertices.mapM (filterVertex h dim) = .ok o.vertices
  matrices : ∃ ms, segmentMatrices q.derivative.toNat q.times = .ok ms ∧ o.costs = ms.map (·.1) ∧ o.invMaps = ms.map (·.2)
  segLength : o.segments.length = q.times.length
  shape : ∀ s ∈ o.segments, SegShape h dim s
  nAll : o.nAll = (constraintSeq h dim q.times.length o.vertices).length
  nFixed : o.nFixed = (constraintSets (constraintSeq h dim q.times.length o.vertices)).1.length
  nFree : o.nFree = (constraintSets (constraintSeq h dim q.times.length o.vertices)).2.length
  reorder : o.reorder = (constraintSeq h dim q.times.length o.vertices).map fun c => reorderRow (cols h dim q.times.length o.vertices) c.2
  fixedCompact : (List.range dim).mapM (fun d => (constraintSets (constraintSeq h dim q.times.length o.vertices)).1.mapM
    fun c => at? c.value d) = .ok o.fixedCompact

/-! ### Segments from compact constraints -/

/-- The polynomial computed for dimension `d` of segment `i`. -/
def polyOf (o : LinOpt h K) (d i : ℕ) : List K :=
  List.ofFn ((o.invMaps.getD i 0).mulVec fun j =>
    dot (o.reorder.getD (i * (h + h) + j) []) (o.fixedCompact.getD d [] ++ o.freeCompact.getD d []))

theorem at?_ok {α : Type*} {l : List α} {i : ℕ} {a : α} (h : at? l i = .ok a) : l[i]? = some a := by
  unfold at? at h
  split at h
  · rename_i b hb; rw [hb, Except.ok.inj h]
  · cases h

theorem at?_of_some {α : Type*} {l : List α} {i : ℕ} {a : α} (h : l[i]? = some a) : at? l i = .ok a := by
  unfold at?; rw [h]

theorem updateSegment_ok (o : LinOpt h K) (d : ℕ) (dAll : List K) (i : ℕ) (s s' : Segment K)
    (hu : updateSegment o d dAll i s = .ok s') :
    d < s.polys.length ∧ o.times[i]? = some s'.time ∧ s'.N = s.N ∧ s'.polys = s.polys.set d (List.ofFn ((o.invMaps.getD i 0).mulVec fun j =>
      dot (o.reorder.getD (i * (h + h) + j) []) dAll)) := by
  unfold updateSegment segmentDerivatives at hu
  simp only [bind, Except.bind, pure, Except.pure] at hu
  split at hu
  · cases hu
  rename_i newD hD
  split at hD
  · cases hD
  have eD := Except.ok.inj hD
  cases hA : at? o.invMaps i with
  | error e => rw [hA] at hu; cases hu
  | ok Ai =>
    rw [hA] at hu
    simp only at hu
    cases ht : at? o.times i with
    | error e => rw [ht] at hu; cases hu
    | ok t =>
      rw [ht] at hu
      simp only at hu
      split at hu
      · rename_i hd
        have e := Except.ok.inj hu
        subst e
        refine ⟨hd, at?_ok ht, rfl, ?_⟩
        simp only
        rw [← eD, List.getD_eq_getElem?_getD (l := o.invMaps), at?_ok hA]
        rfl
      · cases hu

/-- State of the segments after the first `m` dimensions have been processed. -/
theorem update_loop (o : LinOpt h K) (dim : ℕ) (hseg : o.segments.length = o.nSegments) (hshape : ∀ s ∈ o.segments, SegShape h dim s)
    (m : ℕ) (segs : List (Segment K)) (hm : (List.range m).foldlM (updateDimension o) o.segments = .ok segs) :
    segs.length = o.nSegments ∧
    (∀ d < m, (o.fixedCompact.getD d []).length + (o.freeCompact.getD d []).length = o.nFixed + o.nFree) ∧
    ∀ (i : ℕ) (s : Segment K), segs[i]? = some s → SegShape h dim s ∧ (0 < m → o.times[i]? = some s.time) ∧
      ∀ d < m, s.polys[d]? = some (polyOf o d i) := by
  induction m generalizing segs with
  | zero =>
    simp [pure, Except.pure] at hm
    subst hm
    exact ⟨hseg, fun d hd => by omega, fun i s hs => ⟨hshape s (List.mem_of_getElem? hs), fun h0 => absurd h0 (by omega), fun d hd => by omega⟩⟩
  | succ m ih =>
    rw [List.range_succ, List.foldlM_append] at hm
    simp only [bind, Except.bind] at hm
    cases hp : (List.range m).foldlM (updateDimension o) o.segments with
    | error e => rw [hp] at hm; cases hm
    | ok segs0 =>
      rw [hp] at hm
      simp only [List.foldlM_cons, List.foldlM_nil, bind, Except.bind, pure, Except.pure] at hm
      obtain ⟨hl, ihl, ih⟩ := ih segs0 hp
      cases hu : updateDimension o segs0 m with
      | error e => rw [hu] at hm; cases hm
      | ok segs1 =>
        rw [hu] at hm
        have e := Except.ok.inj hm
        subst e
        unfold updateDimension at hu
        simp only [bind, Except.bind] at hu
        cases hf : at? o.fixedCompact m with
        | error e => rw [hf] at hu; cases hu
        | ok df =>
          rw [hf] at hu
          simp only at hu
          cases hg : at? o.freeCompact m with
          | error e => rw [hg] at hu; cases hu
          | ok dp =>
            rw [hg] at hu
            simp only at hu
            split at hu
            · cases hu
            rename_i hlen2
            have hF := mapM_forall2 _ _ _ hu
            have hlen : segs1.length = o.nSegments := by rw [← hF.length_eq]; simp
            refine ⟨hlen, fun d hd => ?_, fun i s' hs' => ?_⟩
            · rcases Nat.lt_succ_iff_lt_or_eq.mp hd with hlt | heq
              · exact ihl d hlt
              · subst heq
                rw [List.getD_eq_getElem?_getD (l := o.fixedCompact), List.getD_eq_getElem?_getD (l := o.freeCompact), at?_ok hf, at?_ok hg]
                exact not_not.mp hlen2
            have hi : i < o.nSegments := by rw [← hlen]; exact (List.getElem?_eq_some_iff.mp hs').1
            have hr := List.forall₂_iff_get.mp hF |>.2 i (by simpa using hi) (by rw [hlen]; exact hi)
            simp only [List.get_eq_getElem, List.getElem_range] at hr
            obtain ⟨hi', es'⟩ := List.getElem?_eq_some_iff.mp hs'
            rw [es'] at hr
            have hi0 : i < segs0.length := by rw [hl]; exact hi
            rw [at?_of_some (List.getElem?_eq_getElem hi0)] at hr
            simp only at hr
            obtain ⟨hd, htm, hN, hpol⟩ := updateSegment_ok _ _ _ _ _ _ hr
            obtain ⟨⟨s1, s2, s3⟩, _, hprev⟩ := ih i _ (List.getElem?_eq_getElem hi0)
            refine ⟨⟨hN.trans s1, by rw [hpol, List.length_set, s2], ?_⟩, fun _ => htm, ?_⟩
            · intro p hp
              rw [hpol] at hp
              rcases List.mem_or_eq_of_mem_set hp with hp | hp
              · exact s3 p hp
              · rw [hp, List.length_ofFn]
            · intro d hd'
              rw [hpol]
              rcases Nat.lt_succ_iff_lt_or_eq.mp hd' with hlt | heq
              · rw [List.getElem?_set_ne (by omega)]
                exact hprev d hlt
              · subst heq
                rw [List.getElem?_set_self hd]
                unfold polyOf
                rw [List.getD_eq_getElem?_getD (l := o.fixedCompact), List.getD_eq_getElem?_getD (l := o.freeCompact), at?_ok hf, at?_ok hg]
                rfl

theorem updateSegments_spec (o o' : LinOpt h K) (dim : ℕ) (hdim : o.dimension = dim) (hseg : o.segments.length = o.nSegments)
    (hshape : ∀ s ∈ o.segments, SegShape h dim s) (hu : o.updateSegmentsFromCompactConstraints = .ok o') :
    ∃ segs, o' = { o with segments := segs } ∧ segs.length = o.nSegments ∧
      (∀ d < dim, (o.fixedCompact.getD d []).length + (o.freeCompact.getD d []).length = o.nFixed + o.nFree) ∧ ∀ (i : ℕ) (s : Segment K), segs[i]? = some s →
      SegShape h dim s ∧ (0 < dim → o.times[i]? = some s.time) ∧ s.polys = (List.range dim).map fun d => polyOf o d i := by
  unfold updateSegmentsFromCompactConstraints at hu
  simp only [bind, Except.bind, pure, Except.pure] at hu
  cases hp : (List.range o.dimension).foldlM (updateDimension o) o.segments with
  | error e => rw [hp] at hu; cases hu
  | ok segs =>
    rw [hp] at hu
    rw [hdim] at hp
    obtain ⟨hl, hl2, hs⟩ := update_loop o dim hseg hshape dim segs hp
    refine ⟨segs, (Except.ok.inj hu).symm, hl, hl2, fun i s hi => ?_⟩
    obtain ⟨h1, h2, h3⟩ := hs i s hi
    refine ⟨h1, h2, ?_⟩
    apply List.ext_getElem?
    intro d
    by_cases hd : d < dim
    · rw [h3 d hd, List.getElem?_map, List.getElem?_range hd]; rfl
    · rw [List.getElem?_eq_none (by rw [h1.2.1]; omega), List.getElem?_eq_none (by simp; omega)]

/-! ### The invariant along histories -/

theorem inv_updateSegments (dim : ℕ) (q : Problem K) (o o' : LinOpt h K) (free : List (List K)) (hi : Inv dim q o)
    (hu : LinOpt.updateSegmentsFromCompactConstraints { o with freeCompact := free } = .ok o') : Inv dim q o' := by
  obtain ⟨segs, e, hl, _, hs⟩ := updateSegments_spec { o with freeCompact := free } _ dim hi.dimension (hi.segLength.trans hi.nSegments.symm) hi.shape hu
  subst e
  exact ⟨hi.dimension, hi.derivative, hi.range, hi.times, hi.length, hi.nSegments, hi.vertices, hi.matrices,
    hl.trans hi.nSegments, fun s hs' => by obtain ⟨i, hi⟩ := List.mem_iff_getElem?.mp hs'; exact (hs i s hi).1,
    hi.nAll, hi.nFixed, hi.nFree, hi.reorder, hi.fixedCompact⟩

theorem inv_setFree (dim : ℕ) (q : Problem K) (o o' : LinOpt h K) (free : List (List K)) (hi : Inv dim q o)
    (hu : o.setFreeConstraints free = .ok o') : Inv dim q o' := by
  unfold setFreeConstraints at hu
  split at hu
  · cases hu
  split at hu
  · cases hu
  exact inv_updateSegments dim q o o' free hi hu

theorem solveLinear_ok (solve : LinSolver K) (o o' : LinOpt h K) (hu : o.solveLinear solve = .ok o') :
    ∃ free, LinOpt.updateSegmentsFromCompactConstraints { o with freeCompact := free } = .ok o' ∧
      ((o.nFree = 0 ∧ free = o.freeCompact) ∨ ∃ R, o.nFree ≠ 0 ∧ constructR o = .ok R ∧
        free = o.fixedCompact.map (solveDimension solve o R)) := by
  unfold solveLinear at hu
  split at hu
  · cases hu
  split at hu
  · rename_i h0
    exact ⟨o.freeCompact, hu, .inl ⟨h0, rfl⟩⟩
  · rename_i h0
    simp only [bind, Except.bind] at hu
    cases hR : constructR o with
    | error e => rw [hR] at hu; cases hu
    | ok R =>
      rw [hR] at hu
      exact ⟨_, hu, .inr ⟨R, h0, rfl, rfl⟩⟩

theorem inv_solve (dim : ℕ) (q : Problem K) (solve : LinSolver K) (o o' : LinOpt h K) (hi : Inv dim q o)
    (hu : o.solveLinear solve = .ok o') : Inv dim q o' := by
  obtain ⟨free, hu, _⟩ := solveLinear_ok solve o o' hu
  exact inv_updateSegments dim q o o' free hi hu

theorem updateSegmentTimes_ok (o o' : LinOpt h K) (ts : List K) (hu : o.updateSegmentTimes ts = .ok o') :
    ts.length = o.nSegments ∧ ∃ ms, segmentMatrices o.derivative.toNat ts = .ok ms ∧
      o' = { o with times := ts, costs := ms.map (·.1), invMaps := ms.map (·.2) } := by
  unfold updateSegmentTimes at hu
  split at hu
  · cases hu
  rename_i hl
  simp only [bind, Except.bind, pure, Except.pure] at hu
  cases hm : segmentMatrices (h := h) o.derivative.toNat ts with
  | error e => rw [hm] at hu; cases hu
  | ok ms =>
    rw [hm] at hu
    exact ⟨not_not.mp hl, ms, rfl, (Except.ok.inj hu).symm⟩

theorem inv_times (dim : ℕ) (q : Problem K) (o o' : LinOpt h K) (ts : List K) (hi : Inv dim q o)
    (hu : o.updateSegmentTimes ts = .ok o') : Inv dim { q with times := ts } o' := by
  obtain ⟨hl, ms, hm, e⟩ := updateSegmentTimes_ok o o' ts hu
  have hl' : ts.length = q.times.length := hl.trans hi.nSegments
  subst e
  rw [hi.derivative] at hm
  refine ⟨hi.dimension, hi.derivative, hi.range, rfl, ?_, hl.symm, hi.vertices, ⟨ms, hm, rfl, rfl⟩, ?_, hi.shape, ?_, ?_, ?_, ?_, ?_⟩
  · simp only [hl']; exact hi.length
  · simp only [hl']; exact hi.segLength
  · simp only [hl']; exact hi.nAll
  · simp only [hl']; exact hi.nFixed
  · simp only [hl']; exact hi.nFree
  · simp only [hl']; exact hi.reorder
  · simp only [hl']; exact hi.fixedCompact

/-- What every object satisfies. -/
def Shaped (dim : ℕ) (o : LinOpt h K) : Prop := o.dimension = dim ∧ ∀ s ∈ o.segments, SegShape h dim s

theorem setupFromVertices_ok (dim : ℕ) (q : Problem K) (o o' : LinOpt h K) (hs : Shaped dim o)
    (hu : o.setupFromVertices q.vertices q.times q.derivative = .ok o') : Inv dim q o' ∧ o'.freeCompact = o.freeCompact := by
  unfold setupFromVertices at hu
  split at hu
  · cases hu
  rename_i hr
  split at hu
  · cases hu
  rename_i h0
  split at hu
  · cases hu
  rename_i hl
  simp only [bind, Except.bind] at hu
  have hl' := not_not.mp hl
  have hn : q.vertices.length - 1 = q.times.length := by omega
  rw [hs.1] at hu
  cases hv : q.vertices.mapM (filterVertex h dim) with
  | error e => rw [hv] at hu; cases hu
  | ok vs' =>
    rw [hv] at hu
    simp only at hu
    split at hu
    · cases hu
    rename_i o1 ho1
    obtain ⟨ht, ms, hm, e1⟩ := updateSegmentTimes_ok _ _ _ ho1
    subst e1
    unfold setupConstraintReorderingMatrix at hu
    simp only [bind, Except.bind, pure, Except.pure] at hu
    split at hu
    · cases hu
    rename_i df hdf
    have e2 := Except.ok.inj hu
    subst e2
    simp only at hm
    refine ⟨⟨rfl, rfl, not_not.mp hr, rfl, hl', hn, hv, ⟨ms, hm, rfl, rfl⟩, ?_, ?_, ?_, ?_, ?_, ?_, ?_⟩, rfl⟩
    · simp only [List.length_append, List.length_take, List.length_replicate, hn]
      omega
    · intro s hs'
      rw [List.mem_append] at hs'
      rcases hs' with hs' | hs'
      · exact hs.2 s (List.mem_of_mem_take hs')
      · rw [(List.mem_replicate.mp hs').2]
        refine ⟨rfl, by simp [Segment.mk'], ?_⟩
        intro p hp
        rw [(List.mem_replicate.mp hp).2]
        simp
    · simp only [hn]
    · simp only [hn]
    · simp only [hn]
    · simp only [hn, cols]
    · simp only [hn] at hdf ⊢
      exact hdf

theorem inv_history (dim : ℕ) (solve : LinSolver K) (p : Option (Problem K)) (o : LinOpt h K) (hh : LinHistory h dim solve p o) :
    Shaped dim o ∧ ∀ q, p = some q → Inv dim q o := by
  induction hh with
  | new => exact ⟨⟨rfl, by simp [init]⟩, by simp⟩
  | setup q _ hu ih =>
    have := (setupFromVertices_ok dim q _ _ ih.1 hu).1
    exact ⟨⟨this.dimension, this.shape⟩, fun q' e => by rw [← Option.some.inj e]; exact this⟩
  | times ts _ hu ih =>
    have := inv_times dim _ _ _ ts (ih.2 _ rfl) hu
    exact ⟨⟨this.dimension, this.shape⟩, fun q' e => by rw [← Option.some.inj e]; exact this⟩
  | free values _ hu ih =>
    have := inv_setFree dim _ _ _ values (ih.2 _ rfl) hu
    exact ⟨⟨this.dimension, this.shape⟩, fun q' e => by rw [← Option.some.inj e]; exact this⟩
  | solve _ hu ih =>
    have := inv_solve dim _ solve _ _ (ih.2 _ rfl) hu
    exact ⟨⟨this.dimension, this.shape⟩, fun q' e => by rw [← Option.some.inj e]; exact this⟩

/-! ### Matrices of all segments -/

/-- The cost matrix of one segment: entry `(r, c)` for `r, c` at least the derivative. -/
noncomputable def costMatrix (h d : ℕ) (t : K) : SqMat h K := fun r c =>
  if d ≤ (r : ℕ) ∧ d ≤ (c : ℕ) then
    (baseEntry d r : K) * (baseEntry d c : K) * t ^ ((r : ℕ) - d + (c - d) + 1) * 2 / (((r : ℕ) - d + (c - d) + 1 : ℕ) : K)
  else 0

theorem computeQuadraticCostJacobian_ok (h d : ℕ) (t : K) (hd : d < h + h) (hN : h + h ≤ 22) :
    computeQuadraticCostJacobian h d t = .ok (costMatrix h d t) := by
  unfold computeQuadraticCostJacobian
  rw [if_neg (by omega), if_neg (by unfold kMaxConvolutionSize; omega)]
  congr 1
  funext r c
  unfold costMatrix
  have hr := r.2
  have hc := c.2
  by_cases hcase : d ≤ (r : ℕ) ∧ d ≤ (c : ℕ)
  · have e : (h + h - 1 - d) * 2 + 1 - (h + h - 1 - (r : ℕ)) - (h + h - 1 - (c : ℕ)) = (r : ℕ) - d + (c - d) + 1 := by omega
    simp only [e]
    rw [if_pos (by omega), if_pos hcase]
  · simp only
    rw [if_neg (by omega), if_neg hcase]

theorem segmentMatrices_one (h d : ℕ) (hh : 0 < h) (hd : d < h) (t : K) (x : SqMat h K × SqMat h K)
    (hx : (if 0 < t then do
      let Q ← computeQuadraticCostJacobian h d t
      let A ← setupMappingMatrix h t
      let Ai ← invertMappingMatrix A
      return (Q, Ai)
    else .error .check : Res (SqMat h K × SqMat h K)) = .ok x) :
    0 < t ∧ h + h ≤ 22 ∧ Poly.dblEps ≤ t ∧ x = (costMatrix h d t, (endpointMap h t)⁻¹) := by
  split at hx
  · rename_i ht
    have hN : h + h ≤ 22 := by
      by_contra hc
      unfold computeQuadraticCostJacobian at hx
      rw [if_neg (by omega), if_pos (by unfold kMaxConvolutionSize; omega)] at hx
      cases hx
    rw [computeQuadraticCostJacobian_ok h d t (by omega) hN] at hx
    rcases lt_or_ge t Poly.dblEps with hlt | hge
    · obtain ⟨A, hA, hAi⟩ := mapping_tiny h t hh hN (by rw [abs_of_pos ht]; exact hlt)
      rw [hA] at hx
      simp only [bind, Except.bind] at hx
      rw [hAi] at hx
      cases hx
    · rw [setupMappingMatrix_ok h t hN (by rw [abs_of_pos ht]; exact hge)] at hx
      simp only [bind, Except.bind] at hx
      rw [invertMappingMatrix_ok h t ht.ne'] at hx
      exact ⟨ht, hN, hge, (Except.ok.inj hx).symm⟩
  · cases hx

theorem segmentMatrices_one_ok (h d : ℕ) (hd : d < h) (t : K) (hN : h + h ≤ 22) (ht : Poly.dblEps ≤ t) :
    (if 0 < t then do
      let Q ← computeQuadraticCostJacobian h d t
      let A ← setupMappingMatrix h t
      let Ai ← invertMappingMatrix A
      return (Q, Ai)
    else .error .check : Res (SqMat h K × SqMat h K)) = .ok (costMatrix h d t, (endpointMap h t)⁻¹) := by
  have h0 : 0 < t := lt_of_lt_of_le dblEps_pos ht
  rw [if_pos h0, computeQuadraticCostJacobian_ok h d t (by omega) hN, setupMappingMatrix_ok h t hN (by rw [abs_of_pos h0]; exact ht)]
  simp only [bind, Except.bind]
  rw [invertMappingMatrix_ok h t h0.ne']
  rfl

/-- The matrices of a problem that was accepted. -/
theorem Inv.segment {dim : ℕ} {q : Problem K} {o : LinOpt h K} (hi : Inv dim q o) (i : ℕ) (t : K) (ht : q.times[i]? = some t) :
    h + h ≤ 22 ∧ Poly.dblEps ≤ t ∧ o.invMaps[i]? = some (endpointMap h t)⁻¹ ∧
      o.costs[i]? = some (costMatrix h q.derivative.toNat t) := by
  obtain ⟨ms, hm, hc, hv⟩ := hi.matrices
  have hr := hi.range
  have hh : 0 < h := by omega
  unfold segmentMatrices at hm
  have hF := mapM_forall2 _ _ _ hm
  obtain ⟨hi1, e⟩ := List.getElem?_eq_some_iff.mp ht
  have hi2 : i < ms.length := by rw [← hF.length_eq]; exact hi1
  have := List.forall₂_iff_get.mp hF |>.2 i hi1 hi2
  simp only [List.get_eq_getElem, e] at this
  obtain ⟨_, hN, hge, ex⟩ := segmentMatrices_one h _ hh (by omega) t _ this
  refine ⟨hN, hge, ?_, ?_⟩
  · rw [hv, List.getElem?_map, List.getElem?_eq_getElem hi2, ex]; rfl
  · rw [hc, List.getElem?_map, List.getElem?_eq_getElem hi2, ex]; rfl

/-! ### Filtering -/

theorem filterLoop_spec (l : List (Int × List K)) (valid b : Bool) (tmp r : Vertex K) (hl : l.Pairwise fun a b => a.1 < b.1)
    (hlt : ∀ x ∈ tmp.constraints, ∀ y ∈ l, x.1 < y.1) (hr : filterLoop h l valid tmp = .ok (b, r)) :
    r.D = tmp.D ∧ (∀ x ∈ l, x.1 ≤ (h : Int) - 1 → x.2.length = tmp.D) ∧
    (∀ k : Int, k ≤ (h : Int) - 1 → IntMap.find k r.constraints = (IntMap.find k tmp.constraints).or (IntMap.find k l)) ∧
    (b = true ↔ valid = true ∧ ∀ x ∈ l, x.1 ≤ (h : Int) - 1) := by
  induction l generalizing valid tmp with
  | nil =>
    have e := Prod.mk.inj (Except.ok.inj hr)
    rw [← e.1, ← e.2]
    simp [IntMap.find]
  | cons a l ih =>
    obtain ⟨k, c⟩ := a
    rw [List.pairwise_cons] at hl
    unfold filterLoop at hr
    split at hr
    · rename_i hk
      obtain ⟨h1, h2, h3, h4⟩ := ih false tmp hl.2 (fun x hx y hy => hlt x hx y (by simp [hy])) hr
      refine ⟨h1, ?_, ?_, ?_⟩
      · intro x hx hxk
        rcases List.mem_cons.mp hx with e | hx
        · rw [e] at hxk; simp only at hxk; omega
        · exact h2 x hx hxk
      · intro j hj
        rw [h3 j hj]
        simp only [IntMap.find]
        rw [if_neg (by omega)]
      · simp only [Bool.false_eq_true, false_and, iff_false] at h4
        constructor
        · intro hb; exact absurd hb h4
        · rintro ⟨_, hall⟩
          have := hall (k, c) (by simp)
          simp only at this
          omega
    · rename_i hk
      simp only [bind, Except.bind] at hr
      unfold Vertex.addConstraint at hr
      split at hr
      · cases hr
      rename_i tmp' htmp
      split at htmp
      · rename_i hc
        have etmp := Except.ok.inj htmp
        rw [← etmp] at hr
        obtain ⟨h1, h2, h3, h4⟩ := ih valid _ hl.2 (by
          intro x hx y hy
          rcases IntMap.mem_insert _ _ _ _ hx with e | hx
          · rw [e]; exact hl.1 y hy
          · exact hlt x hx y (by simp [hy])) hr
        refine ⟨h1, ?_, ?_, ?_⟩
        · intro x hx hxk
          rcases List.mem_cons.mp hx with e | hx
          · rw [e]; exact hc
          · exact h2 x hx hxk
        · intro j hj
          rw [h3 j hj, IntMap.find_insert]
          simp only [IntMap.find]
          split
          · rename_i e
            have : IntMap.find j tmp.constraints = none := by
              cases hf : IntMap.find j tmp.constraints with
              | none => rfl
              | some y =>
                exfalso
                have hmem : (j, y) ∈ tmp.constraints := by
                  clear hlt hc htmp etmp hr h1 h2 h3 h4 ih
                  generalize tmp.constraints = m at hf
                  induction m with
                  | nil => simp [IntMap.find] at hf
                  | cons b m ihm =>
                    simp only [IntMap.find] at hf
                    split at hf
                    · rename_i e2; rw [← Option.some.inj hf, e2]; simp
                    · exact List.mem_cons_of_mem _ (ihm hf)
                have := hlt _ hmem (k, c) (by simp)
                simp only at this
                omega
            rw [this]
            simp
          · rfl
        · rw [h4]
          simp only [List.mem_cons, forall_eq_or_imp]
          have : k ≤ (h : Int) - 1 := by omega
          simp [this]
      · cases htmp

/-- Filtering keeps the constraints of order below `h` and accepts only vectors of the object's dimension there. -/
theorem filterVertex_spec (dim : ℕ) (v v' : Vertex K) (hw : WellFormed v) (hv : filterVertex h dim v = .ok v') (k : ℕ) (hk : k < h) :
    v'.getConstraint k = v.getConstraint k ∧ ∀ c, v.getConstraint k = some c → c.length = dim := by
  unfold filterVertex at hv
  simp only [bind, Except.bind, pure, Except.pure] at hv
  cases hl : filterLoop h v.constraints true (Vertex.mk' dim) with
  | error e => rw [hl] at hv; cases hv
  | ok r =>
    rw [hl] at hv
    obtain ⟨b, r⟩ := r
    obtain ⟨_, h2, h3, _⟩ := filterLoop_spec _ _ _ _ _ hw.1 (by simp [Vertex.mk']) hl
    simp only at hv
    have e := Except.ok.inj hv
    constructor
    · rw [← e]
      split
      · rfl
      · unfold Vertex.getConstraint
        rw [h3 k (by omega)]
        simp [Vertex.mk', IntMap.find]
    · intro c hc
      have := (IntMap.find_some_iff _ hw.1 k c).mp hc
      exact h2 _ this (by simp only; omega)

/-! ### Endpoint derivatives of the computed segments -/

/-- Value of derivative `k` at vertex `i` in dimension `d`, as held by the compact vectors. -/
def vertexValue (dim : ℕ) (q : Problem K) (o : LinOpt h K) (d i k : ℕ) : K :=
  dot (reorderRow (cols h dim q.times.length o.vertices) ⟨i, k, []⟩) (o.fixedCompact.getD d [] ++ o.freeCompact.getD d [])

theorem reorderRow_congr (cs : List (Constraint K)) (a b : Constraint K) (e : a.key = b.key) : reorderRow cs a = reorderRow cs b := by
  unfold reorderRow
  congr 1
  funext c
  have : a.eqKey c = b.eqKey c := by
    rw [Bool.eq_iff_iff, Constraint.eqKey_iff, Constraint.eqKey_iff, e]
  rw [this]

theorem Inv.vertices_length {dim : ℕ} {q : Problem K} {o : LinOpt h K} (hi : Inv dim q o) : o.vertices.length = q.times.length + 1 := by
  rw [← (mapM_forall2 _ _ _ hi.vertices).length_eq, hi.length]

theorem reorder_row (dim : ℕ) (q : Problem K) (o : LinOpt h K) (hi : Inv dim q o) (i : ℕ) (hlt : i < q.times.length) (k : ℕ) (hk : k < h) :
    o.reorder.getD (i * (h + h) + k) [] = reorderRow (cols h dim q.times.length o.vertices) ⟨i, k, []⟩ ∧
    o.reorder.getD (i * (h + h) + (h + k)) [] = reorderRow (cols h dim q.times.length o.vertices) ⟨i + 1, k, []⟩ := by
  have hvl := hi.vertices_length
  have hv : o.vertices[i]? = some (o.vertices[i]'(by omega)) := List.getElem?_eq_getElem (by omega)
  have hw : o.vertices[i + 1]? = some (o.vertices[i + 1]'(by omega)) := List.getElem?_eq_getElem (by omega)
  constructor
  · have := getElem?_constraintSeq (h := h) dim o.vertices q.times.length i k _ _ hvl hv hw (by omega)
    rw [hi.reorder, List.getD_eq_getElem?_getD, List.getElem?_map, this, if_pos hk]
    simp only [Option.map_some, Option.getD_some]
    exact reorderRow_congr _ _ _ (by rw [constraintOf_key]; rfl)
  · have := getElem?_constraintSeq (h := h) dim o.vertices q.times.length i (h + k) _ _ hvl hv hw (by omega)
    rw [hi.reorder, List.getD_eq_getElem?_getD, List.getElem?_map, this, if_neg (by omega)]
    simp only [Option.map_some, Option.getD_some]
    exact reorderRow_congr _ _ _ (by rw [constraintOf_key, Nat.add_sub_cancel_left]; rfl)

/-- The polynomial of a segment takes the vertex values at its ends. -/
theorem polyOf_deriv (dim : ℕ) (q : Problem K) (o : LinOpt h K) (hi : Inv dim q o) (i : ℕ) (t : K) (ht : q.times[i]? = some t)
    (d k : ℕ) (hk : k < h) :
    derivAt (polyOf o d i) k 0 = vertexValue dim q o d i k ∧ derivAt (polyOf o d i) k t = vertexValue dim q o d (i + 1) k := by
  obtain ⟨_, hge, hinv, _⟩ := hi.segment i t ht
  have ht0 : t ≠ 0 := (lt_of_lt_of_le dblEps_pos hge).ne'
  have hlt := (List.getElem?_eq_some_iff.mp ht).1
  obtain ⟨r1, r2⟩ := reorder_row dim q o hi i hlt k hk
  unfold polyOf
  rw [List.getD_eq_getElem?_getD (l := o.invMaps), hinv]
  simp only [Option.getD_some]
  obtain ⟨e1, e2⟩ := derivAt_inv_mulVec h t ht0 (fun j : Fin (h + h) =>
    dot (o.reorder.getD (i * (h + h) + j) []) (o.fixedCompact.getD d [] ++ o.freeCompact.getD d [])) ⟨k, hk⟩
  simp only [Fin.val_castAdd, Fin.val_natAdd] at e1 e2
  rw [e1, e2, r1, r2]
  exact ⟨rfl, rfl⟩

theorem Inv.fixed_length {dim : ℕ} {q : Problem K} {o : LinOpt h K} (hi : Inv dim q o) (d : ℕ) (hd : d < dim) :
    o.fixedCompact.length = dim ∧ (o.fixedCompact.getD d []).length = o.nFixed ∧
    ∀ m c, (constraintSets (constraintSeq h dim q.times.length o.vertices)).1[m]? = some c →
      (o.fixedCompact.getD d []).getD m 0 = c.value.getD d 0 ∧ d < c.value.length := by
  have hF := mapM_forall2 _ _ _ hi.fixedCompact
  have hl : o.fixedCompact.length = dim := by rw [← hF.length_eq]; simp
  have hd' : d < o.fixedCompact.length := by omega
  have hr := List.forall₂_iff_get.mp hF |>.2 d (by simpa using hd) hd'
  simp only [List.get_eq_getElem, List.getElem_range] at hr
  have e : o.fixedCompact.getD d [] = o.fixedCompact[d] := by
    rw [List.getD_eq_getElem?_getD, List.getElem?_eq_getElem hd']; rfl
  have hG := mapM_forall2 _ _ _ hr
  refine ⟨hl, ?_, ?_⟩
  · rw [e, ← hG.length_eq, hi.nFixed]
  · intro m c hm
    obtain ⟨hm1, em⟩ := List.getElem?_eq_some_iff.mp hm
    have hm2 : m < o.fixedCompact[d].length := by rw [← hG.length_eq]; exact hm1
    have hv := List.forall₂_iff_get.mp hG |>.2 m hm1 hm2
    simp only [List.get_eq_getElem, em] at hv
    have hv' := at?_ok hv
    rw [e, List.getD_eq_getElem?_getD, List.getElem?_eq_getElem hm2, List.getD_eq_getElem?_getD, hv']
    exact ⟨rfl, (List.getElem?_eq_some_iff.mp hv').1⟩

/-- At a fixed constraint the vertex value is the constrained value. -/
theorem vertexValue_fixed (dim : ℕ) (q : Problem K) (o : LinOpt h K) (hi : Inv dim q o) (d : ℕ) (hd : d < dim)
    (hlen : (o.fixedCompact.getD d []).length + (o.freeCompact.getD d []).length = o.nFixed + o.nFree)
    (i k : ℕ) (v : Vertex K) (c : List K) (hk : k < h) (hv : o.vertices[i]? = some v) (hc : v.getConstraint k = some c) :
    vertexValue dim q o d i k = c.getD d 0 := by
  have hm := (mem_fixed (h := h) dim q.times.length o.vertices ⟨i, k, c⟩).mpr ⟨v, hv, hk, hc⟩
  obtain ⟨m, hm⟩ := List.mem_iff_getElem?.mp hm
  have hml := (List.getElem?_eq_some_iff.mp hm).1
  obtain ⟨_, hfl, hfv⟩ := hi.fixed_length d hd
  unfold vertexValue
  rw [dot_reorderRow (cols h dim q.times.length o.vertices) ⟨i, k, []⟩ _ (cols_nodup dim _ _) m ⟨i, k, c⟩
    (by unfold cols; rw [List.getElem?_append_left hml, hm]) rfl
    (by rw [List.length_append, hlen, hi.nFixed, hi.nFree, cols, List.length_append])]
  rw [List.getD_append _ _ _ _ (by rw [hfl, hi.nFixed]; exact hml)]
  exact (hfv m _ hm).1

/-- What the segments are after `setFreeConstraints` or `solveLinear`: an object `o₁` with the same fixed part and some free values. -/
theorem solved_spec (dim : ℕ) (q : Problem K) (solve : LinSolver K) (o o' : LinOpt h K) (hi : Inv dim q o)
    (hu : (∃ values, o.setFreeConstraints values = .ok o') ∨ o.solveLinear solve = .ok o') :
    ∃ free, Inv dim q { o with freeCompact := free } ∧ o'.freeCompact = free ∧ o'.segments.length = q.times.length ∧
      (∀ d < dim, (o.fixedCompact.getD d []).length + (free.getD d []).length = o.nFixed + o.nFree) ∧
      ∀ (i : ℕ) (s : Segment K), o'.segments[i]? = some s → SegShape h dim s ∧ (0 < dim → q.times[i]? = some s.time) ∧
        s.polys = (List.range dim).map fun d => polyOf { o with freeCompact := free } d i := by
  have hex : ∃ free, LinOpt.updateSegmentsFromCompactConstraints { o with freeCompact := free } = .ok o' := by
    rcases hu with ⟨values, hu⟩ | hu
    · unfold setFreeConstraints at hu
      split at hu
      · cases hu
      split at hu
      · cases hu
      exact ⟨values, hu⟩
    · obtain ⟨free, hf, _⟩ := solveLinear_ok solve o o' hu
      exact ⟨free, hf⟩
  obtain ⟨free, hf⟩ := hex
  have hi' : Inv dim q { o with freeCompact := free } :=
    ⟨hi.dimension, hi.derivative, hi.range, hi.times, hi.length, hi.nSegments, hi.vertices, hi.matrices, hi.segLength, hi.shape,
      hi.nAll, hi.nFixed, hi.nFree, hi.reorder, hi.fixedCompact⟩
  obtain ⟨segs, e, hl, hl2, hs⟩ := updateSegments_spec { o with freeCompact := free } _ dim hi.dimension
    (hi.segLength.trans hi.nSegments.symm) hi.shape hf
  subst e
  refine ⟨free, hi', rfl, hl.trans hi.nSegments, hl2, fun i s hs' => ?_⟩
  have := hs i s hs'
  simp only [hi.times] at this
  exact this

theorem setSegments_segments (segs : List (Segment K)) (tr : Trajectory K) (ht : Trajectory.setSegments segs = .ok tr) :
    tr.segments = segs := by
  unfold Trajectory.setSegments at ht
  split at ht
  · cases ht
  · unfold Trajectory.addSegments at ht
    simp only [bind, Except.bind, pure, Except.pure] at ht
    split at ht
    · cases ht
    · rw [← Except.ok.inj ht]; simp

end LinOpt

end Verif
