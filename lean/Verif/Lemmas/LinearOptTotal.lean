import Verif.Lemmas.LinearOpt

/-!
# When the linear optimisation succeeds
-/

set_option linter.unusedSectionVars false
set_option linter.unusedSimpArgs false

namespace Verif

open Spec Lemmas

namespace LinOpt
variable {K : Type*} [Field K] [LinearOrder K] [IsStrictOrderedRing K] {h : ℕ}

theorem Inv.reorder_length {dim : ℕ} {q : Problem K} {o : LinOpt h K} (hi : Inv dim q o) (hn : 0 < q.times.length) :
    o.reorder.length = q.times.length * (h + h) := by
  rw [hi.reorder, List.length_map, length_constraintSeq dim o.vertices q.times.length hi.vertices_length hn]

theorem update_loop_total (dim : ℕ) (q : Problem K) (o : LinOpt h K) (hi : Inv dim q o) (hfl : o.freeCompact.length = dim)
    (hfree : ∀ v ∈ o.freeCompact, v.length = o.nFree) (m : ℕ) (hm : m ≤ dim) :
    ∃ segs, (List.range m).foldlM (updateDimension o) o.segments = .ok segs := by
  induction m with
  | zero => exact ⟨o.segments, by simp [pure, Except.pure]⟩
  | succ m ih =>
    obtain ⟨segs, hs⟩ := ih (by omega)
    obtain ⟨hl, _, hsp⟩ := update_loop o dim (hi.segLength.trans hi.nSegments.symm) hi.shape m segs hs
    rw [List.range_succ, List.foldlM_append, hs]
    simp only [bind, Except.bind, List.foldlM_cons, List.foldlM_nil, pure, Except.pure]
    suffices hsuf : ∃ segs', updateDimension o segs m = .ok segs' by
      obtain ⟨segs', h'⟩ := hsuf
      exact ⟨segs', by rw [h']⟩
    obtain ⟨hxl, hxn, _⟩ := hi.fixed_length m (by omega)
    have hfx : o.fixedCompact[m]? = some (o.fixedCompact[m]'(by omega)) := List.getElem?_eq_getElem (by omega)
    have hfr : o.freeCompact[m]? = some (o.freeCompact[m]'(by omega)) := List.getElem?_eq_getElem (by omega)
    unfold updateDimension
    rw [at?_of_some hfx, at?_of_some hfr]
    simp only [bind, Except.bind]
    rw [if_neg]
    · apply mapM_total
      intro i hir
      rw [List.mem_range, hi.nSegments] at hir
      have hseg : segs[i]? = some (segs[i]'(by rw [hl, hi.nSegments]; exact hir)) := List.getElem?_eq_getElem _
      rw [at?_of_some hseg]
      simp only
      have hshape := (hsp i _ hseg).1
      have ht : q.times[i]? = some (q.times[i]'hir) := List.getElem?_eq_getElem hir
      obtain ⟨_, _, hinv, _⟩ := hi.segment i _ ht
      unfold updateSegment segmentDerivatives
      rw [if_neg (by
        rw [hi.reorder_length (by omega)]
        have : (i + 1) * (h + h) ≤ q.times.length * (h + h) := Nat.mul_le_mul_right _ (by omega)
        omega)]
      simp only [bind, Except.bind, pure, Except.pure]
      rw [at?_of_some hinv, hi.times, at?_of_some ht]
      simp only
      rw [if_pos (by rw [hshape.2.1]; omega)]
      exact ⟨_, rfl⟩
    · rw [not_not]
      rw [List.getD_eq_getElem?_getD, hfx] at hxn
      simp only [Option.getD_some] at hxn
      rw [hxn, hfree _ (List.getElem_mem _)]

theorem updateSegments_total (dim : ℕ) (q : Problem K) (o : LinOpt h K) (hi : Inv dim q o) (hfl : o.freeCompact.length = dim)
    (hfree : ∀ v ∈ o.freeCompact, v.length = o.nFree) : ∃ o', o.updateSegmentsFromCompactConstraints = .ok o' := by
  obtain ⟨segs, hs⟩ := update_loop_total dim q o hi hfl hfree dim le_rfl
  unfold updateSegmentsFromCompactConstraints
  rw [hi.dimension, hs]
  exact ⟨_, rfl⟩

theorem Inv.withFree {dim : ℕ} {q : Problem K} {o : LinOpt h K} (hi : Inv dim q o) (free : List (List K)) :
    Inv dim q { o with freeCompact := free } :=
  ⟨hi.dimension, hi.derivative, hi.range, hi.times, hi.length, hi.nSegments, hi.vertices, hi.matrices, hi.segLength, hi.shape,
    hi.nAll, hi.nFixed, hi.nFree, hi.reorder, hi.fixedCompact⟩

theorem setFree_total (dim : ℕ) (q : Problem K) (o : LinOpt h K) (hi : Inv dim q o) (free : List (List K)) (hfl : free.length = dim)
    (hfree : ∀ v ∈ free, v.length = o.nFree) : ∃ o', o.setFreeConstraints free = .ok o' := by
  unfold setFreeConstraints
  rw [if_neg (by rw [hi.dimension]; exact not_not.mpr hfl), if_neg]
  · exact updateSegments_total dim q _ (hi.withFree free) hfl hfree
  · simp only [List.any_eq_true, not_exists, not_and]
    intro v hv hne
    exact absurd (hfree v hv) (by simpa using hne)

theorem solve_total (dim : ℕ) (q : Problem K) (solve : LinSolver K) (o : LinOpt h K) (hi : Inv dim q o) (hn : 0 < q.times.length)
    (hfree : o.nFree = 0 → o.freeCompact.length = dim ∧ ∀ v ∈ o.freeCompact, v = []) : ∃ o', o.solveLinear solve = .ok o' := by
  unfold solveLinear
  rw [if_neg (by rw [hi.derivative]; exact not_not.mpr hi.range)]
  split
  · rename_i h0
    obtain ⟨h1, h2⟩ := hfree h0
    exact updateSegments_total dim q o hi h1 fun v hv => by rw [h2 v hv, h0]; rfl
  · unfold constructR
    rw [if_neg (by
      rw [not_not, hi.nAll, hi.nSegments, length_constraintSeq dim o.vertices q.times.length hi.vertices_length hn, mul_comm])]
    simp only [bind, Except.bind]
    refine updateSegments_total dim q _ (hi.withFree _) ?_ ?_
    · simp only [List.length_map]
      rw [← (mapM_forall2 _ _ _ hi.fixedCompact).length_eq]; simp
    · intro v hv
      simp only [List.mem_map] at hv
      obtain ⟨df, _, e⟩ := hv
      rw [← e]
      unfold solveDimension
      rw [List.length_ofFn]

theorem addTimes_total (D N : ℕ) (segs : List (Segment K)) (acc : K) (hs : ∀ s ∈ segs, s.polys.length = D ∧ s.N = N) :
    ∃ x, Trajectory.addTimes D N segs acc = .ok x := by
  induction segs generalizing acc with
  | nil => exact ⟨acc, rfl⟩
  | cons s segs ih =>
    unfold Trajectory.addTimes
    have hD : s.D = D := (hs s (by simp)).1
    rw [if_neg (not_not.mpr hD), if_neg (not_not.mpr (hs s (by simp)).2)]
    exact ih _ fun x hx => hs x (by simp [hx])

theorem getTrajectory_total (dim : ℕ) (o : LinOpt h K) (hs : ∀ s ∈ o.segments, SegShape h dim s) (hne : o.segments ≠ []) :
    ∃ tr, o.getTrajectory = .ok tr := by
  unfold getTrajectory Trajectory.setSegments
  match hm : o.segments with
  | [] => exact absurd hm hne
  | s :: l =>
    simp only [Trajectory.addSegments]
    have hs0 := hs s (by rw [hm]; simp)
    obtain ⟨x, hx⟩ := addTimes_total s.D s.N (s :: l) (0 : K) (by
      intro y hy
      have := hs y (by rw [hm]; exact hy)
      exact ⟨this.2.1.trans hs0.2.1.symm, this.1.trans hs0.1.symm⟩)
    rw [hx]
    exact ⟨_, rfl⟩

/-! ### Set-up -/

theorem filterLoop_total (l : List (Int × List K)) (valid : Bool) (tmp : Vertex K)
    (hl : ∀ x ∈ l, x.1 ≤ (h : Int) - 1 → x.2.length = tmp.D) : ∃ r, filterLoop h l valid tmp = .ok r := by
  induction l generalizing valid tmp with
  | nil => exact ⟨_, rfl⟩
  | cons a l ih =>
    obtain ⟨k, c⟩ := a
    unfold filterLoop
    split
    · exact ih _ _ fun x hx => hl x (by simp [hx])
    · rename_i hk
      have := hl (k, c) (by simp) (by simp only; omega)
      unfold Vertex.addConstraint
      rw [if_pos this]
      simp only [bind, Except.bind]
      exact ih _ _ fun x hx => hl x (by simp [hx])

theorem filterVertex_ok_iff (dim : ℕ) (v : Vertex K) (hw : WellFormed v) : (∃ v', filterVertex h dim v = .ok v') ↔
    ∀ (k : Int) (c : List K), k < h → v.getConstraint k = some c → c.length = dim := by
  constructor
  · rintro ⟨v', hv⟩ k c hk hc
    unfold filterVertex at hv
    simp only [bind, Except.bind, pure, Except.pure] at hv
    cases hl : filterLoop h v.constraints true (Vertex.mk' dim) with
    | error e => rw [hl] at hv; cases hv
    | ok r =>
      obtain ⟨b, r⟩ := r
      obtain ⟨_, h2, _, _⟩ := filterLoop_spec _ _ _ _ _ hw.1 (by simp [Vertex.mk']) hl
      exact h2 (k, c) ((IntMap.find_some_iff _ hw.1 k c).mp hc) (by simp only; omega)
  · intro hall
    unfold filterVertex
    obtain ⟨r, hr⟩ := filterLoop_total (h := h) v.constraints true (Vertex.mk' dim) (by
      intro x hx hk
      exact hall x.1 x.2 (by omega) ((IntMap.find_some_iff _ hw.1 x.1 x.2).mpr hx))
    rw [hr]
    exact ⟨_, rfl⟩

theorem mapM_ok_iff {α β : Type*} (f : α → Res β) (l : List α) : (∃ l', l.mapM f = .ok l') ↔ ∀ a ∈ l, ∃ b, f a = .ok b := by
  constructor
  · rintro ⟨l', hl⟩ a ha
    have hF := mapM_forall2 _ _ _ hl
    obtain ⟨i, hi⟩ := List.mem_iff_getElem?.mp ha
    obtain ⟨hi1, e⟩ := List.getElem?_eq_some_iff.mp hi
    have hi2 : i < l'.length := by rw [← hF.length_eq]; exact hi1
    have := List.forall₂_iff_get.mp hF |>.2 i hi1 hi2
    simp only [List.get_eq_getElem, e] at this
    exact ⟨_, this⟩
  · exact mapM_total f l

theorem mapM_of_forall2 {α β : Type*} (f : α → Res β) (l : List α) (l' : List β) (hF : List.Forall₂ (fun a b => f a = .ok b) l l') :
    l.mapM f = .ok l' := by
  induction hF with
  | nil => rfl
  | cons e _ ih => rw [List.mapM_cons, e, ih]; rfl

theorem segmentMatrices_ok_iff (d : ℕ) (ts : List K) (hd : d < h) (hN : h + h ≤ 22) :
    (∃ ms, segmentMatrices (h := h) d ts = .ok ms) ↔ ∀ t ∈ ts, Poly.dblEps ≤ t := by
  unfold segmentMatrices
  rw [mapM_ok_iff]
  refine forall_congr' fun t => forall_congr' fun _ => ?_
  constructor
  · rintro ⟨x, hx⟩
    exact (segmentMatrices_one h d (by omega) hd t x hx).2.2.1
  · intro ht
    exact ⟨_, segmentMatrices_one_ok h d hd t hN ht⟩

theorem setup_total (dim : ℕ) (q : Problem K) (o : LinOpt h K) (hs : o.dimension = dim) (hN : h + h ≤ 22)
    (hw : ∀ v ∈ q.vertices, WellFormed v) (ha : AcceptableProblem h dim q) :
    ∃ o', o.setupFromVertices q.vertices q.times q.derivative = .ok o' := by
  obtain ⟨hd0, hd1, hl, hc, ht⟩ := ha
  unfold setupFromVertices
  rw [if_neg (by omega), if_neg (by omega), if_neg (by omega)]
  simp only [bind, Except.bind]
  obtain ⟨vs', hv⟩ := mapM_total (filterVertex h o.dimension) q.vertices (fun v hv =>
    (filterVertex_ok_iff o.dimension v (hw v hv)).mpr (by rw [hs]; exact hc v hv))
  rw [hv]
  simp only
  unfold updateSegmentTimes
  simp only [bind, Except.bind, pure, Except.pure]
  rw [if_neg (by omega)]
  obtain ⟨ms, hm⟩ := (segmentMatrices_ok_iff (h := h) q.derivative.toNat q.times (by omega) hN).mpr ht
  rw [hm]
  simp only
  unfold setupConstraintReorderingMatrix
  simp only [bind, Except.bind, pure, Except.pure]
  have hdf : ∃ df, ((List.range o.dimension).mapM fun d => (constraintSets (constraintSeq h o.dimension (q.vertices.length - 1) vs')).1.mapM
      fun c => at? c.value d) = .ok df := by
    apply mapM_total
    intro d hd
    rw [List.mem_range] at hd
    apply mapM_total
    intro c hcm
    obtain ⟨v', hv', hk, hcv⟩ := (mem_fixed _ _ _ _).mp hcm
    have hF := mapM_forall2 _ _ _ hv
    obtain ⟨hi1, e⟩ := List.getElem?_eq_some_iff.mp hv'
    have hi2 : c.vertexIdx < q.vertices.length := by rw [hF.length_eq]; exact hi1
    have hf := List.forall₂_iff_get.mp hF |>.2 c.vertexIdx hi2 hi1
    simp only [List.get_eq_getElem, e] at hf
    obtain ⟨e1, e2⟩ := filterVertex_spec o.dimension _ _ (hw _ (List.getElem_mem _)) hf c.constraintIdx hk
    have := e2 c.value (e1.symm.trans hcv)
    exact ⟨_, at?_of_some (List.getElem?_eq_getElem (by omega))⟩
  obtain ⟨df, hdf⟩ := hdf
  rw [hdf]
  exact ⟨_, rfl⟩

theorem setup_acceptable (dim : ℕ) (q : Problem K) (o o' : LinOpt h K) (hs : Shaped dim o) (hN : h + h ≤ 22)
    (hw : ∀ v ∈ q.vertices, WellFormed v) (hu : o.setupFromVertices q.vertices q.times q.derivative = .ok o') : AcceptableProblem h dim q := by
  have hi := (setupFromVertices_ok dim q o o' hs hu).1
  have hr := hi.range
  refine ⟨hr.1, by omega, hi.length, ?_, ?_⟩
  · intro v hv
    exact (filterVertex_ok_iff dim v (hw v hv)).mp ((mapM_ok_iff _ _).mp ⟨_, hi.vertices⟩ v hv)
  · obtain ⟨ms, hm, _⟩ := hi.matrices
    exact (segmentMatrices_ok_iff (h := h) _ _ (by omega) hN).mp ⟨ms, hm⟩

theorem filterLoop_low (l : List (Int × List K)) (valid b : Bool) (tmp r : Vertex K)
    (hlow : ∀ x ∈ tmp.constraints, x.1 ≤ (h : Int) - 1) (hr : filterLoop h l valid tmp = .ok (b, r)) :
    ∀ x ∈ r.constraints, x.1 ≤ (h : Int) - 1 := by
  induction l generalizing valid tmp with
  | nil => rw [← (Prod.mk.inj (Except.ok.inj hr)).2]; exact hlow
  | cons a l ih =>
    obtain ⟨k, c⟩ := a
    unfold filterLoop at hr
    split at hr
    · exact ih _ _ hlow hr
    · rename_i hk
      simp only [bind, Except.bind] at hr
      split at hr
      · cases hr
      rename_i tmp' htmp
      unfold Vertex.addConstraint at htmp
      split at htmp
      · rw [← Except.ok.inj htmp] at hr
        refine ih _ _ ?_ hr
        intro x hx
        rcases IntMap.mem_insert _ _ _ _ hx with e | hx
        · rw [e]; simp only; omega
        · exact hlow x hx
      · cases htmp

theorem find_mem {α : Type*} (k : Int) (l : List (Int × α)) (x : α) (hf : IntMap.find k l = some x) : (k, x) ∈ l := by
  induction l with
  | nil => simp [IntMap.find] at hf
  | cons b m ihm =>
    simp only [IntMap.find] at hf
    split at hf
    · rename_i e2; rw [← Option.some.inj hf, e2]; simp
    · exact List.mem_cons_of_mem _ (ihm hf)

/-- Filtering removes the constraints of order `h` and above. -/
theorem filterVertex_high (dim : ℕ) (v v' : Vertex K) (hw : WellFormed v) (hv : filterVertex h dim v = .ok v') (k : Int) (hk : (h : Int) ≤ k) :
    v'.getConstraint k = none := by
  unfold filterVertex at hv
  simp only [bind, Except.bind, pure, Except.pure] at hv
  cases hl : filterLoop h v.constraints true (Vertex.mk' dim) with
  | error e => rw [hl] at hv; cases hv
  | ok r =>
    rw [hl] at hv
    obtain ⟨b, r⟩ := r
    obtain ⟨_, _, _, h4⟩ := filterLoop_spec _ _ _ _ _ hw.1 (by simp [Vertex.mk']) hl
    have hlow := filterLoop_low _ _ _ _ _ (by simp [Vertex.mk']) hl
    have e := Except.ok.inj hv
    cases hg : v'.getConstraint k with
    | none => rfl
    | some c =>
      exfalso
      have hm := find_mem _ _ _ hg
      rw [← e] at hm
      simp only at hm
      split at hm
      · rename_i hb
        have := (h4.mp hb).2 _ hm
        simp only at this
        omega
      · have := hlow _ hm
        simp only at this
        omega

/-- Every vertex and order below `h` is a column exactly once. -/
theorem cols_length (dim n : ℕ) (vs : List (Vertex K)) : (cols h dim n vs).length = vs.length * h := by
  have hnd := cols_nodup (h := h) dim n vs
  have e1 : (cols h dim n vs).length = ((cols h dim n vs).map Constraint.key).toFinset.card := by
    unfold cols
    rw [List.toFinset_card_of_nodup hnd, List.length_map]
  rw [e1]
  have e2 : ((cols h dim n vs).map Constraint.key).toFinset = ((Finset.range vs.length ×ˢ Finset.range h).map toLex.toEmbedding) := by
    ext x
    rw [List.mem_toFinset, List.mem_map, Finset.mem_map]
    constructor
    · rintro ⟨c, hc, e⟩
      refine ⟨(c.vertexIdx, c.constraintIdx), ?_, e⟩
      rw [Finset.mem_product, Finset.mem_range, Finset.mem_range]
      unfold cols at hc
      rw [List.mem_append, mem_fixed, mem_free] at hc
      rcases hc with ⟨v, hv, hk, _⟩ | ⟨v, hv, hk, _⟩
      · exact ⟨(List.getElem?_eq_some_iff.mp hv).1, hk⟩
      · exact ⟨(List.getElem?_eq_some_iff.mp hv).1, hk⟩
    · rintro ⟨⟨i, k⟩, hik, e⟩
      rw [Finset.mem_product, Finset.mem_range, Finset.mem_range] at hik
      obtain ⟨m, c, hm, hc⟩ := key_mem_cols (h := h) dim n vs i k hik.1 hik.2
      exact ⟨c, List.mem_of_getElem? hm, hc.trans e⟩
  rw [e2, Finset.card_map, Finset.card_product, Finset.card_range, Finset.card_range]

end LinOpt

end Verif
