import Verif.Lemmas.LinearOptTotal

/-!
# What a problem determines: two objects set up with the same problem agree
-/

set_option linter.unusedSectionVars false

namespace Verif

open Spec Lemmas

namespace LinOpt
variable {K : Type*} [Field K] [LinearOrder K] [IsStrictOrderedRing K] {h : ℕ} {dim : ℕ} {q : Problem K} {o o2 : LinOpt h K}

/-- The members a problem determines. -/
structure SameData (o o2 : LinOpt h K) : Prop where
  nFixed : o.nFixed = o2.nFixed
  nFree : o.nFree = o2.nFree
  nAll : o.nAll = o2.nAll
  nSegments : o.nSegments = o2.nSegments
  vertices : o.vertices = o2.vertices
  times : o.times = o2.times
  costs : o.costs = o2.costs
  invMaps : o.invMaps = o2.invMaps
  reorder : o.reorder = o2.reorder
  fixedCompact : o.fixedCompact = o2.fixedCompact

theorem Inv.same (hi : Inv dim q o) (hi2 : Inv dim q o2) : SameData o o2 := by
  have hv : o.vertices = o2.vertices := Except.ok.inj (hi.vertices.symm.trans hi2.vertices)
  obtain ⟨ms, h1, h2, h3⟩ := hi.matrices
  obtain ⟨ms2, g1, g2, g3⟩ := hi2.matrices
  have hm : ms = ms2 := Except.ok.inj (h1.symm.trans g1)
  refine ⟨?_, ?_, ?_, hi.nSegments.trans hi2.nSegments.symm, hv, hi.times.trans hi2.times.symm, ?_, ?_, ?_, ?_⟩
  · rw [hi.nFixed, hi2.nFixed, hv]
  · rw [hi.nFree, hi2.nFree, hv]
  · rw [hi.nAll, hi2.nAll, hv]
  · rw [h2, g2, hm]
  · rw [h3, g3, hm]
  · rw [hi.reorder, hi2.reorder, hv]
  · have := hi.fixedCompact
    rw [hv] at this
    exact Except.ok.inj (this.symm.trans hi2.fixedCompact)

theorem constructR_congr (hs : SameData o o2) : constructR o = constructR o2 := by
  unfold constructR
  rw [hs.nAll, hs.nSegments, hs.invMaps, hs.costs, hs.reorder]

theorem solveDimension_congr (solve : LinSolver K) (hs : SameData o o2) (R : ℕ → ℕ → K) (df : List K) :
    solveDimension solve o R df = solveDimension solve o2 R df := by
  unfold solveDimension
  rw [hs.nFree, hs.nFixed]

/-- The same problem and the same free values give the same segments. -/
theorem segments_unique {solve solve2 : LinSolver K} {o' o2' : LinOpt h K} (hi : Inv dim q o) (hi2 : Inv dim q o2) (hdim : 0 < dim)
    (hu : (∃ values, o.setFreeConstraints values = .ok o') ∨ o.solveLinear solve = .ok o')
    (hu2 : (∃ values, o2.setFreeConstraints values = .ok o2') ∨ o2.solveLinear solve2 = .ok o2')
    (hf : o'.freeCompact = o2'.freeCompact) : o'.segments = o2'.segments := by
  have hs := hi.same hi2
  obtain ⟨free, _, e, hl, _, hp⟩ := solved_spec dim q solve o o' hi hu
  obtain ⟨free2, _, e2, hl2, _, hp2⟩ := solved_spec dim q solve2 o2 o2' hi2 hu2
  have ef : free = free2 := by rw [← e, ← e2, hf]
  apply List.ext_getElem?
  intro i
  by_cases hlt : i < q.times.length
  · have h1 : o'.segments[i]? = some (o'.segments[i]'(by omega)) := List.getElem?_eq_getElem (by omega)
    have h2 : o2'.segments[i]? = some (o2'.segments[i]'(by omega)) := List.getElem?_eq_getElem (by omega)
    obtain ⟨s1, t1, p1⟩ := hp i _ h1
    obtain ⟨s2, t2, p2⟩ := hp2 i _ h2
    rw [h1, h2]
    congr 1
    have ht := Option.some.inj ((t1 hdim).symm.trans (t2 hdim))
    have hN := s1.1.trans s2.1.symm
    have hpp : (o'.segments[i]'(by omega)).polys = (o2'.segments[i]'(by omega)).polys := by
      rw [p1, p2]
      apply List.map_congr_left
      intro d _
      unfold polyOf
      simp only
      rw [hs.invMaps, hs.reorder, hs.fixedCompact, ef]
    generalize o'.segments[i]'(by omega) = a at ht hN hpp
    generalize o2'.segments[i]'(by omega) = b at ht hN hpp
    cases a; cases b
    simp only at ht hN hpp
    rw [ht, hN, hpp]
  · rw [List.getElem?_eq_none (by omega), List.getElem?_eq_none (by omega)]

/-- The free values the linear solution finds depend on the problem only. -/
theorem solve_free_unique {solve : LinSolver K} {o' o2' : LinOpt h K} (hi : Inv dim q o) (hi2 : Inv dim q o2)
    (hfl : o.freeCompact.length = dim) (hfl2 : o2.freeCompact.length = dim)
    (hu : o.solveLinear solve = .ok o') (hu2 : o2.solveLinear solve = .ok o2') : o'.freeCompact = o2'.freeCompact := by
  have hs := hi.same hi2
  obtain ⟨free, _, e, _, hlen, _⟩ := solved_spec dim q solve o o' hi (.inr hu)
  obtain ⟨free2, _, e2, _, hlen2, _⟩ := solved_spec dim q solve o2 o2' hi2 (.inr hu2)
  obtain ⟨f, hf, hcase⟩ := solveLinear_ok solve o o' hu
  obtain ⟨f2, hf2, hcase2⟩ := solveLinear_ok solve o2 o2' hu2
  obtain ⟨segs, es, _⟩ := updateSegments_spec { o with freeCompact := f } o' dim hi.dimension
      (hi.segLength.trans hi.nSegments.symm) hi.shape hf
  obtain ⟨segs2, es2, _⟩ := updateSegments_spec { o2 with freeCompact := f2 } o2' dim hi2.dimension
      (hi2.segLength.trans hi2.nSegments.symm) hi2.shape hf2
  have ef : o'.freeCompact = f := by rw [es]
  have ef2 : o2'.freeCompact = f2 := by rw [es2]
  rcases hcase with ⟨h0, c1⟩ | ⟨R, h0, hR, c1⟩
  · rcases hcase2 with ⟨_, c2⟩ | ⟨R2, h02, _⟩
    · have hnil : ∀ (p : LinOpt h K) (_ : Inv dim q p) (fr : List (List K)), p.nFree = 0 → fr.length = dim →
          (∀ d < dim, (p.fixedCompact.getD d []).length + (fr.getD d []).length = p.nFixed + p.nFree) → fr = List.replicate dim [] := by
        intro p hp fr hn hl hh
        apply List.ext_getElem?
        intro d
        by_cases hd : d < dim
        · have h1 := hh d hd
          obtain ⟨_, h2, _⟩ := hp.fixed_length d hd
          rw [List.getElem?_eq_getElem (by omega)]
          rw [List.getElem?_replicate, if_pos hd]
          congr 1
          rw [List.getD_eq_getElem?_getD (l := fr), List.getElem?_eq_getElem (by omega)] at h1
          simp only [Option.getD_some] at h1
          exact List.length_eq_zero_iff.mp (by omega)
        · rw [List.getElem?_eq_none (by omega), List.getElem?_eq_none (by simp; omega)]
      rw [e, e2, hnil o hi free h0 (by rw [← e, ef, c1]; exact hfl) hlen,
        hnil o2 hi2 free2 (by rw [← hs.nFree]; exact h0) (by rw [← e2, ef2, c2]; exact hfl2) hlen2]
    · exact absurd (hs.nFree.symm.trans h0) h02
  · rcases hcase2 with ⟨h02, _⟩ | ⟨R2, _, hR2, c2⟩
    · exact absurd (hs.nFree.trans h02) h0
    · have : R = R2 := Except.ok.inj (hR.symm.trans ((constructR_congr hs).trans hR2))
      rw [ef, ef2, c1, c2, hs.fixedCompact, this]
      apply List.map_congr_left
      intro df _
      exact solveDimension_congr solve hs R2 df

variable {solve : LinSolver K}

theorem getD_dim_mem {α : Type*} {l : List (List α)} {n : ℕ} (hl : l.length = n) (P : List α → Prop) (hP : ∀ d < n, P (l.getD d [])) :
    ∀ v ∈ l, P v := by
  intro v hv
  obtain ⟨i, hi⟩ := List.mem_iff_getElem?.mp hv
  have hlt := (List.getElem?_eq_some_iff.mp hi).1
  have := hP i (by omega)
  rw [List.getD_eq_getElem?_getD, hi] at this
  exact this

theorem fixedCompact_length {q : Problem K} {p : LinOpt h K} (hi : Inv dim q p) : p.fixedCompact.length = dim := by
  rw [← (mapM_forall2 _ _ _ hi.fixedCompact).length_eq]; simp

/-- There is one list of free values per dimension. -/
theorem freeCompact_length {p : Option (Problem K)} {o : LinOpt h K} (hh : LinHistory h dim solve p o) : o.freeCompact.length = dim := by
  induction hh with
  | new => simp [LinOpt.init]
  | @setup p o o' q hh hu ih =>
    obtain ⟨hs, _⟩ := inv_history dim solve _ o hh
    rw [(setupFromVertices_ok dim q o o' hs hu).2]
    exact ih
  | @times q o o' ts hh hu ih =>
    obtain ⟨_, ms, _, e⟩ := updateSegmentTimes_ok o o' ts hu
    rw [e]; exact ih
  | @free q o o' values hh hu ih =>
    have hi := (inv_history dim solve _ o hh).2 q rfl
    unfold setFreeConstraints at hu
    split at hu
    · cases hu
    rename_i hl
    split at hu
    · cases hu
    obtain ⟨segs, e, _⟩ := updateSegments_spec { o with freeCompact := values } o' dim hi.dimension
      (hi.segLength.trans hi.nSegments.symm) hi.shape hu
    rw [e]
    rw [not_not, hi.dimension] at hl
    exact hl
  | @solve q o o' hh hu ih =>
    have hi := (inv_history dim solve _ o hh).2 q rfl
    obtain ⟨free, hu, hf⟩ := solveLinear_ok solve o o' hu
    obtain ⟨segs, e, _⟩ := updateSegments_spec { o with freeCompact := free } o' dim hi.dimension
      (hi.segLength.trans hi.nSegments.symm) hi.shape hu
    rw [e]
    simp only
    rcases hf with ⟨_, e⟩ | ⟨R, _, _, e⟩
    · rw [e]; exact ih
    · rw [e, List.length_map, fixedCompact_length hi]

/-- After solving or setting free values there is one free value per free constraint and dimension. -/
theorem solved_free {q : Problem K} {o o' : LinOpt h K} (hh : LinHistory h dim solve (some q) o)
    (hu : (∃ values, o.setFreeConstraints values = .ok o') ∨ o.solveLinear solve = .ok o') :
    o'.freeCompact.length = dim ∧ (∀ v ∈ o'.freeCompact, v.length = o'.nFree) ∧ o'.nFree = o.nFree := by
  have hi := (inv_history dim solve _ o hh).2 q rfl
  obtain ⟨free, _, e, _, hlen, _⟩ := solved_spec dim q solve o o' hi hu
  have hl : o'.freeCompact.length = dim := by
    rcases hu with ⟨v, hu⟩ | hu
    · exact freeCompact_length (.free v hh hu)
    · exact freeCompact_length (.solve hh hu)
  have hn : o'.nFree = o.nFree := by
    have hi' : Inv dim q o' := by
      rcases hu with ⟨v, hu⟩ | hu
      · exact inv_setFree dim q o o' v hi hu
      · exact inv_solve dim q solve o o' hi hu
    have hv : o'.vertices = o.vertices := Except.ok.inj (hi'.vertices.symm.trans hi.vertices)
    rw [hi'.nFree, hi.nFree, hv]
  refine ⟨hl, getD_dim_mem hl _ fun d hd => ?_, hn⟩
  have h1 := hlen d hd
  obtain ⟨_, h2, _⟩ := hi.fixed_length d hd
  rw [e, hn]
  omega

/-- A further linear solution is possible. -/
def Solvable (dim : ℕ) (p : LinOpt h K) : Prop := p.freeCompact.length = dim ∧ (p.nFree = 0 → ∀ v ∈ p.freeCompact, v = [])

theorem solvable_of_solved {q : Problem K} {o o' : LinOpt h K} (hh : LinHistory h dim solve (some q) o)
    (hu : (∃ values, o.setFreeConstraints values = .ok o') ∨ o.solveLinear solve = .ok o') : Solvable dim o' := by
  obtain ⟨h1, h2, _⟩ := solved_free hh hu
  exact ⟨h1, fun h0 v hv => List.length_eq_zero_iff.mp ((h2 v hv).trans h0)⟩

theorem solvable_of_solve {q : Problem K} {o o' : LinOpt h K} (hh : LinHistory h dim solve (some q) o)
    (hu : o.solveLinear solve = .ok o') : Solvable dim o := by
  refine ⟨freeCompact_length hh, fun h0 => ?_⟩
  have hi := (inv_history dim solve _ o hh).2 q rfl
  obtain ⟨h1, h2, h3⟩ := solved_free hh (.inr hu)
  obtain ⟨free, hf, hcase⟩ := solveLinear_ok solve o o' hu
  obtain ⟨segs, e, _⟩ := updateSegments_spec { o with freeCompact := free } o' dim hi.dimension
      (hi.segLength.trans hi.nSegments.symm) hi.shape hf
  rcases hcase with ⟨_, e2⟩ | ⟨_, hne, _⟩
  · have : o'.freeCompact = o.freeCompact := by rw [e]; exact e2
    rw [this] at h2
    exact fun v hv => List.length_eq_zero_iff.mp ((h2 v hv).trans (h3.trans h0))
  · exact absurd h0 hne

theorem setFree_free {o' : LinOpt h K} (hi : Inv dim q o) (values : List (List K)) (hu : o.setFreeConstraints values = .ok o') :
    o'.freeCompact = values := by
  unfold setFreeConstraints at hu
  split at hu
  · cases hu
  split at hu
  · cases hu
  obtain ⟨segs, e, _⟩ := updateSegments_spec { o with freeCompact := values } o' dim hi.dimension
    (hi.segLength.trans hi.nSegments.symm) hi.shape hu
  rw [e]

/-- The segments right after a set-up: those the object already had, and empty ones. -/
theorem setup_segments {K : Type*} [Field K] [LinearOrder K] [IsStrictOrderedRing K] {h : ℕ} (o o' : LinOpt h K) (vs : List (Vertex K)) (ts : List K)
    (d : Int) (hu : o.setupFromVertices vs ts d = .ok o') :
    o'.segments = o.segments.take (vs.length - 1) ++ List.replicate (vs.length - 1 - o.segments.length) (Segment.mk' (h + h) o.dimension) := by
  unfold setupFromVertices at hu
  split at hu
  · cases hu
  split at hu
  · cases hu
  split at hu
  · cases hu
  simp only [bind, Except.bind] at hu
  split at hu
  · cases hu
  split at hu
  · cases hu
  rename_i o1 ho1
  obtain ⟨_, ms, _, e1⟩ := updateSegmentTimes_ok _ _ _ ho1
  subst e1
  unfold setupConstraintReorderingMatrix at hu
  simp only [bind, Except.bind, pure, Except.pure] at hu
  split at hu
  · cases hu
  rw [← Except.ok.inj hu]

end LinOpt

end Verif
