import Verif.Lemmas.LinearOptUnique
import Verif.Lemmas.NonlinearOpt

/-!
# When the callbacks of the nonlinear optimisation succeed
-/

set_option linter.unusedSectionVars false

namespace Verif

open Spec Lemmas Properties

namespace LinOpt
variable {h dim : ℕ} {solve : LinSolver ℝ}

theorem times_total {q : Problem ℝ} {o : LinOpt h ℝ} (hh : LinHistory h dim solve (some q) o) (hN : h + h ≤ 22) (ts : List ℝ)
    (hl : ts.length = q.times.length) (ht : ∀ t ∈ ts, Poly.dblEps ≤ t) :
    ∃ o', o.updateSegmentTimes ts = .ok o' ∧ o'.nFree = o.nFree ∧ o'.freeCompact = o.freeCompact ∧ o'.dimension = o.dimension := by
  have hi := (inv_history dim solve _ o hh).2 q rfl
  have hr := hi.range
  obtain ⟨ms, hm⟩ := (segmentMatrices_ok_iff (h := h) o.derivative.toNat ts (by rw [hi.derivative]; omega) hN).mpr ht
  unfold updateSegmentTimes
  rw [if_neg (by rw [hi.nSegments]; exact not_not.mpr hl), hm]
  exact ⟨_, rfl, rfl, rfl, rfl⟩

/-- The search for the maximum does not fail, whatever the root finder answers. -/
theorem candidateTimes_total (rf : Poly.RootFinder ℝ) (s : Segment ℝ) (k : ℕ) (t0 t1 : ℝ) (dims : List ℕ) (hR : Regular s) (hk : k < s.N)
    (hdims : ∀ d ∈ dims, d < s.polys.length) : ∃ c, s.candidateTimes rf k t0 t1 (dims.map Int.ofNat) = .ok c := by
  match dims with
  | [] => exact ⟨none, rfl⟩
  | [d] =>
    have hd := hdims d (by simp)
    have hlen := hR.1 _ (getD_mem s d hd)
    obtain ⟨r, h1, _, _⟩ := getCoefficients_eq (s.polys.getD d []) (k + 1) (by have := hR.2; unfold kMaxConvolutionSize; omega) (by omega)
    simp only [List.map_cons, List.map_nil, Segment.candidateTimes]
    have : (Int.ofNat d) = (d : ℤ) := rfl
    rw [this, polyAt_nat s d hd]
    simp only [bind, Except.bind, Poly.computeMinMaxCandidates]
    rw [if_neg (by omega), h1]
    exact ⟨_, rfl⟩
  | d1 :: d2 :: rest =>
    obtain ⟨r, h1, _, _⟩ := convSum_spec s k hR (by omega) (d1 :: d2 :: rest) hdims
      (List.replicate ((s.N - k) + (s.N - k - 1) - 1) 0) (by simp)
    simp only [List.map_cons, Segment.candidateTimes]
    rw [if_neg (by omega)]
    simp only [List.map_cons] at h1
    rw [h1]
    simp only [bind, Except.bind, Poly.computeMinMaxCandidates, Nat.not_lt_zero, if_false, Poly.getCoefficients, if_true]
    exact ⟨_, rfl⟩

theorem magnitudeCandidates_total (rf : Poly.RootFinder ℝ) (k : ℕ) (hk : k + 1 < h + h) (segs : List (Segment ℝ))
    (hs : ∀ s ∈ segs, Regular s ∧ k < s.N) (n : ℕ) : ∃ cs, magnitudeCandidates h rf k segs n = .ok cs := by
  induction segs generalizing n with
  | nil => exact ⟨[], rfl⟩
  | cons s segs ih =>
    obtain ⟨hR, hkN⟩ := hs s (by simp)
    obtain ⟨c, h1⟩ := candidateTimes_total rf s k 0 s.time (List.range s.polys.length) hR hkN (fun d hd => List.mem_range.mp hd)
    obtain ⟨cs, i1⟩ := ih (fun x hx => hs x (by simp [hx])) (n + 1)
    have hm : (c.getD []).mapM (candidateAt s k n) = .ok ((c.getD []).map fun t => ⟨t, magnitude s (List.range s.polys.length) k t, n⟩) :=
      mapM_ok _ _ _ fun t _ => candidateAt_eq s hR k n t
    rw [magnitudeCandidates]
    unfold computeSegmentMaximumMagnitudeCandidates
    have h1' : s.candidateTimes rf k 0 s.time ((List.range s.D).map Int.ofNat) = .ok c := h1
    rw [if_neg (not_not.mpr hk), h1']
    simp only [bind, Except.bind, pure, Except.pure]
    rw [hm, i1]
    exact ⟨_, rfl⟩

theorem computeMaximum_total (rf : Poly.RootFinder ℝ) {q : Problem ℝ} {o : LinOpt h ℝ} (hh : LinHistory h dim solve (some q) o)
    (hq : q.times ≠ []) (k : ℕ) (hk : k + 1 < h + h) : ∃ e l, o.computeMaximumOfMagnitude rf k = .ok (e, l) := by
  have hi := (inv_history dim solve _ o hh).2 q rfl
  have hpos : 0 < q.times.length := List.length_pos_iff.mpr hq
  have hN : h + h ≤ 22 := (hi.segment 0 _ (List.getElem?_eq_getElem hpos)).1
  have hs : ∀ s ∈ o.segments, Regular s ∧ k < s.N := by
    intro s hm
    have hsh := hi.shape s hm
    exact ⟨⟨fun p hp => by rw [hsh.2.2 p hp, hsh.1], by rw [hsh.1]; exact hN⟩, by rw [hsh.1]; omega⟩
  have hne : o.segments ≠ [] := by
    intro e
    have := hi.segLength
    rw [e] at this
    simp at this
    omega
  obtain ⟨cs, h1⟩ := magnitudeCandidates_total rf k hk o.segments hs 0
  unfold computeMaximumOfMagnitude
  rw [h1]
  simp only [bind, Except.bind]
  rw [List.getLast?_eq_some_getLast hne]
  simp only
  rw [candidateAt_eq _ (hs _ (List.getLast_mem hne)).1]
  exact ⟨_, _, rfl⟩

end LinOpt

namespace NonLin
open LinOpt
variable {h dim : ℕ} {rf : Poly.RootFinder ℝ} {solve : LinSolver ℝ}

/-- Every constraint is on a derivative the object can search for its maximum. -/
def Searchable (o : NonLin h) : Prop := ∀ c ∈ o.constraints, c.derivative + 1 < h + h

theorem costOf_total' {q : Problem ℝ} (linear : Bool) (ts : List ℝ) (o : NonLin h) (hh : LinHistory h dim solve (some q) o.poly)
    (hq : q.times ≠ []) (hc : Searchable o) : ∃ o' v, costOf rf linear ts o = .ok (o', v) :=
  costOf_total linear ts o _ (C26_cost q o.poly hh) fun c hm => computeMaximum_total rf hh hq _ (hc c hm)

theorem objectiveTime_total {q : Problem ℝ} (o : NonLin h) (hh : LinHistory h dim solve (some q) o.poly) (hN : h + h ≤ 22) (hq : q.times ≠ [])
    (hc : Searchable o) (hsv : Solvable dim o.poly) (x : List ℝ) (hl : x.length = q.times.length) (ht : ∀ t ∈ x, Poly.dblEps ≤ t) :
    ∃ o' v, objectiveFunctionTime rf solve o x false = .ok (o', v) ∧ Solvable dim o'.poly := by
  have hi := (inv_history dim solve _ o.poly hh).2 q rfl
  obtain ⟨p1, h1, e1, e2, _⟩ := times_total hh hN x hl ht
  have hh1 : LinHistory h dim solve (some { q with times := x }) p1 := .times x hh h1
  have hxne : x ≠ [] := by
    intro e; rw [e] at hl; exact hq (List.length_eq_zero_iff.mp hl.symm)
  obtain ⟨p2, h2⟩ := solve_total dim { q with times := x } solve p1 ((inv_history dim solve _ p1 hh1).2 _ rfl)
    (List.length_pos_iff.mpr hxne) (fun h0 => by
      rw [e2]
      exact ⟨hsv.1, hsv.2 (e1.symm.trans h0)⟩)
  obtain ⟨o', v, h3⟩ := costOf_total' (rf := rf) (o.params.method = .richterTime) x { o with poly := p2 } (.solve hh1 h2) hxne hc
  refine ⟨o', v, ?_, ?_⟩
  · unfold objectiveFunctionTime
    rw [if_neg (by simp), if_neg (by rw [hi.nSegments]; exact not_not.mpr hl), h1]
    simp only [bind, Except.bind]
    rw [h2]
    exact h3
  · rw [(costOf_keeps _ _ _ _ _ h3).2]
    exact solvable_of_solved hh1 (.inr h2)

theorem decodeFree_length (n m dim d : ℕ) (x : List ℝ) (hx : x.length = n + m * dim) (hd : d < dim) : (decodeFree n m x d).length = m := by
  unfold decodeFree
  rw [List.length_take, List.length_drop, hx]
  have : d * m + m ≤ m * dim := by
    calc d * m + m = (d + 1) * m := by ring
      _ ≤ dim * m := Nat.mul_le_mul_right _ (by omega)
      _ = m * dim := by ring
  omega

theorem objectiveFull_total {q : Problem ℝ} (o : NonLin h) (hh : LinHistory h dim solve (some q) o.poly) (hN : h + h ≤ 22) (hq : q.times ≠ [])
    (hc : Searchable o) (x : List ℝ) (hl : x.length = q.times.length + o.poly.nFree * dim)
    (ht : ∀ t ∈ x.take q.times.length, Poly.dblEps ≤ t) :
    ∃ o' v, objectiveFunctionTimeAndConstraints rf o x false = .ok (o', v) ∧ o'.poly.nFree = o.poly.nFree := by
  have hi := (inv_history dim solve _ o.poly hh).2 q rfl
  have htl : (x.take q.times.length).length = q.times.length := by rw [List.length_take]; omega
  obtain ⟨p1, h1, e1, e2, e3⟩ := times_total hh hN (x.take q.times.length) htl ht
  have hh1 : LinHistory h dim solve (some { q with times := x.take q.times.length }) p1 := .times _ hh h1
  have hi1 := (inv_history dim solve _ p1 hh1).2 _ rfl
  have hxne : x.take q.times.length ≠ [] := by
    intro e; rw [e] at htl; exact hq (List.length_eq_zero_iff.mp htl.symm)
  obtain ⟨p2, h2⟩ := setFree_total dim _ p1 hi1 ((List.range dim).map (decodeFree q.times.length o.poly.nFree x)) (by simp) (by
    intro v hv
    obtain ⟨d, hd, e⟩ := List.mem_map.mp hv
    rw [← e, e1]
    exact decodeFree_length _ _ dim d x hl (List.mem_range.mp hd))
  obtain ⟨o', v, h3⟩ := costOf_total' (rf := rf) (o.params.method = .richterTimeAndConstraints) (x.take q.times.length) { o with poly := p2 }
    (.free _ hh1 h2) hxne hc
  refine ⟨o', v, ?_, ?_⟩
  · unfold objectiveFunctionTimeAndConstraints
    rw [if_neg (by simp), if_neg (by rw [hi.nSegments, hi.dimension]; exact not_not.mpr hl), hi.nSegments]
    simp only [bind, Except.bind]
    rw [h1]
    simp only
    rw [hi.dimension, h2]
    exact h3
  · rw [(costOf_keeps _ _ _ _ _ h3).2]
    exact (solved_free hh1 (.inl ⟨_, h2⟩)).2.2.trans e1

end NonLin

end Verif
