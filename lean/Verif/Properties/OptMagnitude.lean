import Verif.Model.OptMagnitude
import Verif.Properties.Magnitude
import Verif.Properties.LinearOptCost

/-!
# Property C75: the maximum the optimisation object reports

`magnitude` is in `Verif.Spec`; the root finder is a parameter, complete by hypothesis.
-/

set_option linter.unusedSectionVars false

namespace Verif.Properties

open Verif Spec Lemmas LinOpt

theorem candidateAt_eq (s : Segment ℝ) (hR : Regular s) (k idx : ℕ) (t : ℝ) :
    candidateAt s k idx t = .ok ⟨t, magnitude s (List.range s.polys.length) k t, idx⟩ := by
  unfold candidateAt
  rw [segment_evaluate_eq s t k (fun p hp => by rw [hR.1 p hp]; exact hR.2)]
  simp only [bind, Except.bind, pure, Except.pure]
  have : (segDeriv s k t).map (fun x => x ^ 2) =
      (List.range s.polys.length).map fun d => derivAt (s.polys.getD d []) k t ^ 2 := by
    unfold segDeriv
    rw [List.map_map]
    apply List.ext_getElem
    · simp
    · intro i h1 h2
      simp at h1
      simp [List.getD_eq_getElem?_getD, List.getElem?_eq_getElem h1]
  rw [this]
  rfl

/-- The candidate times of one segment lie in the interval and include a time of largest magnitude. -/
theorem candidates_dominate (rf : Poly.RootFinder ℝ) (hrf : ∀ c, FindsRealRoots c (rf c)) (s : Segment ℝ) (k : ℕ) (hR : Regular s)
    (hk : k < s.N) (hD : 0 < s.polys.length) (hT : 0 ≤ s.time) :
    ∃ ts, s.candidateTimes rf k 0 s.time ((List.range s.D).map Int.ofNat) = .ok (some ts) ∧ (∀ t ∈ ts, t ∈ Set.Icc 0 s.time) ∧
      ∀ y ∈ Set.Icc 0 s.time, ∃ x ∈ ts, magnitude s (List.range s.polys.length) k y ≤ magnitude s (List.range s.polys.length) k x := by
  have hne : List.range s.polys.length ≠ [] := by
    intro e
    have := congrArg List.length e
    simp only [List.length_range, List.length_nil] at this
    omega
  have hdims : ∀ d ∈ List.range s.polys.length, d < s.polys.length := fun d hd => List.mem_range.mp hd
  obtain ⟨ts, h1, h2, h3, h4, h5, h6⟩ := candidateTimes_spec rf hrf s k 0 s.time _ hR hk hne hdims hT
  refine ⟨ts, h1, h4, fun y hy => ?_⟩
  obtain ⟨c, mn', mx', e1, e2, e3, _⟩ := segment_extrema rf hrf s k 0 s.time _ hR hk hne hdims hT ⟨0, 0, 0⟩ ⟨0, 0, 0⟩
  have e4 := candidates_eq rf s k 0 s.time _ hR hdims ts h1
  rw [e1] at e4
  have ec := Except.ok.inj e4
  obtain ⟨_, a2, _, a4, _, a6⟩ := selectFold_spec (magnitude s (List.range s.polys.length) k) 0 s.time ts h4
    ((⟨0, Poly.dblMax, 0⟩ : Extremum ℝ), (⟨0, -Poly.dblMax, 0⟩ : Extremum ℝ))
  unfold Segment.selectMinMaxMagnitudeFromCandidates at e2
  rw [if_neg (not_lt.mpr hT), ec] at e2
  have e5 := Option.some.inj e2
  rw [e5] at a2
  rcases a2 with ha | ⟨ha, hv⟩
  · exfalso
    have hlow := e3.2.2 0 (Set.left_mem_Icc.mpr hT)
    simp only at ha
    rw [ha] at hlow
    have h0 : 0 ≤ magnitude s (List.range s.polys.length) k 0 := Real.sqrt_nonneg _
    have := dblMax_pos
    simp only at hlow
    linarith
  · exact ⟨mx'.time, ha, (e3.2.2 y hy).trans_eq hv⟩

/-- What the loop over the segments collects. -/
theorem magnitudeCandidates_spec (h : ℕ) (rf : Poly.RootFinder ℝ) (hrf : ∀ c, FindsRealRoots c (rf c)) (k : ℕ) (hk : k + 1 < h + h)
    (segs : List (Segment ℝ)) (hs : ∀ s ∈ segs, Regular s ∧ k < s.N ∧ 0 ≤ s.time ∧ 0 < s.polys.length) (n : ℕ) :
    ∃ cs, magnitudeCandidates h rf k segs n = .ok cs ∧
      (∀ c ∈ cs, ∃ (j : ℕ) (s : Segment ℝ), segs[j]? = some s ∧ c.segmentIdx = n + j ∧ c.time ∈ Set.Icc 0 s.time ∧
        c.value = magnitude s (List.range s.polys.length) k c.time) ∧
      ∀ (j : ℕ) (s : Segment ℝ), segs[j]? = some s → ∀ τ ∈ Set.Icc 0 s.time, ∃ c ∈ cs,
        magnitude s (List.range s.polys.length) k τ ≤ c.value := by
  induction segs generalizing n with
  | nil => exact ⟨[], rfl, by simp, by simp⟩
  | cons s segs ih =>
    obtain ⟨hR, hkN, hT, hD⟩ := hs s (by simp)
    obtain ⟨ts, h1, h2, h3⟩ := candidates_dominate rf hrf s k hR hkN hD hT
    obtain ⟨cs, i1, i2, i3⟩ := ih (fun x hx => hs x (by simp [hx])) (n + 1)
    have hm : ts.mapM (candidateAt s k n) = .ok (ts.map fun t => ⟨t, magnitude s (List.range s.polys.length) k t, n⟩) :=
      mapM_ok _ _ _ fun t _ => candidateAt_eq s hR k n t
    refine ⟨(ts.map fun t => ⟨t, magnitude s (List.range s.polys.length) k t, n⟩) ++ cs, ?_, ?_, ?_⟩
    · rw [magnitudeCandidates]
      unfold computeSegmentMaximumMagnitudeCandidates
      rw [if_neg (not_not.mpr hk), h1]
      simp only [bind, Except.bind, pure, Except.pure, Option.getD_some]
      rw [hm, i1]
    · intro c hc
      rw [List.mem_append, List.mem_map] at hc
      rcases hc with ⟨t, ht, e⟩ | hc
      · rw [← e]
        exact ⟨0, s, rfl, rfl, h2 t ht, rfl⟩
      · obtain ⟨j, s', hj, g1, g2⟩ := i2 c hc
        exact ⟨j + 1, s', by simpa using hj, by rw [g1]; omega, g2⟩
    · intro j s' hj τ hτ
      cases j with
      | zero =>
        simp at hj
        subst hj
        obtain ⟨x, hx, hle⟩ := h3 τ hτ
        exact ⟨_, List.mem_append_left _ (List.mem_map.mpr ⟨x, hx, rfl⟩), hle⟩
      | succ j =>
        obtain ⟨c, hc, hle⟩ := i3 j s' (by simpa using hj) τ hτ
        exact ⟨c, List.mem_append_right _ hc, hle⟩

theorem foldMax_spec (cs : List (Extremum ℝ)) (e : Extremum ℝ) :
    let r := cs.foldl (fun e c => if e.value < c.value then c else e) e
    (r = e ∨ r ∈ cs) ∧ e.value ≤ r.value ∧ ∀ c ∈ cs, c.value ≤ r.value := by
  induction cs generalizing e with
  | nil => exact ⟨.inl rfl, le_refl _, by simp⟩
  | cons c cs ih =>
    simp only [List.foldl_cons]
    obtain ⟨i1, i2, i3⟩ := ih (if e.value < c.value then c else e)
    split at i1
    · rename_i hlt
      rw [if_pos hlt] at i2 i3 ⊢
      exact ⟨.inr (i1.elim (fun h => by rw [h]; simp) (fun h => List.mem_cons_of_mem _ h)), hlt.le.trans i2,
        fun x hx => (List.mem_cons.mp hx).elim (fun h => by rw [h]; exact i2) (i3 x)⟩
    · rename_i hlt
      rw [if_neg hlt] at i2 i3 ⊢
      exact ⟨i1.elim .inl (fun h => .inr (List.mem_cons_of_mem _ h)), i2,
        fun x hx => (List.mem_cons.mp hx).elim (fun h => by rw [h]; exact (not_lt.mp hlt).trans i2) (i3 x)⟩

theorem maximum_spec {h : ℕ} (rf : Poly.RootFinder ℝ) (hrf : ∀ c, FindsRealRoots c (rf c)) (o : LinOpt h ℝ) (k : ℕ) (hk : k + 1 < h + h)
    (hne : o.segments ≠ []) (hn : o.nSegments = o.segments.length)
    (hs : ∀ s ∈ o.segments, Regular s ∧ k < s.N ∧ 0 ≤ s.time ∧ 0 < s.polys.length) :
    ∃ e cs, o.computeMaximumOfMagnitude rf k = .ok (e, cs) ∧
      (∃ s, o.segments[e.segmentIdx]? = some s ∧ e.time ∈ Set.Icc 0 s.time ∧ e.value = magnitude s (List.range s.polys.length) k e.time) ∧
      (∀ s ∈ o.segments, ∀ τ ∈ Set.Icc 0 s.time, magnitude s (List.range s.polys.length) k τ ≤ e.value) ∧
      ∀ c ∈ cs, ∃ s, o.segments[c.segmentIdx]? = some s ∧ c.time ∈ Set.Icc 0 s.time ∧
        c.value = magnitude s (List.range s.polys.length) k c.time := by
  obtain ⟨cs, h1, h2, h3⟩ := magnitudeCandidates_spec h rf hrf k hk o.segments hs 0
  have hlast : o.segments[o.segments.length - 1]? = some (o.segments.getLast hne) := by
    rw [← List.getLast?_eq_getElem?, List.getLast?_eq_some_getLast hne]
  set s := o.segments.getLast hne with hsdef
  obtain ⟨hR, hkN, hT, hD⟩ := hs s (List.getLast_mem hne)
  have hall : ∀ c ∈ cs ++ [⟨s.time, magnitude s (List.range s.polys.length) k s.time, o.nSegments - 1⟩],
      ∃ s, o.segments[c.segmentIdx]? = some s ∧ c.time ∈ Set.Icc 0 s.time ∧
        c.value = magnitude s (List.range s.polys.length) k c.time := by
    intro c hc
    rw [List.mem_append, List.mem_singleton] at hc
    rcases hc with hc | hc
    · obtain ⟨j, s', hj, g1, g2⟩ := h2 c hc
      exact ⟨s', by rw [g1, Nat.zero_add]; exact hj, g2⟩
    · rw [hc]
      exact ⟨s, by simp only; rw [hn]; exact hlast, Set.right_mem_Icc.mpr hT, rfl⟩
  obtain ⟨f1, f2, f3⟩ := foldMax_spec (cs ++ [⟨s.time, magnitude s (List.range s.polys.length) k s.time, o.nSegments - 1⟩]) ⟨0, 0, 0⟩
  generalize hr : (cs ++ [(⟨s.time, magnitude s (List.range s.polys.length) k s.time, o.nSegments - 1⟩ : Extremum ℝ)]).foldl
    (fun (e c : Extremum ℝ) => if e.value < c.value then c else e) ⟨0, 0, 0⟩ = r at f1 f2 f3
  refine ⟨r, _, ?_, ?_, ?_, hall⟩
  · unfold computeMaximumOfMagnitude
    rw [h1]
    simp only [bind, Except.bind]
    rw [List.getLast?_eq_some_getLast hne, ← hsdef]
    simp only
    rw [candidateAt_eq s hR]
    simp only [pure, Except.pure]
    rw [hr]
  · rcases f1 with h0 | hm
    · obtain ⟨s0, hs0⟩ : ∃ s0, o.segments[0]? = some s0 := ⟨_, List.getElem?_eq_getElem (List.length_pos_iff.mpr hne)⟩
      obtain ⟨_, _, hT0, _⟩ := hs s0 (List.mem_of_getElem? hs0)
      obtain ⟨c, hc, hle⟩ := h3 0 s0 hs0 0 (Set.left_mem_Icc.mpr hT0)
      have hle2 := f3 c (List.mem_append_left _ hc)
      rw [h0] at hle2 ⊢
      refine ⟨s0, hs0, Set.left_mem_Icc.mpr hT0, le_antisymm (Real.sqrt_nonneg _) ?_⟩
      exact hle.trans hle2
    · exact hall _ hm
  · intro s' hs' τ hτ
    obtain ⟨j, hj⟩ := List.mem_iff_getElem?.mp hs'
    obtain ⟨c, hc, hle⟩ := h3 j s' hj τ hτ
    exact hle.trans (f3 c (List.mem_append_left _ hc))

/-- C75: after solving, or after setting free derivatives, of any acceptable problem, the reported maximum of a derivative of order
`k < N - 1` is the magnitude at the reported time of the reported segment, and no time of any segment has a larger one. Every reported
candidate is the magnitude at its time and segment. -/
theorem C75_maximum {h dim : ℕ} {solve : LinSolver ℝ} (rf : Poly.RootFinder ℝ) (hrf : ∀ c, FindsRealRoots c (rf c)) (q : Problem ℝ)
    (o o' : LinOpt h ℝ) (hh : LinHistory h dim solve (some q) o) (hdim : 0 < dim) (hq : q.times ≠ [])
    (hu : (∃ values, o.setFreeConstraints values = .ok o') ∨ o.solveLinear solve = .ok o') (tr : Trajectory ℝ)
    (htr : o'.getTrajectory = .ok tr) (k : ℕ) (hk : k + 1 < h + h) :
    ∃ e cs, o'.computeMaximumOfMagnitude rf k = .ok (e, cs) ∧
      (∃ s, tr.segments[e.segmentIdx]? = some s ∧ e.time ∈ Set.Icc 0 s.time ∧ e.value = magnitude s (List.range dim) k e.time) ∧
      (∀ s ∈ tr.segments, ∀ τ ∈ Set.Icc 0 s.time, magnitude s (List.range dim) k τ ≤ e.value) ∧
      ∀ c ∈ cs, ∃ s, tr.segments[c.segmentIdx]? = some s ∧ c.time ∈ Set.Icc 0 s.time ∧
        c.value = magnitude s (List.range dim) k c.time := by
  have hi := (inv_history dim solve _ o hh).2 q rfl
  have hi' : Inv dim q o' := by
    rcases hu with ⟨v, hu⟩ | hu
    · exact inv_setFree dim q o o' v hi hu
    · exact inv_solve dim q solve o o' hi hu
  obtain ⟨free, hi1, _, hl, hlen, hs⟩ := solved_spec dim q solve o o' hi hu
  rw [setSegments_segments _ _ htr]
  have hpos : 0 < q.times.length := List.length_pos_iff.mpr hq
  have hN : h + h ≤ 22 := (hi.segment 0 _ (List.getElem?_eq_getElem hpos)).1
  have hshape : ∀ s ∈ o'.segments, Regular s ∧ k < s.N ∧ 0 ≤ s.time ∧ s.polys.length = dim := by
    intro s hm
    obtain ⟨j, hj⟩ := List.mem_iff_getElem?.mp hm
    have hsh := hi'.shape s hm
    have ht := (hs j s hj).2.1 hdim
    obtain ⟨_, hge, _⟩ := hi.segment j _ ht
    exact ⟨⟨fun p hp => by rw [hsh.2.2 p hp, hsh.1], by rw [hsh.1]; exact hN⟩, by rw [hsh.1]; omega,
      (lt_of_lt_of_le dblEps_pos hge).le, hsh.2.1⟩
  have hne : o'.segments ≠ [] := by
    intro e
    rw [e] at hl
    simp at hl
    omega
  obtain ⟨e, cs, g1, ⟨s, g2, g3, g4⟩, g5, g6⟩ := maximum_spec rf hrf o' k hk hne
    (hi'.nSegments.trans hl.symm) (fun s hm => by
      obtain ⟨a, b, c, d⟩ := hshape s hm
      exact ⟨a, b, c, by omega⟩)
  refine ⟨e, cs, g1, ⟨s, g2, g3, ?_⟩, ?_, ?_⟩
  · rw [← (hshape s (List.mem_of_getElem? g2)).2.2.2]; exact g4
  · intro s' hm τ hτ
    rw [← (hshape s' hm).2.2.2]
    exact g5 s' hm τ hτ
  · intro c hc
    obtain ⟨s', a, b, d⟩ := g6 c hc
    exact ⟨s', a, b, by rw [← (hshape s' (List.mem_of_getElem? a)).2.2.2]; exact d⟩

/-- C75: orders `N - 1` and above are a failed check. -/
theorem C75_order_checked {h : ℕ} (rf : Poly.RootFinder ℝ) (o : LinOpt h ℝ) (k : ℕ) (hk : h + h ≤ k + 1) (hne : o.segments ≠ []) :
    o.computeMaximumOfMagnitude rf k = .error .check := by
  unfold computeMaximumOfMagnitude
  match hs : o.segments with
  | [] => exact absurd hs hne
  | s :: l =>
    rw [magnitudeCandidates]
    unfold computeSegmentMaximumMagnitudeCandidates
    rw [if_pos (by omega)]
    rfl

/-- The hypotheses hold for a concrete problem in three dimensions: its top speed is known exactly. -/
example : ∃ (rf : Poly.RootFinder ℝ) (o o' : LinOpt 5 ℝ) (tr : Trajectory ℝ), (∀ c, FindsRealRoots c (rf c)) ∧
    LinHistory 5 3 exactSolver (some realProblem) o ∧ o.solveLinear exactSolver = .ok o' ∧ o'.getTrajectory = .ok tr ∧
    ∃ e cs, o'.computeMaximumOfMagnitude rf 1 = .ok (e, cs) ∧
      ∀ s ∈ tr.segments, ∀ τ ∈ Set.Icc 0 s.time, magnitude s (List.range 3) 1 τ ≤ e.value := by
  obtain ⟨rf, hrf⟩ := exists_complete_rootFinder
  obtain ⟨o, o', tr, hh, hs, htr⟩ := C28_solves (solve := exactSolver) (h := 5) (dim := 3) realProblem (by omega) realProblem_wellFormed
    realProblem_acceptable (by simp [realProblem])
  obtain ⟨e, cs, h1, _, h3, _⟩ := C75_maximum rf hrf realProblem o o' hh (by omega) (by simp [realProblem]) (.inr hs) tr htr 1 (by omega)
  exact ⟨rf, o, o', tr, hrf, hh, hs, htr, e, cs, h1, h3⟩

end Verif.Properties
