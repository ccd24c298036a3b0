import Verif.Properties.LinearOptHistory

/-!
# Properties C29 and C30: the optimisation over segment times and free derivatives

`freeOrders`, `AtVertex`, `WithinBounds`, `GoodRun`, `NLHistory` are in `Verif.Spec`. The linear solver, the root finder and NLopt are
parameters.
-/

set_option linter.unusedSectionVars false

namespace Verif.Properties

open Verif Spec Lemmas LinOpt NonLin
variable {h dim : ℕ} {rf : Poly.RootFinder ℝ} {solve : LinSolver ℝ}

/-- C29: the objective reads the point as the segment times followed, for each dimension, by the derivatives the vertices leave free, by
vertex and order: the trajectory it evaluates has these times, and these derivatives at the vertices. -/
theorem C29_decoding (q : Problem ℝ) (o o' : NonLin h) (x : List ℝ) (g : Bool) (cost : ℝ) (hh : NLHistory h dim rf solve (some q) o)
    (hdim : 0 < dim) (hw : ∀ v ∈ q.vertices, WellFormed v) (ho : o.objectiveFunctionTimeAndConstraints rf x g = .ok (o', cost))
    (tr : Trajectory ℝ) (htr : o'.getTrajectory = .ok tr) :
    x.length = q.times.length + (freeOrders h q.vertices).length * dim ∧ tr.segments.map (·.time) = x.take q.times.length ∧
    ∀ (i v k d : ℕ) (y : ℝ), (freeOrders h q.vertices)[i]? = some (v, k) → d < dim →
      x[q.times.length + d * (freeOrders h q.vertices).length + i]? = some y → AtVertex tr.segments v k d y := by
  have hl := linHistory hh
  have hi := (inv_history dim solve _ _ hl).2 q rfl
  have hm := nFree_eq hi hw
  obtain ⟨_, hxl, p1, p2, h1, h2, hc⟩ := objectiveFull_ok o o' x g cost ho
  obtain ⟨_, hp⟩ := costOf_keeps _ _ _ _ _ hc
  have hp' : o'.poly = p2 := hp
  rw [hi.nSegments, hm, hi.dimension] at hxl h2
  rw [hi.nSegments] at h1
  have hh1 : LinHistory h dim solve (some { q with times := x.take q.times.length }) p1 := .times _ hl h1
  have hi1 := (inv_history dim solve _ _ hh1).2 _ rfl
  have hlt : (x.take q.times.length).length = q.times.length := by rw [List.length_take]; omega
  unfold NonLin.getTrajectory at htr
  rw [hp'] at htr
  obtain ⟨_, ht, _⟩ := C23_constraints _ p1 p2 hh1 hw (.inl ⟨_, h2⟩) tr htr
  refine ⟨hxl, ht hdim, fun i v k d y hik hd hy => ?_⟩
  have hes : tr.segments = p2.segments := setSegments_segments _ _ htr
  have hfree : p2.freeCompact = (List.range dim).map (decodeFree q.times.length (freeOrders h q.vertices).length x) :=
    setFree_free hi1 _ h2
  obtain ⟨_, _, hk, _⟩ := (mem_freeOrders (h := h) q.vertices v k).mp (List.mem_of_getElem? hik)
  have hat := solved_vertexValue hh1 (.inl ⟨_, h2⟩) d hd v k hk
  rw [vertexValue_free (hi1.withFree _) hw d hd ?_ i v k hik] at hat
  · rw [hes]
    simp only at hat
    rw [hfree, List.getD_eq_getElem?_getD (l := List.map _ _), List.getElem?_map, List.getElem?_range hd] at hat
    simp only [Option.map_some, Option.getD_some] at hat
    rw [decodeFree_getD _ _ _ _ _ (List.getElem?_eq_some_iff.mp hik).1 y hy] at hat
    exact hat
  · obtain ⟨free, _, e, _, hlen, _⟩ := solved_spec dim _ solve p1 p2 hi1 (.inl ⟨_, h2⟩)
    have := hlen d hd
    rw [← e] at this
    exact this

/-- C29: the starting point built from the linear solution is packed in the same order, and decoding it gives the linear solution back. -/
theorem C29_start (q : Problem ℝ) (o o1 : NonLin h) (p : NloptProblem) (hh : NLHistory h dim rf solve (some q) o)
    (hdim : 0 < dim) (hq : q.times ≠ []) (hw : ∀ v ∈ q.vertices, WellFormed v) (hs : o.solveLinear solve = .ok o1)
    (hp : o1.fullProblem = .ok p) :
    p.x0.take q.times.length = q.times ∧ (∀ tr, o1.getTrajectory = .ok tr → ∀ (i v k d : ℕ) (y : ℝ),
      (freeOrders h q.vertices)[i]? = some (v, k) → d < dim →
      p.x0[q.times.length + d * (freeOrders h q.vertices).length + i]? = some y → AtVertex tr.segments v k d y) ∧
    ∀ o2 cost, o1.objectiveFunctionTimeAndConstraints rf p.x0 false = .ok (o2, cost) → o2.getTrajectory = o1.getTrajectory := by
  have hl := linHistory hh
  have hi := (inv_history dim solve _ _ hl).2 q rfl
  obtain ⟨p', hsp, e⟩ := bind_eq_ok hs
  have ep : o1.poly = p' := by rw [← Except.ok.inj e]
  rw [← ep] at hsp
  obtain ⟨hfl, hfv, hfn⟩ := solved_free hl (.inr hsp)
  have hm : o1.poly.nFree = (freeOrders h q.vertices).length := by rw [hfn]; exact nFree_eq hi hw
  obtain ⟨pr, e1, e2, e3, _⟩ := fullProblem_spec o1 hdim hq hl hsp
  rw [hp] at e1
  rw [← Except.ok.inj e1] at e2 e3
  have hh1 := linHistory (.solve hh hs)
  have hi1 := (inv_history dim solve _ _ hh1).2 q rfl
  have hflat : ∀ d < dim, o1.poly.freeCompact[d]? = some (decodeFree q.times.length (freeOrders h q.vertices).length p.x0 d) := by
    intro d hd
    have : o1.poly.freeCompact[d]? = some (o1.poly.freeCompact[d]'(by omega)) := List.getElem?_eq_getElem (by omega)
    rw [this, e2, decodeFree_flatten q.times o1.poly.freeCompact _ d (fun v hv => (hfv v hv).trans hm) _ this]
  refine ⟨by rw [e2]; simp, fun tr htr i v k d y hik hd hy => ?_, fun o2 cost ho => ?_⟩
  · have hes : tr.segments = o1.poly.segments := setSegments_segments _ _ htr
    obtain ⟨_, _, hk, _⟩ := (mem_freeOrders (h := h) q.vertices v k).mp (List.mem_of_getElem? hik)
    have hat := solved_vertexValue hl (.inr hsp) d hd v k hk
    rw [vertexValue_free (hi.withFree _) hw d hd ?_ i v k hik] at hat
    · rw [hes]
      simp only at hat
      rw [List.getD_eq_getElem?_getD (l := o1.poly.freeCompact), hflat d hd] at hat
      simp only [Option.getD_some] at hat
      rw [decodeFree_getD _ _ _ _ _ (List.getElem?_eq_some_iff.mp hik).1 y hy] at hat
      exact hat
    · obtain ⟨free, _, e, _, hlen, _⟩ := solved_spec dim _ solve o.poly o1.poly hi (.inr hsp)
      have := hlen d hd
      rw [← e] at this
      exact this
  · obtain ⟨_, hxl, p1, p2, h1, h2, hc⟩ := objectiveFull_ok o1 o2 _ _ cost ho
    obtain ⟨_, hp2⟩ := costOf_keeps _ _ _ _ _ hc
    have hp2' : o2.poly = p2 := hp2
    rw [hi1.nSegments, hm, hi1.dimension] at h2
    rw [hi1.nSegments] at h1
    have htake : p.x0.take q.times.length = q.times := by rw [e2]; simp
    rw [htake] at h1
    have hh2 : LinHistory h dim solve (some q) p1 := .times q.times hh1 h1
    have hi2 := (inv_history dim solve _ _ hh2).2 _ rfl
    have hf2 : p2.freeCompact = (List.range dim).map (decodeFree q.times.length (freeOrders h q.vertices).length p.x0) :=
      setFree_free hi2 _ h2
    have hfeq : p2.freeCompact = o1.poly.freeCompact := by
      rw [hf2]
      apply List.ext_getElem?
      intro d
      by_cases hd : d < dim
      · rw [hflat d hd, List.getElem?_map, List.getElem?_range hd]
        rfl
      · rw [List.getElem?_eq_none (by simp; omega), List.getElem?_eq_none (by omega)]
    unfold NonLin.getTrajectory LinOpt.getTrajectory
    rw [hp2', segments_unique (solve := solve) (solve2 := solve) hi2 hi hdim (.inl ⟨_, h2⟩) (.inr hsp) hfeq]

/-- C30: after the linear solution, which `optimize` computes first, the problem handed to NLopt exists, has as many variables as the NLopt object,
the starting point lies within the bounds, and within the bounds every segment time is at least the smaller of 0.1 and its starting
value, which is positive. -/
theorem C30_bounds (q : Problem ℝ) (o o1 : NonLin h) (hh : NLHistory h dim rf solve (some q) o) (hdim : 0 < dim) (hq : q.times ≠ [])
    (hm : FullMethod o.params.method) (hs : o.solveLinear solve = .ok o1) :
    ∃ p nl, o1.fullProblem = .ok p ∧ o1.nlopt = some nl ∧ p.x0.length = nl.dim ∧ p.lower.length = nl.dim ∧ p.upper.length = nl.dim ∧
      p.step.length = nl.dim ∧ WithinBounds p p.x0 ∧
      ∀ x, WithinBounds p x → List.Forall₂ (fun t0 t => min (1 / 10) t0 ≤ t ∧ 0 < t) q.times (x.take q.times.length) := by
  have hl := linHistory hh
  obtain ⟨p', hsp, e⟩ := bind_eq_ok hs
  have ep : o1.poly = p' := by rw [← Except.ok.inj e]
  have em : o1.params = o.params := by rw [← Except.ok.inj e]
  rw [← ep] at hsp
  obtain ⟨p, h1, h2, h3, h4, h5⟩ := fullProblem_spec o1 hdim hq hl hsp
  have hh1 : NLHistory h dim rf solve (some q) o1 := .solve hh hs
  obtain ⟨nl, hn, hd⟩ := (nlopt_history hh1).2 q rfl
  obtain ⟨_, hteps⟩ := hN_of_history hl hq
  have hx : p.x0.length = nl.dim := by
    rw [h3, hd, em]
    rcases hm with hm | hm <;> rw [hm] <;> rfl
  obtain ⟨l1, l2, l3⟩ := fullProblem_lengths o1 p h1
  refine ⟨p, nl, h1, hn, hx, l1.trans hx, l2.trans hx, l3.trans hx, h4, fun x hxb => ?_⟩
  have hF := (h5 x hxb).2
  have hall := forall2_min _ _ hF hteps
  rw [List.forall₂_iff_get] at hF ⊢
  refine ⟨hF.1, fun i hi hi' => ⟨hF.2 i hi hi', ?_⟩⟩
  have := hall _ (List.getElem_mem hi')
  exact lt_of_lt_of_le (by unfold Poly.dblEps; norm_num) this

/-- C30: with a positive relative step size, every initial step handed to NLopt is positive (NLopt refuses steps of zero), also that of a variable that starts at
zero, both for the optimisation over times and free derivatives and for that of the times only. -/
theorem C30_steps (q : Problem ℝ) (o : NonLin h) (hh : NLHistory h dim rf solve (some q) o) (hq : q.times ≠ []) (hr : 0 < o.params.initialStepRel) :
    (∀ p, o.fullProblem = .ok p → p.step.length = p.x0.length ∧ ∀ x ∈ p.step, 0 < x) ∧
    o.timeProblem.step.length = o.timeProblem.x0.length ∧ ∀ x ∈ o.timeProblem.step, 0 < x := by
  have hl := linHistory hh
  refine ⟨fun p hp => ⟨(fullProblem_lengths o p hp).2.2, fun x hx => ?_⟩, by simp [NonLin.timeProblem], fun x hx => ?_⟩
  · have hstep : p.step = p.x0.map (NonLin.initialStep o.params.initialStepRel) := by
      unfold NonLin.fullProblem at hp
      split at hp
      · cases hp
      simp only at hp
      split at hp
      · cases hp
      obtain ⟨free, _, hp⟩ := bind_eq_ok hp
      split at hp
      · cases hp
      split at hp
      · cases hp
      rw [← Except.ok.inj hp]
    rw [hstep] at hx
    obtain ⟨y, _, rfl⟩ := List.mem_map.mp hx
    unfold NonLin.initialStep
    split
    · positivity
    · rename_i hy
      exact mul_pos hr (lt_of_le_of_lt (by unfold Poly.dblEps; positivity) (not_le.mp hy))
  · obtain ⟨t, ht, rfl⟩ := List.mem_map.mp hx
    obtain ⟨_, hteps⟩ := hN_of_history hl hq
    refine mul_pos hr (lt_of_lt_of_le (by unfold Poly.dblEps; norm_num) (hteps t ?_))
    rwa [← LinHistory_times hl]

/-- C30: `optimize` over times and free derivatives succeeds whatever NLopt does within its contract; the trajectory then held can be read, meets
the constraints, is smooth, and has segment times of at least the smaller of 0.1 and the starting value. -/
theorem C30_optimize_succeeds (q : Problem ℝ) (o o1 : NonLin h) (run : NloptRun) (hh : NLHistory h dim rf solve (some q) o) (hdim : 0 < dim)
    (hq : q.times ≠ []) (hw : ∀ v ∈ q.vertices, WellFormed v) (hm : FullMethod o.params.method)
    (hc : ∀ c ∈ o.constraints, c.derivative + 1 < h + h) (hs : o.solveLinear solve = .ok o1) (hg : GoodRun solve o run) :
    ∃ o' code tr, o.optimize rf solve run = .ok (o', code) ∧ o'.getTrajectory = .ok tr ∧
      MeetsConstraints h q.vertices tr.segments ∧ SmoothJoints h tr.segments ∧
      List.Forall₂ (fun t0 t => min (1 / 10) t0 ≤ t) q.times (tr.segments.map (·.time)) := by
  obtain ⟨o', code, e1, ts, t1, p0, t2, t3⟩ := optimizeFull_total o o1 run hh hdim hq hm hc hs hg
  have hne : ts ≠ [] := by
    intro e; rw [e] at t1; exact hq (List.forall₂_nil_right_iff.mp t1)
  obtain ⟨tr, htr⟩ := solved_trajectory ⟨p0, t2, t3⟩ hne
  obtain ⟨_, h2, h3⟩ := C23_constraints _ p0 o'.poly t2 hw t3 tr htr
  refine ⟨o', code, tr, e1, htr, h3, C24_smooth _ p0 o'.poly t2 t3 tr htr, ?_⟩
  rw [h2 hdim]
  exact t1

/-- C30: the same for the optimisation of the times only, from a linear solution. -/
theorem C30_optimizeTime_succeeds (q : Problem ℝ) (o o1 : NonLin h) (run : NloptRun) (hh : NLHistory h dim rf solve (some q) o) (hdim : 0 < dim)
    (hq : q.times ≠ []) (hw : ∀ v ∈ q.vertices, WellFormed v) (hm : TimeMethod o.params.method)
    (hc : ∀ c ∈ o.constraints, c.derivative + 1 < h + h) (hs : o.solveLinear solve = .ok o1) (hg : GoodRun solve o1 run) :
    ∃ o' code tr, o1.optimize rf solve run = .ok (o', code) ∧ o'.getTrajectory = .ok tr ∧
      MeetsConstraints h q.vertices tr.segments ∧ SmoothJoints h tr.segments ∧
      (tr.segments.map (·.time) = q.times ∨ ∀ s ∈ tr.segments, 1 / 10 ≤ s.time) := by
  obtain ⟨o', code, e1, ts, t1, p0, t2, t3⟩ := optimizeTime_total o o1 run hh hq hm hc hs hg
  have hi' := (inv_history dim solve _ _ t2).2 _ rfl
  have hi := (inv_history dim solve _ _ (linHistory hh)).2 _ rfl
  have hne : ts ≠ [] := by
    have h1 := hi.length
    have h2 := hi'.length
    have h3 := List.length_pos_iff.mpr hq
    simp only at h2
    exact List.length_pos_iff.mp (by omega)
  obtain ⟨tr, htr⟩ := solved_trajectory ⟨p0, t2, t3⟩ hne
  obtain ⟨_, h2, h3⟩ := C23_constraints _ p0 o'.poly t2 hw t3 tr htr
  refine ⟨o', code, tr, e1, htr, h3, C24_smooth _ p0 o'.poly t2 t3 tr htr, ?_⟩
  have h2 := h2 hdim
  simp only at h2
  rw [h2]
  refine t1.imp id fun h s hs => h _ ?_
  rw [← h2]
  exact List.mem_map_of_mem hs

end Verif.Properties
