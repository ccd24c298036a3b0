import Verif.Lemmas.NonlinearBounds
import Verif.Properties.NonlinearOpt

/-!
# Property C31: which variables the limits bound

`BoundsMatch` is in `Verif.Spec`.
-/

set_option linter.unusedSectionVars false

namespace Verif.Properties

open Verif Spec Lemmas LinOpt NonLin
variable {h dim : ℕ} {rf : Poly.RootFinder ℝ} {solve : LinSolver ℝ}

/-- Full statement of C31: a limit on the magnitude of derivative `k` bounds exactly the variables that are derivative `k` of some vertex. -/
def C31Full : Prop :=
  ∀ (h dim : ℕ) (rf : Poly.RootFinder ℝ) (solve : LinSolver ℝ) (q : Problem ℝ) (o o1 : NonLin h) (p : NloptProblem),
    NLHistory h dim rf solve (some q) o → 0 < dim → q.times ≠ [] → (∀ v ∈ q.vertices, WellFormed v) → o.solveLinear solve = .ok o1 →
    o1.fullProblem = .ok p → BoundsMatch h q.times.length dim q.vertices o.constraints p

/-- Which free variables get bounds, for any optimised derivative: the variable number `i` of a dimension is taken for the `i`-th free
derivative of order up to the optimised one. -/
theorem bounds_spec (q : Problem ℝ) (o o1 : NonLin h) (p : NloptProblem) (hh : NLHistory h dim rf solve (some q) o)
    (hw : ∀ v ∈ q.vertices, WellFormed v) (hs : o.solveLinear solve = .ok o1) (hp : o1.fullProblem = .ok p)
    (i d : ℕ) (hi : i < (freeOrders h q.vertices).length) (hd : d < dim) (y : ℝ)
    (hy : p.x0[q.times.length + d * (freeOrders h q.vertices).length + i]? = some y) (k : ℕ)
    (hk : ∀ c ∈ o.constraints, (countedOrders o1.poly.vertices q.derivative)[i]? = some c.derivative ↔ c.derivative = k) :
    p.lower[q.times.length + d * (freeOrders h q.vertices).length + i]? = some ((lastLimit k o.constraints).map fun l => min (-|l|) y) ∧
    p.upper[q.times.length + d * (freeOrders h q.vertices).length + i]? = some ((lastLimit k o.constraints).map fun l => max |l| y) := by
  have hl := linHistory hh
  obtain ⟨p', hsp, e⟩ := bind_eq_ok hs
  have e := Except.ok.inj e
  have ec : o1.constraints = o.constraints := by rw [← e]
  have hh1 := linHistory (.solve hh hs)
  have hi1 := (inv_history dim solve _ _ hh1).2 q rfl
  have hm := nFree_eq hi1 hw
  obtain ⟨bs, hb, _⟩ := fullProblem_ok o1 p hp
  have hlen : (countedOrders o1.poly.vertices q.derivative).length ≤ (freeOrders h q.vertices).length := by
    rw [← hm, hi1.nFree, ← List.length_map (f := fun c : Constraint ℝ => (c.vertexIdx, c.constraintIdx)), free_keys]
    exact countedOrders_length _ _ hi1.range.2
  have hj : d * (freeOrders h q.vertices).length + i < dim * (freeOrders h q.vertices).length := by
    calc _ < d * (freeOrders h q.vertices).length + (freeOrders h q.vertices).length := by omega
      _ = (d + 1) * (freeOrders h q.vertices).length := by ring
      _ ≤ _ := Nat.mul_le_mul_right _ (by omega)
  have hbj := hardBounds_entries o1 bs hb (d * (freeOrders h q.vertices).length + i) k (by rw [hi1.dimension, hm]; exact hj) (by
    intro c hc
    rw [ec] at hc
    rw [hi1.dimension, hm, hi1.derivative, counted_iff _ _ _ _ _ _ hd hi hlen]
    exact hk c hc)
  rw [ec] at hbj
  have htimes : o1.poly.times.length = q.times.length := by rw [hi1.times]
  rw [add_assoc, ← htimes] at hy
  obtain ⟨g1, g2⟩ := fullProblem_free o1 p hp bs hb _ y _ hy hbj
  rw [add_assoc, ← htimes, g1, g2]
  cases lastLimit k o.constraints with
  | none => exact ⟨rfl, rfl⟩
  | some l =>
    simp only [widen_both]
    exact ⟨rfl, rfl⟩

/-- C31, proved part: when the optimised derivative is the highest possible (`N/2 - 1`). Missing: lower derivatives; see `C31_refuted`. -/
theorem C31_bounds_partial (q : Problem ℝ) (o o1 : NonLin h) (p : NloptProblem) (hh : NLHistory h dim rf solve (some q) o)
    (hw : ∀ v ∈ q.vertices, WellFormed v) (hs : o.solveLinear solve = .ok o1) (hp : o1.fullProblem = .ok p)
    (hd : q.derivative + 1 = h) : BoundsMatch h q.times.length dim q.vertices o.constraints p := by
  intro i v k d y hik hdd hy
  have hi := (List.getElem?_eq_some_iff.mp hik).1
  refine bounds_spec q o o1 p hh hw hs hp i d hi hdd y hy k fun c _ => ?_
  have hi1 := (inv_history dim solve _ _ (linHistory (.solve hh hs))).2 q rfl
  rw [countedOrders_eq (h := h) _ _ hd, freeOrders_filter q.vertices o1.poly.vertices hw hi1.vertices, List.getElem?_map, hik]
  simp only [Option.map_some, Option.some.injEq]
  exact eq_comm

/-! ## Concrete objects -/

/-- A new object set up with a problem. -/
theorem nl_setup (params : NLParams) (q : Problem ℝ) (hN : h + h ≤ 22) (hw : ∀ v ∈ q.vertices, WellFormed v)
    (ha : AcceptableProblem h dim q) (hq : q.times ≠ []) :
    ∃ o o1 : NonLin h, NLHistory h dim rf solve (some q) o ∧ o.params = params ∧ o.constraints = [] ∧ o.solveLinear solve = .ok o1 ∧
      ∃ nl, o.nlopt = some nl ∧ nl.hard = [] := by
  obtain ⟨p, hp⟩ := setup_total dim q (LinOpt.init h ℝ dim) rfl hN hw ha
  have hset : ∃ n, (NonLin.init h dim params).setupFromVertices q.vertices q.times q.derivative =
      .ok { NonLin.init h dim params with poly := p, nlopt := some ⟨n, []⟩ } := by
    refine ⟨wantedDim params.method q.times.length p.nFree p.dimension, ?_⟩
    unfold NonLin.setupFromVertices wantedDim
    rw [show (NonLin.init h dim params).poly = LinOpt.init h ℝ dim from rfl, hp]
    rw [show (NonLin.init h dim params).params = params from rfl]
    cases params.method <;> rfl
  obtain ⟨n, hset⟩ := hset
  have hh : NLHistory h dim rf solve (some q) { NonLin.init h dim params with poly := p, nlopt := some ⟨n, []⟩ } := .setup q (.new params) hset
  obtain ⟨hi, hf⟩ := setupFromVertices_ok dim q _ p ⟨rfl, by simp [LinOpt.init]⟩ hp
  obtain ⟨p', hp'⟩ := solve_total dim q solve p hi (List.length_pos_iff.mpr hq) (fun _ => by
    rw [hf]
    exact ⟨by simp [LinOpt.init], fun v hv => (List.mem_replicate.mp hv).2⟩)
  refine ⟨_, { NonLin.init h dim params with poly := p', nlopt := some ⟨n, []⟩ }, hh, rfl, rfl, ?_, _, rfl, rfl⟩
  unfold NonLin.solveLinear
  simp only
  rw [hp']
  rfl

/-- With soft constraints, adding a limit only stores it. -/
theorem nl_add {p : Option (Problem ℝ)} {o : NonLin h} (hh : NLHistory h dim rf solve p o) (hsoft : o.params.useSoft = true) (k : ℕ) (v : ℝ)
    (hv : 0 ≤ v) : ∃ o', NLHistory h dim rf solve p o' ∧ o' = { o with constraints := o.constraints ++ [⟨k, v⟩] } := by
  refine ⟨_, .add (k : Int) v hh (b := true) ?_, rfl⟩
  unfold addMaximumMagnitudeConstraint
  rw [if_neg (by push Not; exact ⟨by omega, hv⟩)]
  simp only
  rw [if_pos hsoft]
  rfl

/-- A new object with soft limits on velocity and acceleration. -/
theorem nl_limits (params : NLParams) (hsoft : params.useSoft = true) (q : Problem ℝ) (hN : h + h ≤ 22) (hw : ∀ v ∈ q.vertices, WellFormed v)
    (ha : AcceptableProblem h dim q) (hq : q.times ≠ []) (vmax amax : ℝ) (hv : 0 ≤ vmax) (hamax : 0 ≤ amax) :
    ∃ o o1 : NonLin h, NLHistory h dim rf solve (some q) o ∧ o.params = params ∧ o.constraints = [⟨1, vmax⟩, ⟨2, amax⟩] ∧
      o.solveLinear solve = .ok o1 := by
  obtain ⟨o, o1, h1, h2, h3, h4, _⟩ := nl_setup (rf := rf) (solve := solve) params q hN hw ha hq
  obtain ⟨o2, g1, g2⟩ := nl_add h1 (by rw [h2]; exact hsoft) 1 vmax hv
  obtain ⟨o3, k1, k2⟩ := nl_add g1 (by rw [g2]; simp only; rw [h2]; exact hsoft) 2 amax hamax
  obtain ⟨p, hp, e⟩ := bind_eq_ok h4
  refine ⟨o3, { o3 with poly := p }, k1, by rw [k2, g2]; exact h2, by rw [k2, g2, h3]; rfl, ?_⟩
  unfold NonLin.solveLinear
  rw [show o3.poly = o.poly from (by rw [k2, g2]), hp]
  rfl

/-- The parameters the planner uses: soft constraints, times and free derivatives. -/
noncomputable def plannerParams : NLParams := ⟨1 / 10, 1000, true, 100, .squaredTimeAndConstraints, true⟩

/-- Start at rest, then two vertices with positions only, optimising acceleration as the planner does. -/
noncomputable def accelProblem : Problem ℝ :=
  ⟨[⟨1, [(0, [0]), (1, [0]), (2, [0]), (3, [0]), (4, [0])]⟩, ⟨1, [(0, [1])]⟩, ⟨1, [(0, [3])]⟩], [1, 1], 2⟩

theorem accelProblem_wellFormed : ∀ v ∈ accelProblem.vertices, WellFormed v := by
  intro v hv
  simp only [accelProblem, List.mem_cons, List.not_mem_nil, or_false] at hv
  rcases hv with rfl | rfl | rfl <;> refine ⟨?_, ?_⟩ <;> simp

theorem accelProblem_acceptable : AcceptableProblem 5 1 accelProblem :=
  acceptable_of (by constructor <;> norm_num [accelProblem]) rfl accelProblem_wellFormed
    (by intro v hv; simp only [accelProblem, List.mem_cons, List.not_mem_nil, or_false] at hv; rcases hv with rfl | rfl | rfl <;> rfl)
    (by intro t ht; simp only [accelProblem, List.mem_cons, List.not_mem_nil, or_false, or_self] at ht; rw [ht]; norm_num)

/-- C31: when acceleration is optimised with polynomials of ten coefficients, as the planner does, the velocity limit (order 1) does not bound the
velocity at vertex 2 (variable 4); instead it bounds the jerk (order 3) at vertex 1 (variable 2), for which no limit was given. -/
theorem C31_misplaced : ∃ (o o1 : NonLin 5) (p : NloptProblem), NLHistory 5 1 (fun _ => []) exactSolver (some accelProblem) o ∧
    o.solveLinear exactSolver = .ok o1 ∧ o1.fullProblem = .ok p ∧ o.constraints = [⟨1, 2⟩, ⟨2, 3⟩] ∧
    (freeOrders 5 accelProblem.vertices)[4]? = some (2, 1) ∧ p.lower[2 + 4]? = some none ∧ p.upper[2 + 4]? = some none ∧
    (freeOrders 5 accelProblem.vertices)[2]? = some (1, 3) ∧ (∃ y : ℝ, p.x0[2 + 2]? = some y ∧ p.lower[2 + 2]? = some (some (min (-2) y)) ∧
      p.upper[2 + 2]? = some (some (max 2 y))) := by
  obtain ⟨o, o1, hh, hpar, hcs, hs⟩ := nl_limits (rf := fun _ => []) (solve := exactSolver) (h := 5) (dim := 1) plannerParams rfl accelProblem
    (by omega) accelProblem_wellFormed accelProblem_acceptable (by simp [accelProblem]) 2 3 (by norm_num) (by norm_num)
  obtain ⟨p, nl, hp, _⟩ := C30_bounds accelProblem o o1 hh (by omega) (by simp [accelProblem]) (by rw [hpar]; exact .inl rfl) hs
  have hi1 := (inv_history 1 exactSolver _ _ (linHistory (.solve hh hs))).2 accelProblem rfl
  have hv : o1.poly.vertices = accelProblem.vertices :=
    Except.ok.inj (hi1.vertices.symm.trans (show accelProblem.vertices.mapM (filterVertex 5 1) = .ok accelProblem.vertices from rfl))
  have hf : freeOrders 5 accelProblem.vertices = [(1, 1), (1, 2), (1, 3), (1, 4), (2, 1), (2, 2), (2, 3), (2, 4)] := rfl
  obtain ⟨p', hx, _, hpl, _⟩ := fullProblem_spec o1 (by omega) (by simp [accelProblem]) (linHistory hh) (by
    obtain ⟨p', hsp, e⟩ := bind_eq_ok hs
    rw [← Except.ok.inj e]; exact hsp)
  rw [← Except.ok.inj (hp.symm.trans hx)] at hpl
  have hlen : p.x0.length = 10 := by
    rw [hpl, nFree_eq hi1 accelProblem_wellFormed, hf]; rfl
  have hco : countedOrders o1.poly.vertices accelProblem.derivative = [1, 2, 1, 2] := by rw [hv]; rfl
  have h4 := bounds_spec accelProblem o o1 p hh accelProblem_wellFormed hs hp 4 0 (by rw [hf]; simp) (by omega) _
    (show p.x0[2 + 0 * 8 + 4]? = some (p.x0[6]'(by omega)) from List.getElem?_eq_getElem (by omega)) 7
    (fun c hc => by
      rw [hco, hcs] at *
      simp only [List.mem_cons, List.not_mem_nil, or_false] at hc
      rcases hc with rfl | rfl <;> simp)
  have h2 := bounds_spec accelProblem o o1 p hh accelProblem_wellFormed hs hp 2 0 (by rw [hf]; simp) (by omega) _
    (show p.x0[2 + 0 * 8 + 2]? = some (p.x0[4]'(by omega)) from List.getElem?_eq_getElem (by omega)) 1
    (fun c hc => by
      rw [hco, hcs] at *
      simp only [List.mem_cons, List.not_mem_nil, or_false] at hc
      rcases hc with rfl | rfl <;> simp)
  rw [hcs, show lastLimit 1 [⟨1, 2⟩, ⟨2, 3⟩] = some 2 from rfl] at h2
  rw [hcs, show lastLimit 7 [⟨1, 2⟩, ⟨2, 3⟩] = none from rfl] at h4
  simp only [Option.map_some, abs_two] at h2
  exact ⟨o, o1, p, hh, hs, hp, hcs, rfl, h4.1, h4.2, rfl, _, List.getElem?_eq_getElem (by omega), h2.1, h2.2⟩

/-- C31 does not hold. -/
theorem C31_refuted : ¬C31Full := by
  intro hfull
  obtain ⟨o, o1, p, hh, hs, hp, hcs, hf, h1, _, _, y, hy, _⟩ := C31_misplaced
  have hlen : p.lower.length = p.x0.length := (fullProblem_lengths o1 p hp).1
  have hlt := (List.getElem?_eq_some_iff.mp h1).1
  have := (hfull 5 1 _ _ accelProblem o o1 p hh (by omega) (by simp [accelProblem]) accelProblem_wellFormed hs hp 4 2 1 0 (p.x0[6]'(by omega)) hf
    (by omega) (show p.x0[2 + 0 * 8 + 4]? = _ from List.getElem?_eq_getElem (by omega))).1
  have e : p.lower[2 + 4]? = some ((lastLimit 1 o.constraints).map fun l : ℝ => min (-|l|) (p.x0[6]'(by omega))) := this
  rw [h1, hcs] at e
  simp [lastLimit] at e

/-- The hypotheses of `C31_bounds_partial`, `C30_bounds` and `C29_start` are met by a concrete object: snap, three dimensions, limits on velocity and
acceleration. -/
example : ∃ (o o1 : NonLin 5) (p : NloptProblem), NLHistory 5 3 (fun _ => []) exactSolver (some realProblem) o ∧ o.solveLinear exactSolver = .ok o1 ∧
    o1.fullProblem = .ok p ∧ BoundsMatch 5 2 3 realProblem.vertices [⟨1, 2⟩, ⟨2, 3⟩] p ∧ p.x0.take 2 = [2, 3] ∧ WithinBounds p p.x0 := by
  obtain ⟨o, o1, hh, hpar, hcs, hs⟩ := nl_limits (rf := fun _ => []) (solve := exactSolver) (h := 5) (dim := 3) plannerParams rfl realProblem
    (by omega) realProblem_wellFormed realProblem_acceptable (by simp [realProblem]) 2 3 (by norm_num) (by norm_num)
  obtain ⟨p, nl, hp, _, _, _, _, _, hb, _⟩ := C30_bounds realProblem o o1 hh (by omega) (by simp [realProblem]) (by rw [hpar]; exact .inl rfl) hs
  refine ⟨o, o1, p, hh, hs, hp, ?_, ?_, hb⟩
  · rw [← hcs]
    exact C31_bounds_partial realProblem o o1 p hh realProblem_wellFormed hs hp rfl
  · exact (C29_start realProblem o o1 p hh (by omega) (by simp [realProblem]) realProblem_wellFormed hs hp).1

/-- The hypotheses of `C30_optimize_succeeds` and `C29_decoding` are met: NLopt evaluates the starting point once. -/
example : ∃ (o : NonLin 5) (run : NloptRun) (o' : NonLin 5) (code : Int) (tr : Trajectory ℝ), NLHistory 5 3 (fun _ => []) exactSolver (some realProblem) o ∧
    run.requests.length = 1 ∧ o.optimize (fun _ => []) exactSolver run = .ok (o', code) ∧ o'.getTrajectory = .ok tr ∧
    MeetsConstraints 5 realProblem.vertices tr.segments := by
  obtain ⟨o, o1, hh, hpar, hcs, hs⟩ := nl_limits (rf := fun _ => []) (solve := exactSolver) (h := 5) (dim := 3) plannerParams rfl realProblem
    (by omega) realProblem_wellFormed realProblem_acceptable (by simp [realProblem]) 2 3 (by norm_num) (by norm_num)
  obtain ⟨p, nl, hp, hnl, _, _, _, _, hb, _⟩ := C30_bounds realProblem o o1 hh (by omega) (by simp [realProblem]) (by rw [hpar]; exact .inl rfl) hs
  have hg : GoodRun exactSolver o ⟨false, [.objective p.x0 false], some 4, true⟩ := by
    intro p' nl' hhand _
    rcases hhand with ⟨_, o1', e1, e2⟩ | ⟨hbad, _⟩
    · rw [hs] at e1
      rw [← Except.ok.inj e1, hp] at e2
      rw [← Except.ok.inj e2, hpar]
      refine .inr ⟨fun r hr => ?_, fun hno => absurd hb hno⟩
      rw [List.mem_singleton.mp hr]
      exact ⟨hb, rfl⟩
    · rw [hpar] at hbad
      rcases hbad with (hbad | hbad) | hbad <;> cases hbad
  obtain ⟨o', code, tr, a1, a2, a3, _⟩ := C30_optimize_succeeds realProblem o o1 _ hh (by omega) (by simp [realProblem]) realProblem_wellFormed
    (by rw [hpar]; exact .inl rfl) (by rw [hcs]; intro c hc; simp at hc; rcases hc with rfl | rfl <;> simp) hs hg
  exact ⟨o, _, o', code, tr, hh, rfl, a1, a2, a3⟩

end Verif.Properties
