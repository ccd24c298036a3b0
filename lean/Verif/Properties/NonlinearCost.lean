import Verif.Lemmas.NonlinearInfo
import Verif.Properties.NonlinearBounds

/-!
# Properties C32, C78, C79, C80: costs, information and trajectory of the nonlinear optimisation

`IsPeak`, `softCost`, `softCosts`, `timeTerm`, `InfoMatches`, `evaluated`, `objectiveAt` are in `Verif.Spec`.
-/

set_option linter.unusedSectionVars false

namespace Verif.Properties

open Verif Spec Lemmas LinOpt NonLin
variable {h dim : ℕ} {rf : Poly.RootFinder ℝ} {solve : LinSolver ℝ}

/-! ## C32 -/

/-- Full statement of C32, for the costs the API reports: with a weight of at least 0, every constraint that is met costs at most 1. -/
def C32Full : Prop :=
  ∀ (h dim : ℕ) (rf : Poly.RootFinder ℝ) (solve : LinSolver ℝ) (q : Problem ℝ) (o o1 o' : NonLin h) (cost : ℝ) (tr : Trajectory ℝ),
    (∀ c, FindsRealRoots c (rf c)) → NLHistory h dim rf solve (some q) o → 0 < dim → q.times ≠ [] → 0 ≤ o.params.softWeight →
    (∀ c ∈ o.constraints, c.derivative + 1 < h + h) → o.solveLinear solve = .ok o1 → o1.getTotalCostWithSoftConstraints rf = .ok (o', cost) →
    o1.getTrajectory = .ok tr → (∀ c ∈ o.constraints, ∃ M, IsPeak dim c.derivative tr.segments M ∧ M ≤ c.value) →
    cost ≤ energy q.derivative.toNat tr.segments + (tr.segments.map (·.time)).sum ^ 2 * o.params.timePenalty + o.constraints.length

theorem softCost_nonneg (weight cap limit M : ℝ) (hcap : 0 ≤ cap) : 0 ≤ softCost weight cap limit M := le_min hcap (Real.exp_pos _).le

theorem softCost_le_cap (weight cap limit M : ℝ) : softCost weight cap limit M ≤ cap := min_le_left _ _

theorem softCost_mono (weight cap limit M M' : ℝ) (hw : 0 ≤ weight) (hl : 0 < limit) (hM : M ≤ M') :
    softCost weight cap limit M ≤ softCost weight cap limit M' := by
  unfold softCost
  refine min_le_min_left _ (Real.exp_le_exp.mpr (mul_le_mul_of_nonneg_left ?_ hw))
  have := div_le_div_of_nonneg_right hM hl.le
  linarith

theorem softCost_le_one (weight cap limit M : ℝ) (hw : 0 ≤ weight) (hl : 0 < limit) (hM : M ≤ limit) : softCost weight cap limit M ≤ 1 := by
  unfold softCost
  refine (min_le_right _ _).trans (Real.exp_le_one_iff.mpr ?_)
  have : M / limit ≤ 1 := (div_le_one hl).mpr hM
  nlinarith

theorem softCost_one_lt (weight cap limit M : ℝ) (hw : 0 < weight) (hcap : 1 < cap) (hl : 0 < limit) (hM : limit < M) :
    1 < softCost weight cap limit M := by
  unfold softCost
  refine lt_min hcap (Real.one_lt_exp_iff.mpr ?_)
  have : 1 < M / limit := (one_lt_div hl).mpr hM
  nlinarith

theorem softCost_cap (weight cap limit M : ℝ) (hw : 0 < weight) (hcap : 0 < cap) (hl : 0 < limit) (hM : limit * (1 + Real.log cap / weight) ≤ M) :
    softCost weight cap limit M = cap := by
  unfold softCost
  refine min_eq_left ?_
  rw [← Real.log_le_iff_le_exp hcap]
  have h1 : 1 + Real.log cap / weight ≤ M / limit := by
    rw [le_div_iff₀ hl]
    linarith
  have h2 : Real.log cap / weight ≤ M / limit - 1 := by linarith
  rw [div_le_iff₀ hw] at h2
  linarith

/-- C32, proved part, for limits above 0: what `getTotalCostWithSoftConstraints` returns for a solved problem is the cost of the trajectory, the
squared total time times the penalty, and for each limit the cost `softCost` of the largest magnitude; each of these lies between 0 and
the cap, is at most 1 when the limit is met, above 1 when it is not (weight above 0), and the cap when it is exceeded far enough.
Missing: limits of 0, see `C32_refuted`. -/
theorem C32_total_cost_partial (hrf : ∀ c, FindsRealRoots c (rf c)) (q : Problem ℝ) (o o1 o' : NonLin h) (cost : ℝ)
    (hh : NLHistory h dim rf solve (some q) o) (hdim : 0 < dim) (hq : q.times ≠ []) (hw : 0 ≤ o.params.softWeight)
    (hc : ∀ c ∈ o.constraints, c.derivative + 1 < h + h) (hpos : ∀ c ∈ o.constraints, 0 < c.value) (hs : o.solveLinear solve = .ok o1)
    (ho : o1.getTotalCostWithSoftConstraints rf = .ok (o', cost)) (tr : Trajectory ℝ) (htr : o1.getTrajectory = .ok tr) :
    ∃ M : ℕ → ℝ, (∀ c ∈ o.constraints, IsPeak dim c.derivative tr.segments (M c.derivative)) ∧
      cost = energy q.derivative.toNat tr.segments + (tr.segments.map (·.time)).sum ^ 2 * o.params.timePenalty +
        softCosts o.params.softWeight (10 ^ 9) M o.constraints ∧
      ∀ c ∈ o.constraints, let s := softCost o.params.softWeight (10 ^ 9) c.value (M c.derivative)
        0 ≤ s ∧ s ≤ 10 ^ 9 ∧ (M c.derivative ≤ c.value → s ≤ 1) ∧ (0 < o.params.softWeight → c.value < M c.derivative → 1 < s) ∧
        (0 < o.params.softWeight → c.value * (1 + Real.log (10 ^ 9) / o.params.softWeight) ≤ M c.derivative → s = 10 ^ 9) := by
  obtain ⟨p, hp, e⟩ := bind_eq_ok hs
  have e := Except.ok.inj e
  have ep : o1.poly = p := by rw [← e]
  have hsol : Solved h dim solve q o1.poly := ⟨_, linHistory hh, .inr (by rw [ep]; exact hp)⟩
  have epar : o1.params = o.params := by rw [← e]
  have econ : o1.constraints = o.constraints := by rw [← e]
  unfold getTotalCostWithSoftConstraints at ho
  obtain ⟨c0, h1, h2⟩ := bind_eq_ok ho
  obtain ⟨r, h3, h4⟩ := bind_eq_ok h2
  obtain ⟨_, e2⟩ := Prod.mk.inj (Except.ok.inj h4)
  obtain ⟨_, _, s3⟩ := softLoop_ok _ _ _ _ r.1 0 r.2 h3
  have htimes := solved_times_sum hsol hdim tr htr
  have es := setSegments_segments _ _ htr
  have hpt : o1.poly.times = q.times := LinHistory_times hsol.history
  rw [ep] at hsol
  have hen : c0 = energy q.derivative.toNat tr.segments := by
    rw [ep, C26_cost_solved q o.poly p (linHistory hh) (.inr hp)] at h1
    rw [es, ep]
    exact (Except.ok.inj h1).symm
  unfold NonLin.getTrajectory at htr
  rw [ep] at htr
  refine ⟨fun k => (peak rf p k).value, fun c hm => peak_isPeak hrf hsol hdim hq tr htr _ (hc c hm), ?_, fun c hm => ?_⟩
  · rw [← e2, s3, hen, total_eq_sum, hpt, htimes, epar, econ, ep, zero_add, softSum_eq _ _ _ _ hpos, pow_two]
  · exact ⟨softCost_nonneg _ _ _ _ (by norm_num), softCost_le_cap _ _ _ _, softCost_le_one _ _ _ _ hw (hpos c hm),
      fun hw' => softCost_one_lt _ _ _ _ hw' (by norm_num) (hpos c hm), fun hw' => softCost_cap _ _ _ _ hw' (by norm_num) (hpos c hm)⟩

/-- C32: the soft part of the cost does not decrease when the maxima grow. -/
theorem C32_monotone (weight cap : ℝ) (hw : 0 ≤ weight) (cs : List MagConstraint) (hpos : ∀ c ∈ cs, 0 < c.value) (M M' : ℕ → ℝ)
    (hM : ∀ c ∈ cs, M c.derivative ≤ M' c.derivative) : softCosts weight cap M cs ≤ softCosts weight cap M' cs := by
  unfold softCosts
  exact List.sum_le_sum fun c hc => softCost_mono _ _ _ _ _ hw (hpos c hc) (hM c hc)

/-- C32: the value an objective returns to NLopt is the sum of the costs of the trajectory evaluated, which the information then describes. -/
theorem C32_objective (hrf : ∀ c, FindsRealRoots c (rf c)) (q : Problem ℝ) (o o' : NonLin h) (x : List ℝ) (cost : ℝ)
    (hh : NLHistory h dim rf solve (some q) o) (hdim : 0 < dim) (hq : q.times ≠ []) (hm : FullMethod o.params.method ∨ TimeMethod o.params.method)
    (hc : ∀ c ∈ o.constraints, c.derivative + 1 < h + h) (hpos : ∀ c ∈ o.constraints, 0 < c.value)
    (ho : objectiveAt rf solve o x = .ok (o', cost)) (tr : Trajectory ℝ) (htr : o'.getTrajectory = .ok tr) :
    InfoMatches dim q o' tr.segments ∧ cost = o'.info.costTrajectory + o'.info.costTime + o'.info.costSoft ∧
      tr.segments.map (·.time) = x.take q.times.length := by
  unfold objectiveAt at ho
  split at ho
  · rename_i hm
    obtain ⟨_, h2, _, h4⟩ := objectiveFull_info hrf o o' x false cost (linHistory hh) hdim hq hm hc hpos ho
    exact ⟨(h4 tr htr).1, (h4 tr htr).2, solved_times_sum h2 hdim tr htr⟩
  · rename_i hn
    obtain ⟨h1, h2, _, h4⟩ := objectiveTime_info hrf o o' x false cost (linHistory hh) hdim hq (hm.resolve_left hn) hc hpos ho
    refine ⟨(h4 tr htr).1, (h4 tr htr).2, ?_⟩
    rw [← h1, List.take_length]
    exact solved_times_sum h2 hdim tr htr

/-! ## C79 -/

/-- C79: after a gradient-free optimisation in which the objective was evaluated at least once, the reported information describes the
trajectory the object returns: its cost, the cost of its total time, the costs of its soft limits and the largest magnitudes with
their places; the number of iterations is the number of evaluations, and the stopping reason is the returned code. -/
theorem C79_info (hrf : ∀ c, FindsRealRoots c (rf c)) (q : Problem ℝ) (o o' : NonLin h) (run : NloptRun) (code : Int)
    (hh : NLHistory h dim rf solve (some q) o) (hdim : 0 < dim) (hq : q.times ≠ []) (hm : FullMethod o.params.method ∨ TimeMethod o.params.method)
    (hc : ∀ c ∈ o.constraints, c.derivative + 1 < h + h) (hpos : ∀ c ∈ o.constraints, 0 < c.value) (hsf : run.setupFails = false)
    (ho : o.optimize rf solve run = .ok (o', code)) :
    o'.info.stoppingReason = code ∧ code = run.result.getD (-1) ∧ o'.info.nIterations = (evaluated run.requests).length ∧
    (evaluated run.requests ≠ [] → ∀ tr, o'.getTrajectory = .ok tr → InfoMatches dim q o' tr.segments) := by
  obtain ⟨h1, h2, h3, h4, _⟩ := optimize_info hrf run o o' code (linHistory hh) hdim hq hm hc hpos hsf ho
  refine ⟨h2, h1, h3, fun hne tr htr => ?_⟩
  obtain ⟨ts, _, _, d3⟩ := h4 hne
  exact d3 tr htr

/-! ## C80 -/

/-- Full statement of C80: the trajectory returned after a successful optimisation is the best one evaluated: no evaluated point has a lower
cost than the reported one. -/
def C80Full : Prop :=
  ∀ (h dim : ℕ) (rf : Poly.RootFinder ℝ) (solve : LinSolver ℝ) (q : Problem ℝ) (o o' : NonLin h) (run : NloptRun) (code : Int),
    (∀ c, FindsRealRoots c (rf c)) → NLHistory h dim rf solve (some q) o → 0 < dim → q.times ≠ [] →
    FullMethod o.params.method ∨ TimeMethod o.params.method → GoodRun solve o run → o.optimize rf solve run = .ok (o', code) → 0 < code →
    ∀ x ∈ evaluated run.requests, ∀ oe cost, objectiveAt rf solve o x = .ok (oe, cost) →
      o'.info.costTrajectory + o'.info.costTime + o'.info.costSoft ≤ cost

/-- C80, proved part: it is the last one evaluated: evaluating the last point on the object as it was gives the same trajectory. Missing: it
is not the best one in general, see `C80_refuted`. -/
theorem C80_last_partial (hrf : ∀ c, FindsRealRoots c (rf c)) (q : Problem ℝ) (o o' oe : NonLin h) (run : NloptRun) (code : Int)
    (hh : NLHistory h dim rf solve (some q) o) (hdim : 0 < dim) (hq : q.times ≠ []) (hm : FullMethod o.params.method ∨ TimeMethod o.params.method)
    (hc : ∀ c ∈ o.constraints, c.derivative + 1 < h + h) (hpos : ∀ c ∈ o.constraints, 0 < c.value) (hsf : run.setupFails = false)
    (ho : o.optimize rf solve run = .ok (o', code)) (x : List ℝ) (hx : (evaluated run.requests).getLast? = some x) (cost : ℝ)
    (he : objectiveAt rf solve o x = .ok (oe, cost)) : o'.getTrajectory = oe.getTrajectory := by
  obtain ⟨_, _, _, _, h5⟩ := optimize_info hrf run o o' code (linHistory hh) hdim hq hm hc hpos hsf ho
  unfold NonLin.getTrajectory LinOpt.getTrajectory
  rw [(h5 x hx).2 oe cost he]

/-! ## C78 -/

/-- Full statement of C78: after `optimize`, with any method, on an object that holds a problem, the trajectory returned meets the constraints of the problem. -/
def C78Full : Prop :=
  ∀ (h dim : ℕ) (rf : Poly.RootFinder ℝ) (solve : LinSolver ℝ) (q : Problem ℝ) (o o' : NonLin h) (run : NloptRun) (code : Int) (tr : Trajectory ℝ),
    NLHistory h dim rf solve (some q) o → 0 < dim → (∀ v ∈ q.vertices, WellFormed v) → o.params.method ≠ .unknown → GoodRun solve o run →
    o.optimize rf solve run = .ok (o', code) → o'.getTrajectory = .ok tr → MeetsConstraints h q.vertices tr.segments ∧ SmoothJoints h tr.segments

/-- C78, proved part: with a method that optimises the free derivatives, whatever NLopt does; with the other methods when the objective was
evaluated at least once, or the linear solution was computed before. Missing: the other methods otherwise, see `C78_refuted`. -/
theorem C78_meets_partial (q : Problem ℝ) (o o' : NonLin h) (run : NloptRun) (code : Int) (tr : Trajectory ℝ)
    (hh : NLHistory h dim rf solve (some q) o) (hw : ∀ v ∈ q.vertices, WellFormed v)
    (hm : o.params.method ≠ .unknown) (hsol : FullMethod o.params.method ∨
      (run.setupFails = false ∧ evaluated run.requests ≠ []) ∨ ∃ o0, NLHistory h dim rf solve (some q) o0 ∧ o0.solveLinear solve = .ok o)
    (ho : o.optimize rf solve run = .ok (o', code)) (htr : o'.getTrajectory = .ok tr) :
    MeetsConstraints h q.vertices tr.segments ∧ SmoothJoints h tr.segments := by
  obtain ⟨_, _, h3, h4⟩ := optimize_spec run o o' code (linHistory hh) ho
  have hs : SolvedSome h dim solve q o'.poly := by
    rcases hsol with hf | hsol
    · exact h3 hf
    · by_cases hf : FullMethod o.params.method
      · exact h3 hf
      · refine h4 ?_ ?_
        · unfold FullMethod at hf
          unfold TimeMethod
          cases hmm : o.params.method <;> simp_all
        · rcases hsol with ⟨hsf, hne⟩ | ⟨o0, hh0, hs0⟩
          · refine .inr ⟨hsf, ?_⟩
            obtain ⟨x, hx⟩ := List.exists_mem_of_ne_nil _ hne
            unfold evaluated at hx
            obtain ⟨r, hr, e⟩ := List.mem_filterMap.mp hx
            cases r with
            | objective y g => exact ⟨y, g, hr⟩
            | constraint c y g => cases e
          · obtain ⟨p, hp, e⟩ := bind_eq_ok hs0
            refine .inl ⟨q.times, o0.poly, linHistory hh0, .inr ?_⟩
            rw [← Except.ok.inj e]
            exact hp
  obtain ⟨ts, p0, hl, hu⟩ := hs
  exact ⟨(C23_constraints _ p0 o'.poly hl hw hu tr htr).2.2, C24_smooth _ p0 o'.poly hl hu tr htr⟩

/-! ## Concrete objects -/

/-- One segment of degree one from `a` to `b`. -/
noncomputable def lineProblem (a b t : ℝ) : Problem ℝ := ⟨[⟨1, [(0, [a])]⟩, ⟨1, [(0, [b])]⟩], [t], 0⟩

theorem lineProblem_wellFormed (a b t : ℝ) : ∀ v ∈ (lineProblem a b t).vertices, WellFormed v := by
  intro v hv
  simp only [lineProblem, List.mem_cons, List.not_mem_nil, or_false] at hv
  rcases hv with rfl | rfl <;> refine ⟨?_, ?_⟩ <;> simp

theorem lineProblem_acceptable (a b t : ℝ) (ht : 1 / 100 ≤ t) : AcceptableProblem 1 1 (lineProblem a b t) :=
  acceptable_of (by constructor <;> norm_num [lineProblem]) rfl (lineProblem_wellFormed a b t)
    (by intro v hv; simp only [lineProblem, List.mem_cons, List.not_mem_nil, or_false] at hv; rcases hv with rfl | rfl <;> rfl)
    (by
      intro t' ht'
      simp only [lineProblem, List.mem_singleton] at ht'
      rw [ht']
      exact le_trans (by norm_num) ht)

theorem derivAt_line (a b τ : ℝ) : derivAt [a, b] 0 τ = a + b * τ := by
  unfold derivAt ofCoeffs
  simp [Finset.sum_range_succ]

/-- The solution is the straight line. -/
theorem line_solved {a b t : ℝ} (ht : t ≠ 0) {p : LinOpt 1 ℝ} (hs : Solved 1 1 solve (lineProblem a b t) p) (tr : Trajectory ℝ)
    (htr : p.getTrajectory = .ok tr) : tr.segments = [⟨2, t, [[a, (b - a) / t]]⟩] := by
  have htimes := solved_times_sum hs (by omega) tr htr
  have hi := (inv_history 1 solve _ p hs.history).2 _ rfl
  have es := setSegments_segments _ _ htr
  obtain ⟨p0, hl, hu⟩ := hs
  obtain ⟨_, _, hm⟩ := C23_constraints _ p0 p hl (lineProblem_wellFormed a b t) hu tr htr
  match hseg : tr.segments with
  | [] => rw [hseg] at htimes; cases htimes
  | s1 :: s2 :: rest => rw [hseg] at htimes; simp [lineProblem] at htimes
  | [s] =>
    rw [hseg] at htimes hm
    have hst : s.time = t := by simpa [lineProblem] using htimes
    obtain ⟨n1, n2, n3⟩ := hi.shape s (by rw [← es, hseg]; simp)
    obtain ⟨N, time, polys⟩ := s
    simp only at hst n1 n2 n3
    match polys, n2 with
    | [c], _ =>
      match c, n3 c (by simp) with
      | [x, y], _ =>
        obtain ⟨m1, m2⟩ := hm 0 _ rfl 0 [a] (by omega)
        have m1 := m1 ⟨1, [(0, [a])]⟩ rfl rfl
        have m2 := (hm 0 _ rfl 0 [b] (by omega)).2 ⟨1, [(0, [b])]⟩ rfl rfl
        simp only [segDeriv, List.map_cons, List.map_nil, List.cons.injEq, and_true, derivAt_line, hst] at m1 m2
        have hx : x = a := by simpa using m1
        have hy : y = (b - a) / t := by
          rw [eq_div_iff ht]
          linarith
        rw [hx, hy, hst, n1]

theorem line_energy (t : ℝ) : energy 0 [⟨2, t, [[0, (0 - 0) / t]]⟩] = 0 := by
  simp [energy, polyEnergy, derivAt_line]

theorem energy_nonneg (d : ℕ) (segs : List (Segment ℝ)) (ht : ∀ s ∈ segs, 0 ≤ s.time) : 0 ≤ energy d segs := by
  unfold energy
  refine List.sum_nonneg fun x hx => ?_
  obtain ⟨s, hs, rfl⟩ := List.mem_map.mp hx
  refine List.sum_nonneg fun y hy => ?_
  obtain ⟨p, _, rfl⟩ := List.mem_map.mp hy
  exact intervalIntegral.integral_nonneg (ht s hs) fun x _ => sq_nonneg _

/-- C32 does not hold: a trajectory that stands still at the origin meets the limit 0 on its distance from it, but costs `10^9`. -/
theorem C32_refuted : ¬C32Full := by
  intro hfull
  obtain ⟨rf, hrf⟩ := exists_complete_rootFinder
  obtain ⟨o, o1, hh, hpar, hcs, hs, _⟩ := nl_setup (rf := rf) (solve := exactSolver) (h := 1) (dim := 1) plannerParams (lineProblem 0 0 1) (by omega)
    (lineProblem_wellFormed 0 0 1) (lineProblem_acceptable 0 0 1 (by norm_num)) (by simp [lineProblem])
  obtain ⟨o2, hh2, e2⟩ := nl_add hh (by rw [hpar]; rfl) 0 0 le_rfl
  obtain ⟨p, hp, _⟩ := bind_eq_ok hs
  have hp2 : o2.poly.solveLinear exactSolver = .ok p := by rw [e2]; exact hp
  have hs2 : o2.solveLinear exactSolver = .ok { o2 with poly := p } := by
    unfold NonLin.solveLinear
    rw [hp2]; rfl
  have hcs2 : o2.constraints = [⟨0, 0⟩] := by rw [e2]; simp only; rw [hcs]; rfl
  have hpar2 : o2.params = plannerParams := by rw [e2]; exact hpar
  have hsol : Solved 1 1 exactSolver (lineProblem 0 0 1) p := ⟨_, linHistory hh2, .inr hp2⟩
  obtain ⟨tr, htr⟩ := solved_trajectory hsol (by simp [lineProblem])
  have hseg := line_solved (by norm_num) hsol tr htr
  have hk : Searchable ({ o2 with poly := p } : NonLin 1) := by
    intro c hc
    rw [show ({ o2 with poly := p } : NonLin 1).constraints = [⟨0, 0⟩] from hcs2, List.mem_singleton] at hc
    rw [hc]; norm_num
  obtain ⟨o', cost, hcost⟩ := totalCost_total (rf := rf) ({ o2 with poly := p } : NonLin 1) (linHistory (.solve hh2 hs2)) (by simp [lineProblem]) hk
  have hmag : ∀ τ : ℝ, magnitude (⟨2, 1, [[0, (0 - 0) / 1]]⟩ : Segment ℝ) (List.range 1) 0 τ = 0 := by
    intro τ
    simp [magnitude, derivAt_line]
  have hle := hfull 1 1 rf exactSolver (lineProblem 0 0 1) o2 _ o' cost tr hrf hh2 (by omega) (by simp [lineProblem])
    (by rw [hpar2]; norm_num [plannerParams]) hk hs2 hcost htr (by
      intro c hc
      rw [hcs2, List.mem_singleton] at hc
      rw [hc]
      refine ⟨0, ⟨⟨_, by rw [hseg]; exact List.mem_singleton.mpr rfl, 0, ⟨le_rfl, by norm_num⟩, (hmag 0).symm⟩, ?_⟩, le_rfl⟩
      intro s hs τ _
      rw [hseg, List.mem_singleton] at hs
      rw [hs, hmag])
  unfold getTotalCostWithSoftConstraints at hcost
  obtain ⟨c0, h1, h2⟩ := bind_eq_ok hcost
  obtain ⟨r, h3, h4⟩ := bind_eq_ok h2
  obtain ⟨_, e4⟩ := Prod.mk.inj (Except.ok.inj h4)
  obtain ⟨_, _, s3⟩ := softLoop_ok _ _ _ _ r.1 0 r.2 h3
  have hen : c0 = energy 0 tr.segments := by
    have h1' : p.computeCost = .ok c0 := h1
    rw [C26_cost_solved _ o2.poly p (linHistory hh2) (.inr hp2)] at h1'
    rw [setSegments_segments _ _ htr]
    exact (Except.ok.inj h1').symm
  have ht : p.times = [1] := LinHistory_times hsol.history
  rw [← e4, s3, hen, show ({ o2 with poly := p } : NonLin 1).constraints = [⟨0, 0⟩] from hcs2,
    show ({ o2 with poly := p } : NonLin 1).params = plannerParams from hpar2, show ({ o2 with poly := p } : NonLin 1).poly = p from rfl, ht,
    hseg, total_eq_sum, show ((lineProblem 0 0 1).derivative.toNat) = 0 from rfl] at hle
  norm_num [softSum, softTerm, plannerParams] at hle

theorem timeParams_good (o : NonLin 1) (nlp : o.poly.times = [1]) (hm : o.params.method = .squaredTime) :
    GoodRun exactSolver o ⟨false, [.objective [1] false, .objective [2] false], some 4, true⟩ := by
  intro p' nl' hhand _
  rcases hhand with ⟨hbad, _⟩ | ⟨_, rfl⟩
  · rw [hm] at hbad
    rcases hbad with hbad | hbad <;> cases hbad
  · have hb : ∀ t : ℝ, 1 ≤ t → WithinBounds o.timeProblem [t] := by
      intro t ht
      unfold timeProblem
      rw [nlp]
      refine ⟨rfl, fun i v hi => ?_⟩
      match i with
      | 0 =>
        simp only [List.getElem?_cons_zero, Option.some.injEq] at hi
        refine ⟨fun l hl => ?_, fun u hu => ?_⟩
        · simp only [List.map_cons, List.map_nil, List.getElem?_cons_zero, Option.some.injEq] at hl
          rw [← hl, ← hi]
          unfold kOptimizationTimeLowerBound
          linarith
        · simp at hu
      | i + 1 => simp at hi
    refine .inr ⟨fun r hr => ?_, fun hno => absurd ?_ hno⟩
    · rw [hm]
      simp only [List.mem_cons, List.not_mem_nil, or_false] at hr
      rcases hr with rfl | rfl
      · exact ⟨hb 1 le_rfl, rfl⟩
      · exact ⟨hb 2 (by norm_num), rfl⟩
    · have : o.timeProblem.x0 = [1] := nlp
      rw [this]
      exact hb 1 le_rfl

/-- C80 does not hold: NLopt evaluates the starting time 1 and then the time 2, both for a trajectory that stands still, and succeeds. The
trajectory of the worse point is returned: the code discards the point NLopt returns. -/
theorem C80_refuted : ¬C80Full := by
  intro hfull
  obtain ⟨rf, hrf⟩ := exists_complete_rootFinder
  obtain ⟨o, o1, hh, hpar, hcs, hs, _⟩ := nl_setup (rf := rf) (solve := exactSolver) (h := 1) (dim := 1)
    { plannerParams with method := .squaredTime } (lineProblem 0 0 1) (by omega)
    (lineProblem_wellFormed 0 0 1) (lineProblem_acceptable 0 0 1 (by norm_num)) (by simp [lineProblem])
  have hh1 : NLHistory 1 1 rf exactSolver (some (lineProblem 0 0 1)) o1 := .solve hh hs
  obtain ⟨p, hp, e⟩ := bind_eq_ok hs
  have e := Except.ok.inj e
  have hpar1 : o1.params = { plannerParams with method := .squaredTime } := by rw [← e]; exact hpar
  have hcs1 : o1.constraints = [] := by rw [← e]; exact hcs
  have hm1 : TimeMethod o1.params.method := by rw [hpar1]; exact .inl rfl
  have hg := timeParams_good o1 (LinHistory_times (linHistory hh1)) (by rw [hpar1])
  obtain ⟨o', code, tr, a1, a2, _⟩ := C30_optimizeTime_succeeds (lineProblem 0 0 1) o o1 _ hh (by omega) (by simp [lineProblem])
    (lineProblem_wellFormed 0 0 1) (by rw [hpar]; exact .inl rfl) (by rw [hcs]; simp) hs hg
  have hinfo := optimize_info hrf _ o1 o' code (linHistory hh1) (by omega) (by simp [lineProblem]) (.inr hm1) (by rw [Searchable, hcs1]; simp)
    (by rw [hcs1]; simp) rfl a1
  obtain ⟨i1, _, _, i4, i5⟩ := hinfo
  have hlast := (i5 [2] rfl).1
  have hseg := line_solved (a := 0) (b := 0) (t := 2) (by norm_num) hlast tr a2
  obtain ⟨ts, _, _, d3⟩ := i4 (by simp [evaluated])
  have hI := d3 tr a2
  have hk := optimize_spec _ o1 o' code (linHistory hh1) a1 |>.1
  have hpar' : o'.params = { plannerParams with method := .squaredTime } := by rw [hk.1, hpar1]
  have hcs' : o'.constraints = [] := by rw [hk.2.1, hcs1]
  have hsoft : o'.info.costSoft = 0 := by
    obtain ⟨M, _, e⟩ := hI.soft (by rw [hpar']; rfl)
    rw [e, hcs']
    rfl
  have htime : o'.info.costTime = 4000 := by
    rw [hI.time, hpar', hseg]
    norm_num [timeTerm, plannerParams]
  obtain ⟨oe, cost, he, _⟩ := objectiveTime_total (rf := rf) o1 (linHistory hh1) (by omega) (by simp [lineProblem]) (by rw [Searchable, hcs1]; simp)
    (solvable_of_solved (linHistory hh) (.inr (by rw [← e]; exact hp))) [1] rfl (by
      intro t ht
      rw [List.mem_singleton.mp ht]
      unfold Poly.dblEps
      norm_num)
  have hobj : objectiveAt rf exactSolver o1 [1] = .ok (oe, cost) := by
    unfold objectiveAt
    rw [if_neg (by rw [hpar1]; rintro (h | h) <;> cases h)]
    exact he
  have hle := hfull 1 1 rf exactSolver (lineProblem 0 0 1) o1 o' _ code hrf hh1 (by omega) (by simp [lineProblem]) (.inr hm1) hg a1
    (by rw [i1]; norm_num) [1] (by simp [evaluated]) oe cost hobj
  obtain ⟨j1, j2, _, j4⟩ := objectiveTime_info hrf o1 oe [1] false cost (linHistory hh1) (by omega) (by simp [lineProblem]) hm1
    (by rw [Searchable, hcs1]; simp) (by rw [hcs1]; simp) he
  obtain ⟨tre, htre⟩ := solved_trajectory j2 (by simp)
  obtain ⟨J, jc⟩ := j4 tre htre
  have hsege := line_solved (a := 0) (b := 0) (t := 1) (by norm_num) j2 tre htre
  obtain ⟨_, _, _, _, _, _, hco⟩ := objectiveTime_ok o1 oe [1] false cost he
  have hke := (costOf_keeps _ _ _ _ _ hco).1
  have hpare : oe.params = { plannerParams with method := .squaredTime } := by rw [hke.1]; exact hpar1
  have hcse : oe.constraints = [] := by rw [hke.2.1]; exact hcs1
  have hsofte : oe.info.costSoft = 0 := by
    obtain ⟨M, _, e⟩ := J.soft (by rw [hpare]; rfl)
    rw [e, hcse]
    rfl
  have htimee : oe.info.costTime = 1000 := by
    rw [J.time, hpare, hsege]
    norm_num [timeTerm, plannerParams]
  rw [jc, hsoft, htime, hsofte, htimee, hI.trajectory, J.trajectory, hseg, hsege,
    show ((lineProblem 0 0 1).derivative.toNat) = 0 from rfl, line_energy, line_energy] at hle
  norm_num at hle

/-- C78 does not hold: with a method that optimises the times only and a first segment time below 0.1, the starting point is outside the
bounds, NLopt throws, and a trajectory that stands still at the origin is returned for a problem that ends at 1. -/
theorem C78_refuted : ¬C78Full := by
  intro hfull
  let q := lineProblem 0 1 (1 / 20)
  let P : NLParams := { plannerParams with method := .squaredTime }
  obtain ⟨p, hp⟩ := setup_total 1 q (LinOpt.init 1 ℝ 1) rfl (by omega) (lineProblem_wellFormed 0 1 (1 / 20)) (lineProblem_acceptable 0 1 (1 / 20) (by norm_num))
  have hset : (NonLin.init 1 1 P).setupFromVertices q.vertices q.times q.derivative =
      .ok { NonLin.init 1 1 P with poly := p, nlopt := some ⟨1, []⟩ } := by
    unfold NonLin.setupFromVertices
    rw [show (NonLin.init 1 1 P).poly = LinOpt.init 1 ℝ 1 from rfl, hp]
    rfl
  have hh : NLHistory 1 1 (fun _ => []) exactSolver (some q) { NonLin.init 1 1 P with poly := p, nlopt := some ⟨1, []⟩ } := .setup q (.new P) hset
  have hseg : p.segments = [Segment.mk' 2 1] := by
    rw [setup_segments _ _ _ _ _ hp]
    rfl
  let run : NloptRun := ⟨false, [], none, false⟩
  have hg : GoodRun exactSolver ({ NonLin.init 1 1 P with poly := p, nlopt := some ⟨1, []⟩ } : NonLin 1) run :=
    fun _ _ _ _ => .inr ⟨by simp [run], fun _ => ⟨rfl, rfl, rfl⟩⟩
  have ho : ({ NonLin.init 1 1 P with poly := p, nlopt := some ⟨1, []⟩ } : NonLin 1).optimize (fun _ => []) exactSolver run =
      .ok ({ NonLin.init 1 1 P with poly := p, nlopt := some ⟨1, []⟩ }, -1) := rfl
  obtain ⟨tr, htr⟩ := getTrajectory_total 1 p ((inv_history 1 exactSolver _ _ (linHistory hh)).2 q rfl).shape (by rw [hseg]; simp)
  obtain ⟨hm, _⟩ := hfull 1 1 _ exactSolver q _ _ run (-1) tr hh (by omega) (lineProblem_wellFormed 0 1 (1 / 20)) (by simp [NonLin.init, P]) hg ho htr
  have hes : tr.segments = [Segment.mk' 2 1] := (setSegments_segments _ _ htr).trans hseg
  have := (hm 0 (Segment.mk' 2 1) (by rw [hes]; rfl) 0 [1] (by omega)).2 ⟨1, [(0, [1])]⟩ rfl rfl
  simp only [Segment.mk', segDeriv, List.replicate, List.map_cons, List.map_nil, List.cons.injEq, and_true] at this
  rw [derivAt_line] at this
  norm_num at this

/-- Hypotheses met: snap, three dimensions, limits on velocity and acceleration, NLopt evaluates the starting point once. The information describes
the trajectory (`C79_info`), which meets the constraints (`C78_meets_partial`) and is that of the point (`C80_last_partial`). -/
example : ∃ (rf : Poly.RootFinder ℝ) (o : NonLin 5) (run : NloptRun) (o' : NonLin 5) (code : Int) (tr : Trajectory ℝ),
    (∀ c, FindsRealRoots c (rf c)) ∧ NLHistory 5 3 rf exactSolver (some realProblem) o ∧ o.constraints = [⟨1, 2⟩, ⟨2, 3⟩] ∧
    o.optimize rf exactSolver run = .ok (o', code) ∧ o'.getTrajectory = .ok tr ∧ o'.info.nIterations = 1 ∧ InfoMatches 3 realProblem o' tr.segments ∧
    MeetsConstraints 5 realProblem.vertices tr.segments ∧
    ∃ x oe cost, (evaluated run.requests).getLast? = some x ∧ objectiveAt rf exactSolver o x = .ok (oe, cost) ∧ oe.getTrajectory = .ok tr := by
  obtain ⟨rf, hrf⟩ := exists_complete_rootFinder
  obtain ⟨o0, o, hh0, hpar0, hcs0, hs0⟩ := nl_limits (rf := rf) (solve := exactSolver) (h := 5) (dim := 3) plannerParams rfl realProblem
    (by omega) realProblem_wellFormed realProblem_acceptable (by simp [realProblem]) 2 3 (by norm_num) (by norm_num)
  have hh : NLHistory 5 3 rf exactSolver (some realProblem) o := .solve hh0 hs0
  obtain ⟨pp, hpp, ee⟩ := bind_eq_ok hs0
  have ee := Except.ok.inj ee
  have hpar : o.params = plannerParams := by rw [← ee]; exact hpar0
  have hcs : o.constraints = [⟨1, 2⟩, ⟨2, 3⟩] := by rw [← ee]; exact hcs0
  have hp0 : o0.poly.solveLinear exactSolver = .ok o.poly := by rw [← ee]; exact hpp
  obtain ⟨p1, hp1⟩ := solve_total 3 realProblem exactSolver o.poly ((inv_history 3 exactSolver _ _ (linHistory hh)).2 _ rfl)
    (by simp [realProblem]) (fun h0 => ⟨(solvable_of_solved (linHistory hh0) (.inr hp0)).1, (solvable_of_solved (linHistory hh0) (.inr hp0)).2 h0⟩)
  have hs : o.solveLinear exactSolver = .ok { o with poly := p1 } := by
    unfold NonLin.solveLinear
    rw [hp1]; rfl
  obtain ⟨p, nl, hp, hnl, hx0, _, _, _, hb, hb2⟩ := C30_bounds realProblem o _ hh (by omega) (by simp [realProblem]) (by rw [hpar]; exact .inl rfl) hs
  have hg : GoodRun exactSolver o ⟨false, [.objective p.x0 false], some 4, true⟩ := by
    intro p' nl' hhand _
    rcases hhand with ⟨_, o1', e1, e2⟩ | ⟨hbad, _⟩
    · rw [hs] at e1
      rw [← Except.ok.inj e1, hp] at e2
      rw [← Except.ok.inj e2, hpar]
      refine .inr ⟨fun r hr => ?_, fun hno => absurd hb hno⟩
      rw [List.mem_singleton.mp hr]
      exact ⟨hb, rfl⟩
    · rw [hpar] at hbad
      rcases hbad with (hbad | hbad) | hbad <;> cases hbad
  have hsearch : ∀ c ∈ o.constraints, c.derivative + 1 < 5 + 5 := by rw [hcs]; intro c hc; simp at hc; rcases hc with rfl | rfl <;> simp
  have hpos : ∀ c ∈ o.constraints, 0 < c.value := by rw [hcs]; intro c hc; simp at hc; rcases hc with rfl | rfl <;> norm_num
  have hm : FullMethod o.params.method := by rw [hpar]; exact .inl rfl
  obtain ⟨o', code, tr, a1, a2, a3, _⟩ := C30_optimize_succeeds realProblem o _ _ hh (by omega) (by simp [realProblem]) realProblem_wellFormed
    hm hsearch hs hg
  obtain ⟨_, _, i3, i4⟩ := C79_info hrf realProblem o o' _ code hh (by omega) (by simp [realProblem]) (.inl hm) hsearch hpos rfl a1
  have hlen : p.x0.length = realProblem.times.length + o.poly.nFree * 3 := by
    obtain ⟨nl', e1, e2⟩ := (nlopt_history hh).2 _ rfl
    have hnl : o.nlopt = some nl := hnl
    rw [hnl] at e1
    rw [hx0, Option.some.inj e1, e2, hpar]
    rfl
  obtain ⟨oe, cost, e1, _⟩ := objectiveFull_total (rf := rf) o (linHistory hh) (by omega) (by simp [realProblem]) hsearch p.x0 hlen (by
    have := hb2 p.x0 hb
    intro t ht
    obtain ⟨i, hi⟩ := List.mem_iff_getElem?.mp ht
    rw [List.forall₂_iff_get] at this
    obtain ⟨hlt, et⟩ := List.getElem?_eq_some_iff.mp hi
    have h2 := this.2 i (by rw [this.1]; exact hlt) hlt
    simp only [List.get_eq_getElem, et] at h2
    refine le_trans (le_min dblEps_le_tenth ?_) h2.1
    have hmem := List.getElem_mem (l := realProblem.times) (n := i) (by rw [this.1]; exact hlt)
    simp only [realProblem, List.mem_cons, List.not_mem_nil, or_false] at hmem
    unfold Poly.dblEps
    rcases hmem with hmem | hmem
    · refine le_trans ?_ hmem.ge
      norm_num
    · refine le_trans ?_ hmem.ge
      norm_num)
  have hobj : objectiveAt rf exactSolver o p.x0 = .ok (oe, cost) := by
    unfold objectiveAt
    rw [if_pos hm]
    exact e1
  have hl := C80_last_partial hrf realProblem o o' oe _ code hh (by omega) (by simp [realProblem]) (.inl hm) hsearch hpos rfl a1 p.x0 rfl cost hobj
  exact ⟨rf, o, _, o', code, tr, hrf, hh, hcs, a1, a2, i3, i4 (by simp [evaluated]) tr a2, a3, p.x0, oe, cost, rfl, hobj, hl.symm.trans a2⟩

end Verif.Properties
