import Verif.Properties.PlannerOptimiser
import Verif.Properties.PlannerSmooth
import Verif.Lemmas.PlannerRate
import Verif.Lemmas.PlannerSampleReal
import Mathlib.Analysis.Calculus.MeanValue

/-!
# Property C124: do plans keep to the speed that was set?
-/

set_option linter.unusedSectionVars false

namespace Verif.Properties

open Verif Spec Lemmas LinOpt NonLin OptBackend

/-- Full statement of C124: when the vertices prescribe no velocity above the speed that was set, the plan the optimiser returns nowhere exceeds it,
whatever the linear solver, a complete root finder and NLopt within its contract do, NLopt reporting success. -/
def C124Full : Prop :=
  ∀ (b : OptBackend) (vs : List (Vertex ℝ)) (speed : ℝ) (tr : Trajectory ℝ), (∀ c, FindsRealRoots c (b.rf c)) → 0 < b.aMax → Handed3 vs speed →
    (∀ v ∈ vs, ∀ u, v.getConstraint 1 = some u → (u.map (· ^ 2)).sum ≤ speed ^ 2) → EachEstimate b vs speed (1 / 2 ^ 52 ≤ ·) →
    (∀ o, b.prepare vs speed = .ok o → GoodRun b.solve o (b.nlopt vs speed)) → (b.nlopt vs speed).setupFails = false →
    (∃ code, (b.nlopt vs speed).result = some code ∧ 0 < code) → (b.env false).optimize vs speed = .ok tr →
    ∀ s ∈ tr.segments, ∀ τ ∈ Set.Icc 0 s.time, magnitude s (List.range 3) 1 τ ≤ speed

/-- What one soft limit costs bounds the excess. -/
theorem softCost_excess (weight cap limit M C : ℝ) (hw : 0 < weight) (hl : 0 < limit) (hC : C < cap) (h : softCost weight cap limit M ≤ C) :
    M ≤ limit * (1 + Real.log C / weight) := by
  unfold softCost at h
  have h1 : Real.exp (weight * (M / limit - 1)) ≤ C := by
    rcases min_le_iff.mp h with h | h
    · linarith
    · exact h
  have h2 : weight * (M / limit - 1) ≤ Real.log C := (Real.le_log_iff_exp_le (lt_of_lt_of_le (Real.exp_pos _) h1)).mpr h1
  have h3 : M / limit - 1 ≤ Real.log C / weight := by
    rw [le_div_iff₀ hw]; linarith
  have h4 : M / limit ≤ 1 + Real.log C / weight := by linarith
  rw [div_le_iff₀ hl] at h4
  linarith

/-- C124, proved part: the plan is the trajectory of the last point NLopt evaluated. If the objective was `cost` there, and what is left of it after the
cost `1000 T²` of the duration `T` is below `10^12`, then the plan exceeds the speed, and the largest acceleration, by at most the fraction
`log (cost - 1000 T²) / 100`. Missing: a limit that holds whatever the cost, see `C124_refuted`. -/
theorem C124_excess_partial (b : OptBackend) (hrf : ∀ c, FindsRealRoots c (b.rf c)) (hA : 0 < b.aMax) (vs : List (Vertex ℝ)) (speed : ℝ)
    (hv : Handed3 vs speed) (tr : Trajectory ℝ) (h : (b.env false).optimize vs speed = .ok tr) (hsf : (b.nlopt vs speed).setupFails = false)
    (x : List ℝ) (hx : (evaluated (b.nlopt vs speed).requests).getLast? = some x) (o oe : NonLin 5) (ho : b.prepare vs speed = .ok o) (cost : ℝ)
    (he : objectiveAt b.rf b.solve o x = .ok (oe, cost)) (hcap : cost - 1000 * duration tr.segments ^ 2 < 10 ^ 12) :
    ∀ s ∈ tr.segments, ∀ τ ∈ Set.Icc 0 s.time,
      magnitude s (List.range 3) 1 τ ≤ speed * (1 + Real.log (cost - 1000 * duration tr.segments ^ 2) / 100) ∧
      magnitude s (List.range 3) 2 τ ≤ b.aMax * (1 + Real.log (cost - 1000 * duration tr.segments ^ 2) / 100) := by
  obtain ⟨ts, ht, hh, hp, hc⟩ := prepare_history b vs speed o ho
  have hq : ts ≠ [] := by
    obtain ⟨ts', e, hl, _⟩ := handed_times b hA vs speed hv
    rw [ht] at e
    rw [Except.ok.inj e]
    intro e; have := hv.1; simp [e] at hl; omega
  have h' : b.nonlinear vs speed = .ok tr := h
  unfold nonlinear at h'
  obtain ⟨o0, e0, h'⟩ := bind_eq_ok h'
  obtain rfl : o = o0 := Except.ok.inj (ho.symm.trans e0)
  obtain ⟨r, h2, h3⟩ := bind_eq_ok h'
  have hm : FullMethod o.params.method ∨ TimeMethod o.params.method := by rw [hp]; exact .inl (.inl rfl)
  have hs : ∀ c ∈ o.constraints, c.derivative + 1 < 5 + 5 := by rw [hc]; simp
  have hpos : ∀ c ∈ o.constraints, 0 < c.value := by
    rw [hc]; intro c hc
    simp only [List.mem_cons, List.not_mem_nil, or_false] at hc
    rcases hc with rfl | rfl
    · exact hv.2.1
    · exact hA
  have hlast := C80_last_partial hrf ⟨vs, ts, 2⟩ o r.1 oe (b.nlopt vs speed) r.2 hh (by omega) hq hm hs hpos hsf h2 x hx cost he
  rw [h3] at hlast
  obtain ⟨hi, hcost, _⟩ := C32_objective hrf ⟨vs, ts, 2⟩ o oe x cost hh (by omega) hq hm hs hpos he tr hlast.symm
  obtain ⟨hpe, hce⟩ : oe.params = o.params ∧ oe.constraints = o.constraints := by
    unfold objectiveAt at he
    rw [if_pos (by rw [hp]; exact .inl rfl)] at he
    have hk := (objectiveFull_spec o oe x false cost (linHistory hh) he).1
    exact ⟨hk.1, hk.2.1⟩
  have hT : ∀ s ∈ tr.segments, 0 < s.time := by
    obtain ⟨⟨_, _, _, h4, _⟩, _⟩ := C85_segmentwise b false vs speed tr h
    exact h4
  have hen := energy_nonneg 2 tr.segments fun s hs => (hT s hs).le
  obtain ⟨M, hM, hsoft⟩ := hi.soft (by rw [hpe, hp]; rfl)
  have htr := hi.trajectory
  have htime := hi.time
  rw [hpe, hp] at htime hsoft
  rw [hce, hc] at hsoft hM
  have htime : oe.info.costTime = 1000 * duration tr.segments ^ 2 := by
    rw [htime]
    unfold timeTerm OptBackend.params duration
    simp only
    ring
  have hsoft : oe.info.costSoft = softCost 100 (10 ^ 12) speed (M 1) + softCost 100 (10 ^ 12) b.aMax (M 2) := by
    rw [hsoft]; simp [softCosts, OptBackend.params]
  have htr : oe.info.costTrajectory = energy 2 tr.segments := htr
  have n1 := softCost_nonneg 100 (10 ^ 12) speed (M 1) (by norm_num)
  have n2 := softCost_nonneg 100 (10 ^ 12) b.aMax (M 2) (by norm_num)
  have b1 := softCost_excess 100 (10 ^ 12) speed (M 1) (cost - 1000 * duration tr.segments ^ 2) (by norm_num) hv.2.1 hcap (by linarith)
  have b2 := softCost_excess 100 (10 ^ 12) b.aMax (M 2) (cost - 1000 * duration tr.segments ^ 2) (by norm_num) hA hcap (by linarith)
  intro s hs τ hτ
  exact ⟨((hM ⟨1, speed⟩ (by simp)).2 s hs τ hτ).trans b1, ((hM ⟨2, b.aMax⟩ (by simp)).2 s hs τ hτ).trans b2⟩

theorem cauchy3 (x y z u1 u2 u3 D V : ℝ) (hD : 0 ≤ D) (hV : 0 ≤ V) (hDD : D ^ 2 = x ^ 2 + y ^ 2 + z ^ 2) (hV2 : u1 ^ 2 + u2 ^ 2 + u3 ^ 2 ≤ V ^ 2) :
    x * u1 + y * u2 + z * u3 ≤ D * V := by
  refine (abs_le_of_sq_le_sq' ?_ (by positivity)).2
  rw [mul_pow, hDD]
  have k1 : (x * u1 + y * u2 + z * u3) ^ 2 ≤ (x ^ 2 + y ^ 2 + z ^ 2) * (u1 ^ 2 + u2 ^ 2 + u3 ^ 2) := by
    nlinarith [sq_nonneg (x * u2 - y * u1), sq_nonneg (x * u3 - z * u1), sq_nonneg (y * u3 - z * u2)]
  exact k1.trans (mul_le_mul_of_nonneg_left hV2 (by positivity))

/-- C124: a plan can only keep to a speed `V` between two consecutive vertices if it takes long enough: they are at most `V` times the segment's time
apart. -/
theorem C124_needs_time (b : OptBackend) (lineal : Bool) (vs : List (Vertex ℝ)) (speed : ℝ) (tr : Trajectory ℝ) (hw : ∀ v ∈ vs, WellFormed v)
    (h : (b.env lineal).optimize vs speed = .ok tr) (V : ℝ) (i : ℕ) (s : Segment ℝ) (hs : tr.segments[i]? = some s)
    (hV : ∀ τ ∈ Set.Icc 0 s.time, magnitude s (List.range 3) 1 τ ≤ V) (v w : Vertex ℝ) (hv : vs[i]? = some v) (hw' : vs[i + 1]? = some w)
    (p q : List ℝ) (hp : v.getConstraint 0 = some p) (hq : w.getConstraint 0 = some q) : distance p q ≤ V * s.time := by
  obtain ⟨o, ⟨ts, p0, hh, hu⟩, htr⟩ := env_solved b lineal vs speed tr h
  obtain ⟨⟨hD, _, hcons, hpos, hreg⟩, _⟩ := C85_segmentwise b lineal vs speed tr h
  have hmem := List.mem_of_getElem? hs
  obtain ⟨_, _, hmeet⟩ := C23_constraints ⟨vs, ts, 2⟩ p0 o hh hw hu tr htr
  have e0 := (hmeet i s hs 0 p (by omega)).1 v hv hp
  have e1 := (hmeet i s hs 0 q (by omega)).2 w hw' hq
  have hlen : s.polys.length = 3 := by rw [(hcons.2 s hmem).1, hD]
  obtain ⟨N, T, polys⟩ := s
  simp only at hlen
  obtain ⟨a, c, d, rfl⟩ : ∃ a c d, polys = [a, c, d] := by
    match polys, hlen with
    | [a, c, d], _ => exact ⟨a, c, d, rfl⟩
  have hT := hpos _ hmem
  simp only [segDeriv, List.map_cons, List.map_nil] at e0 e1
  simp only at hV hT ⊢
  set x := derivAt a 0 T - derivAt a 0 0 with hx
  set y := derivAt c 0 T - derivAt c 0 0 with hy
  set z := derivAt d 0 T - derivAt d 0 0 with hz
  have hdist : distance p q = Real.sqrt (x ^ 2 + y ^ 2 + z ^ 2) := by
    rw [← e0, ← e1]
    unfold distance
    congr 1
    simp only [List.zipWith_cons_cons, List.zipWith_nil_right, List.sum_cons, List.sum_nil, hx, hy, hz]
    ring
  set D := Real.sqrt (x ^ 2 + y ^ 2 + z ^ 2) with hD'
  have hDD : D ^ 2 = x ^ 2 + y ^ 2 + z ^ 2 := Real.sq_sqrt (by positivity)
  have hD0 : 0 ≤ D := Real.sqrt_nonneg _
  have hder : ∀ t, HasDerivAt (fun t => x * derivAt a 0 t + y * derivAt c 0 t + z * derivAt d 0 t)
      (x * derivAt a 1 t + y * derivAt c 1 t + z * derivAt d 1 t) t := fun t =>
    ((((hasDerivAt_derivAt a 0 t).const_mul x).add ((hasDerivAt_derivAt c 0 t).const_mul y)).add ((hasDerivAt_derivAt d 0 t).const_mul z))
  obtain ⟨τ, hτ, hτe⟩ := exists_hasDerivAt_eq_slope (fun t => x * derivAt a 0 t + y * derivAt c 0 t + z * derivAt d 0 t)
    (fun t => x * derivAt a 1 t + y * derivAt c 1 t + z * derivAt d 1 t) hT (fun t _ => (hder t).continuousAt.continuousWithinAt) (fun t _ => hder t)
  have hVt := hV τ ⟨hτ.1.le, hτ.2.le⟩
  have hM : magnitude ⟨N, T, [a, c, d]⟩ (List.range 3) 1 τ = Real.sqrt (derivAt a 1 τ ^ 2 + derivAt c 1 τ ^ 2 + derivAt d 1 τ ^ 2) := by
    unfold magnitude
    congr 1
    simp [List.range_succ, add_assoc]
  rw [hM] at hVt
  have hV0 : 0 ≤ V := (Real.sqrt_nonneg _).trans hVt
  have hV2 : derivAt a 1 τ ^ 2 + derivAt c 1 τ ^ 2 + derivAt d 1 τ ^ 2 ≤ V ^ 2 := (Real.sqrt_le_left hV0).mp hVt
  have hslope : (x * derivAt a 1 τ + y * derivAt c 1 τ + z * derivAt d 1 τ) * T = D ^ 2 := by
    rw [hτe, sub_zero, div_mul_cancel₀ _ hT.ne', hDD, hx, hy, hz]
    ring
  have hcs := cauchy3 x y z _ _ _ D V hD0 hV0 hDD hV2
  rw [hdist]
  rcases hD0.eq_or_lt with h0 | h0
  · rw [← h0]; positivity
  · have : D * D ≤ D * (V * T) := by nlinarith
    exact le_of_mul_le_mul_left this h0

/-- C124: what bounds the velocity (or another derivative) along the plan bounds the references: while no compensations are in force, a reference is no larger
than any bound on the magnitude along the plan. -/
theorem C124_reference (env : Env ℝ) (henv : Segmentwise env) (s : Planner ℝ) (h : Reachable env s) (tr : Trajectory ℝ) (htr : s.traj = some tr)
    (hw : ¬ PlanWaiting s) (hm : ∀ w ∈ s.dyn, w.modifiers = []) (k : ℕ) (V : ℝ)
    (hV : ∀ seg ∈ tr.segments, ∀ τ ∈ Set.Icc 0 seg.time, magnitude seg (List.range 3) k τ ≤ V) (t : ℝ) (o f : Bool) (r : References ℝ) (s' : Planner ℝ)
    (hr : s.evaluateTrajectory env t o f = .ok (some (r, s'))) (v : V3 ℝ) (hv : refOrder r k = some v) :
    Real.sqrt (v.x ^ 2 + v.y ^ 2 + v.z ^ 2) ≤ V := by
  have hu := traj_usable env henv s (reachable_plan env henv s h) tr htr
  have hg := idle_minTime env s tr htr
  have href := (C40_references env henv s h tr htr hw _ hg t o f r s' hr).1 k v hv
  have hb := reference_base env tr s.dyn hm href
  have hM := usable_maxTime tr hu
  obtain ⟨hD, hne, hcons, hT, hR⟩ := hu
  obtain ⟨j, seg, τ, hj, h0, h1, _, he⟩ := locate tr hcons hne hT hR _ (le_max_left 0 (min (t - s.params.gtlg + s.getTimeCompensation) tr.maxTime)) (max_le hM (min_le_right _ _))
  rw [he k] at hb
  have hb := Except.ok.inj hb
  have hmem := List.mem_of_getElem? hj
  have := hV seg hmem τ ⟨h0, h1⟩
  have hlen : seg.polys.length = 3 := by rw [(hcons.2 seg hmem).1, hD]
  refine le_trans (le_of_eq ?_) this
  unfold magnitude
  congr 1
  obtain ⟨N, T, polys⟩ := seg
  simp only at hlen
  match polys, hlen with
  | [a, c, d], _ =>
    simp only [segDeriv, List.map_cons, List.map_nil, List.cons.injEq, and_true] at hb
    simp [List.range_succ, ← hb.1, ← hb.2.1, ← hb.2.2, add_assoc]

/-! ## A run of NLopt that ends far from the optimum -/

/-- An exact linear solver, a given root finder, and a run of NLopt that evaluates the starting point and then the same point with the time `t` for the
first segment. -/
noncomputable def hastyBackend (rf : Poly.RootFinder ℝ) (aMax t : ℝ) : OptBackend where
  solve := exactSolver
  rf := rf
  nlopt := fun vs speed =>
    match (do
      let o ← prepare ⟨exactSolver, rf, fun _ _ => ⟨true, [], none, false⟩, aMax⟩ vs speed
      let o ← o.solveLinear exactSolver
      o.fullProblem : Res NloptProblem) with
    | .ok p => ⟨false, [.objective p.x0 false, .objective (t :: p.x0.tail) false], some 4, true⟩
    | .error _ => ⟨true, [], none, false⟩
  aMax := aMax

theorem hasty_run (rf : Poly.RootFinder ℝ) (aMax t : ℝ) (hA : 0 < aMax) (ht : 1 / 10 ≤ t) (vs : List (Vertex ℝ)) (speed : ℝ) (hv : Handed3 vs speed)
    (h2 : vs.length = 2) (he : EachEstimate (hastyBackend rf aMax t) vs speed (1 / 2 ^ 52 ≤ ·)) :
    ∃ (o : NonLin 5) (p : NloptProblem) (ts : List ℝ), (hastyBackend rf aMax t).prepare vs speed = .ok o ∧ NLHistory 5 3 rf exactSolver (some ⟨vs, ts, 2⟩) o ∧ ts.length = 1 ∧
      o.params = OptBackend.params ∧ o.constraints = [⟨1, speed⟩, ⟨2, aMax⟩] ∧
      (hastyBackend rf aMax t).nlopt vs speed = ⟨false, [.objective p.x0 false, .objective (t :: p.x0.tail) false], some 4, true⟩ ∧
      GoodRun exactSolver o ((hastyBackend rf aMax t).nlopt vs speed) ∧ (t :: p.x0.tail).length = 1 + o.poly.nFree * 3 := by
  obtain ⟨o, o1, ts, ho, e, hn, ho1⟩ := prepare_total (hastyBackend rf aMax t) hA vs speed hv he
  obtain ⟨ts', e', hh, hpar, hc⟩ := prepare_history (hastyBackend rf aMax t) _ _ o ho
  obtain rfl : ts = ts' := Except.ok.inj (e.symm.trans e')
  have hlen : ts.length = 1 := by
    obtain ⟨ts', e1, hl, _⟩ := handed_times (hastyBackend rf aMax t) hA vs speed hv
    rw [e] at e1
    rw [Except.ok.inj e1]
    omega
  obtain ⟨t0, rfl⟩ := List.length_eq_one_iff.mp hlen
  obtain ⟨p1, hsp, e1⟩ := bind_eq_ok ho1
  have ep : o1.poly = p1 := by rw [← Except.ok.inj e1]
  have hsp : o.poly.solveLinear exactSolver = .ok o1.poly := by rw [ep]; exact hsp
  obtain ⟨p, hp, hx0, hxl, hb, _⟩ := fullProblem_spec o1 (by omega) hn (linHistory hh) hsp
  have hx0 : p.x0 = t0 :: o1.poly.freeCompact.flatten := hx0
  have hrun : (hastyBackend rf aMax t).nlopt vs speed = ⟨false, [.objective p.x0 false, .objective (t :: p.x0.tail) false], some 4, true⟩ := by
    have h' : prepare ⟨exactSolver, rf, fun _ _ => ⟨true, [], none, false⟩, aMax⟩ vs speed = .ok o := ho
    have ho1 : o.solveLinear exactSolver = .ok o1 := ho1
    simp only [hastyBackend, h', bind, Except.bind, ho1, hp]
  have hb2 : WithinBounds p (t :: p.x0.tail) := by
    refine ⟨by rw [hx0]; simp, ?_⟩
    intro i v hi
    cases i with
    | succ i =>
      refine hb.2 (i + 1) v ?_
      rw [hx0] at hi ⊢
      exact hi
    | zero =>
      obtain rfl : t = v := Option.some.inj hi
      have hti : o1.poly.times = [t0] := by
        have := ((inv_history 3 exactSolver _ _ (.solve (linHistory hh) hsp)).2 _ rfl).times
        exact this
      unfold fullProblem at hp
      split at hp
      · cases hp
      · dsimp only at hp
        split at hp
        · cases hp
        · obtain ⟨free, _, hp⟩ := bind_eq_ok hp
          split at hp
          · cases hp
          · split at hp
            · cases hp
            · have hp := Except.ok.inj hp
              rw [hti] at hp
              have hl : p.lower[0]? = some (widen t0 (some kOptimizationTimeLowerBound, none)).1 := by rw [← hp]; rfl
              have hu : p.upper[0]? = some (widen t0 (some kOptimizationTimeLowerBound, none)).2 := by rw [← hp]; rfl
              rw [hl, hu]
              unfold widen kOptimizationTimeLowerBound
              simp only
              split
              · exact ⟨fun l h => by cases h; linarith, fun u h => by cases h⟩
              · exact ⟨fun l h => by cases h; exact ht, fun u h => by cases h⟩
  refine ⟨o, p, [t0], ho, hh, rfl, hpar, hc, hrun, ?_, ?_⟩
  · rw [hrun]
    intro p' nl' hhand _
    rcases hhand with ⟨_, o1', e1, e2⟩ | ⟨hbad, _⟩
    · have ho1 : o.solveLinear exactSolver = .ok o1 := ho1
      rw [ho1] at e1
      rw [← Except.ok.inj e1, hp] at e2
      rw [← Except.ok.inj e2, hpar]
      refine .inr ⟨fun r hr => ?_, fun hno => absurd hb hno⟩
      simp only [List.mem_cons, List.not_mem_nil, or_false] at hr
      rcases hr with rfl | rfl
      · exact ⟨hb, rfl⟩
      · exact ⟨hb2, rfl⟩
    · rw [hpar] at hbad
      rcases hbad with (hbad | hbad) | hbad <;> cases hbad
  · obtain ⟨p', nl, hp', hnl, hd, _⟩ := C30_bounds _ o o1 hh (by omega) hn (by rw [hpar]; exact .inl rfl) ho1
    obtain rfl : p = p' := Except.ok.inj (hp.symm.trans hp')
    obtain ⟨nl', e3, e4⟩ := (nlopt_history hh).2 _ rfl
    have hnl : o.nlopt = some nl := by rw [← Except.ok.inj e1] at hnl; exact hnl
    rw [hnl] at e3
    rw [Option.some.inj e3, e4, hpar] at hd
    rw [hx0] at hd ⊢
    exact hd

/-- With the run of `hastyBackend`, the plan has one segment, of the time evaluated last. -/
theorem hasty_plan (rf : Poly.RootFinder ℝ) (hrf : ∀ c, FindsRealRoots c (rf c)) (aMax t : ℝ) (hA : 0 < aMax) (ht : 1 / 10 ≤ t) (vs : List (Vertex ℝ))
    (speed : ℝ) (hv : Handed3 vs speed) (h2 : vs.length = 2) (he : EachEstimate (hastyBackend rf aMax t) vs speed (1 / 2 ^ 52 ≤ ·)) :
    ∃ tr s, ((hastyBackend rf aMax t).env false).optimize vs speed = .ok tr ∧ tr.segments = [s] ∧ s.time = t := by
  obtain ⟨o, p, ts, ho, hh, hts, hpar, hc, hrun, hg, hl⟩ := hasty_run rf aMax t hA ht vs speed hv h2 he
  obtain ⟨tr, _, h, _⟩ := C85_nonlinear_succeeds (hastyBackend rf aMax t) hA vs speed hv he (fun o' ho' => by
    rw [← Except.ok.inj (ho.symm.trans ho')]; exact hg)
  have h' : (hastyBackend rf aMax t).nonlinear vs speed = .ok tr := h
  unfold nonlinear at h'
  obtain ⟨o0, e0, h'⟩ := bind_eq_ok h'
  obtain rfl : o = o0 := Except.ok.inj (ho.symm.trans e0)
  obtain ⟨r, h2, h3⟩ := bind_eq_ok h'
  have hpos : ∀ c ∈ o.constraints, 0 < c.value := by
    rw [hc]; intro c hc
    simp only [List.mem_cons, List.not_mem_nil, or_false] at hc
    rcases hc with rfl | rfl
    · exact hv.2.1
    · exact hA
  obtain ⟨_, _, _, _, h5⟩ := optimize_info hrf _ o r.1 r.2 (linHistory hh) (by omega) (by intro e; simp [show ts = [] from e] at hts)
    (by rw [hpar]; exact .inl (.inl rfl)) (by unfold Searchable; rw [hc]; simp) hpos (by rw [hrun]) h2
  have hs := (h5 (t :: p.x0.tail) (by rw [hrun]; rfl)).1
  have := solved_times_sum hs (by omega) tr h3
  simp only [hts, List.take_succ_cons, List.take_zero] at this
  match hseg : tr.segments with
  | [] => rw [hseg] at this; cases this
  | _ :: _ :: _ => rw [hseg] at this; simp at this
  | [s] =>
    rw [hseg] at this
    exact ⟨tr, s, h, hseg, by simpa using this⟩

/-- Ten metres from rest to rest. -/
noncomputable def tenMetres : List (Vertex ℝ) := [⟨3, [(0, [0, 0, 0]), (1, [0, 0, 0])]⟩, ⟨3, [(0, [10, 0, 0]), (1, [0, 0, 0])]⟩]

/-- C124 does not hold: with a set speed of 1 m/s NLopt may end, successfully and within its bounds, at a segment time of a tenth of a second; the plan from
rest to rest over ten metres then exceeds 99 m/s. -/
theorem C124_refuted : ¬C124Full := by
  intro hfull
  obtain ⟨rf, hrf⟩ := exists_complete_rootFinder
  have hmem : ∀ v ∈ tenMetres, v = ⟨3, [(0, [0, 0, 0]), (1, [0, 0, 0])]⟩ ∨ v = ⟨3, [(0, [10, 0, 0]), (1, [0, 0, 0])]⟩ := by
    intro v hv; simpa [tenMetres] using hv
  have hw : ∀ v ∈ tenMetres, WellFormed v := by
    intro v hv
    rcases hmem v hv with rfl | rfl <;> exact ⟨by simp, by simp⟩
  have hv : Handed3 tenMetres 1 := by
    refine ⟨by simp [tenMetres], one_pos, fun v hv => ⟨hw v hv, ?_⟩⟩
    rcases hmem v hv with rfl | rfl <;> exact ⟨rfl, _, rfl⟩
  have he : EachEstimate (hastyBackend rf 1 (1 / 10)) tenMetres 1 (1 / 2 ^ 52 ≤ ·) := by
    intro i v w p q h1 _ hp hq
    have hr : AtRest v := by
      rcases hmem v (List.mem_of_getElem? h1) with rfl | rfl <;> exact ⟨[0, 0, 0], rfl, by norm_num⟩
    show 1 / 2 ^ 52 ≤ estimate v w p q 1 1
    unfold estimate
    rw [if_pos (.inl hr)]
    have := Real.sqrt_nonneg ((List.zipWith (fun a b => (a - b) ^ 2) p q).sum)
    unfold distance
    have : (1 : ℝ) / 2 ^ 52 ≤ 1 := by norm_num
    linarith
  obtain ⟨tr, s, h, hseg, hst⟩ := hasty_plan rf hrf 1 (1 / 10) one_pos le_rfl tenMetres 1 hv rfl he
  obtain ⟨o, p, ts, ho, _, _, _, _, hrun, hg, _⟩ := hasty_run rf 1 (1 / 10) one_pos le_rfl tenMetres 1 hv rfl he
  have hlim := hfull (hastyBackend rf 1 (1 / 10)) tenMetres 1 tr hrf one_pos hv (by
    intro v hv u hu
    rcases hmem v hv with rfl | rfl <;> · obtain rfl : [0, 0, 0] = u := Option.some.inj hu; norm_num) he
    (fun o' ho' => by rw [← Except.ok.inj (ho.symm.trans ho')]; exact hg) (by rw [hrun]) ⟨4, by rw [hrun], by norm_num⟩ h s (by rw [hseg]; simp)
  have := C124_needs_time _ false tenMetres 1 tr hw h 1 0 s (by rw [hseg]; rfl) hlim _ _ rfl rfl [0, 0, 0] [10, 0, 0] rfl rfl
  have hd : distance [0, 0, 0] [10, 0, 0] = 10 := by
    unfold distance
    rw [show (List.zipWith (fun a b : ℝ => (a - b) ^ 2) [0, 0, 0] [10, 0, 0]).sum = 10 ^ 2 by norm_num]
    exact Real.sqrt_sq (by norm_num)
  rw [hd, hst] at this
  norm_num at this

/-! ## The hypotheses are met -/

/-- Four metres at a steady 1 m/s. -/
noncomputable def cruise : List (Vertex ℝ) :=
  [⟨3, [(0, [0, 0, 0]), (1, [1, 0, 0]), (2, [0, 0, 0]), (3, [0, 0, 0]), (4, [0, 0, 0])]⟩,
   ⟨3, [(0, [4, 0, 0]), (1, [1, 0, 0]), (2, [0, 0, 0]), (3, [0, 0, 0]), (4, [0, 0, 0])]⟩]

theorem derivAt_line01 (k : ℕ) (x : ℝ) : derivAt [0, 1] k x = match k with | 0 => x | 1 => 1 | _ + 2 => 0 := by
  have e : ofCoeffs ([0, 1] : List ℝ) = Polynomial.X := by
    simp [ofCoeffs, Finset.sum_range_succ]
  unfold derivAt
  rw [e]
  match k with
  | 0 => simp
  | 1 => simp
  | k + 2 => simp

theorem derivAt_nil' (k : ℕ) (x : ℝ) : derivAt ([] : List ℝ) k x = 0 := by
  simp [derivAt, ofCoeffs]

/-- The hypotheses of `C124_excess_partial` are met by the steady cruise with a set speed of 2 m/s, NLopt ending at the time of 4 s, and the bound says
something: the plan exceeds neither limit. -/
example : ∃ (b : OptBackend) (tr : Trajectory ℝ) (x : List ℝ) (o oe : NonLin 5) (cost : ℝ), (∀ c, FindsRealRoots c (b.rf c)) ∧ 0 < b.aMax ∧
    Handed3 cruise 2 ∧ (b.env false).optimize cruise 2 = .ok tr ∧ (b.nlopt cruise 2).setupFails = false ∧
    (evaluated (b.nlopt cruise 2).requests).getLast? = some x ∧ b.prepare cruise 2 = .ok o ∧ objectiveAt b.rf b.solve o x = .ok (oe, cost) ∧
    cost - 1000 * duration tr.segments ^ 2 < 1 ∧
    ∀ s ∈ tr.segments, ∀ τ ∈ Set.Icc 0 s.time, magnitude s (List.range 3) 1 τ ≤ 2 ∧ magnitude s (List.range 3) 2 τ ≤ b.aMax := by
  obtain ⟨rf, hrf⟩ := exists_complete_rootFinder
  have hmem : ∀ v ∈ cruise, v = ⟨3, [(0, [0, 0, 0]), (1, [1, 0, 0]), (2, [0, 0, 0]), (3, [0, 0, 0]), (4, [0, 0, 0])]⟩ ∨
      v = ⟨3, [(0, [4, 0, 0]), (1, [1, 0, 0]), (2, [0, 0, 0]), (3, [0, 0, 0]), (4, [0, 0, 0])]⟩ := by
    intro v hv; simpa [cruise] using hv
  have hw : ∀ v ∈ cruise, WellFormed v := by
    intro v hv
    rcases hmem v hv with rfl | rfl <;> exact ⟨by simp, by simp⟩
  have hv : Handed3 cruise 2 := by
    refine ⟨by simp [cruise], two_pos, fun v hv => ⟨hw v hv, ?_⟩⟩
    rcases hmem v hv with rfl | rfl <;> exact ⟨rfl, _, rfl⟩
  have hd : distance [0, 0, 0] [4, 0, 0] = 4 := by
    unfold distance
    rw [show (List.zipWith (fun a b : ℝ => (a - b) ^ 2) [0, 0, 0] [4, 0, 0]).sum = 4 ^ 2 by norm_num]
    exact Real.sqrt_sq (by norm_num)
  have he : EachEstimate (hastyBackend rf 1 4) cruise 2 (1 / 2 ^ 52 ≤ ·) := by
    intro i v w p q h1 h2 hp hq
    match i, h1, h2 with
    | 0, h1, h2 =>
      obtain rfl := Option.some.inj h1
      obtain rfl := Option.some.inj h2
      obtain rfl : [0, 0, 0] = p := Option.some.inj hp
      obtain rfl : [4, 0, 0] = q := Option.some.inj hq
      refine le_trans ?_ (C21_estimate_bounds _ _ [0, 0, 0] [4, 0, 0] rfl 2 1 two_pos one_pos).1
      rw [hd]
      norm_num
    | i + 1, h1, h2 => simp [cruise] at h2
  obtain ⟨tr, s, h, hseg, hst⟩ := hasty_plan rf hrf 1 4 one_pos (by norm_num) cruise 2 hv rfl he
  obtain ⟨o, p, ts, ho, hh, hts, hpar, hc, hrun, hg, hl⟩ := hasty_run rf 1 4 one_pos (by norm_num) cruise 2 hv rfl he
  have hsearch : ∀ c ∈ o.constraints, c.derivative + 1 < 5 + 5 := by rw [hc]; simp
  have hpos : ∀ c ∈ o.constraints, 0 < c.value := by
    rw [hc]; intro c hc
    simp only [List.mem_cons, List.not_mem_nil, or_false] at hc
    rcases hc with rfl | rfl <;> norm_num
  have hne : ts ≠ [] := by intro e; simp [e] at hts
  obtain ⟨oe, cost, e1, _⟩ := objectiveFull_total (rf := rf) o (linHistory hh) (by omega) hne hsearch (4 :: p.x0.tail) (by rw [hl, hts]) (by
    intro t ht
    simp only [hts, List.take_succ_cons, List.take_zero, List.mem_singleton] at ht
    rw [ht]
    unfold Poly.dblEps
    norm_num)
  have hm : FullMethod o.params.method := by rw [hpar]; exact .inl rfl
  have hobj : objectiveAt rf exactSolver o (4 :: p.x0.tail) = .ok (oe, cost) := by
    unfold objectiveAt
    rw [if_pos hm]
    exact e1
  have hsf : ((hastyBackend rf 1 4).nlopt cruise 2).setupFails = false := by rw [hrun]
  have hlastx : (evaluated ((hastyBackend rf 1 4).nlopt cruise 2).requests).getLast? = some (4 :: p.x0.tail) := by rw [hrun]; rfl
  -- the plan is the straight line
  have hline : ∃ a c d, s.polys = [a, c, d] ∧ (∀ k x, derivAt a k x = derivAt [0, 1] k x) ∧ (∀ k x, derivAt c k x = 0) ∧ ∀ k x, derivAt d k x = 0 := by
    obtain ⟨oo, ⟨ts', p0, hh', hu⟩, htr⟩ := env_solved _ false cruise 2 tr h
    have hi := (inv_history 3 exactSolver _ oo (Solved.history ⟨p0, hh', hu⟩)).2 _ rfl
    have es := setSegments_segments _ _ htr
    obtain ⟨_, n2, n3⟩ := hi.shape s (by rw [← es, hseg]; simp)
    obtain ⟨_, _, hmeet⟩ := C23_constraints ⟨cruise, ts', 2⟩ p0 oo hh' hw hu tr htr
    have hs0 : tr.segments[0]? = some s := by rw [hseg]; rfl
    obtain ⟨a, c, d, hpol⟩ : ∃ a c d, s.polys = [a, c, d] := by
      match hpp : s.polys, n2 with
      | [a, c, d], _ => exact ⟨a, c, d, rfl⟩
    rw [hpol] at n3
    have hends : ∀ k < 5, (derivAt a k 0 = derivAt [0, 1] k 0 ∧ derivAt c k 0 = derivAt [] k 0 ∧ derivAt d k 0 = derivAt [] k 0) ∧
        (derivAt a k 4 = derivAt [0, 1] k 4 ∧ derivAt c k 4 = derivAt [] k 4 ∧ derivAt d k 4 = derivAt [] k 4) := by
      intro k hk
      have f := fun c => hmeet 0 s hs0 k c hk
      simp only [segDeriv, hpol, List.map_cons, List.map_nil, hst] at f
      simp only [derivAt_line01, derivAt_nil']
      have : k = 0 ∨ k = 1 ∨ k = 2 ∨ k = 3 ∨ k = 4 := by omega
      rcases this with rfl | rfl | rfl | rfl | rfl
      · have g0 := (f [0, 0, 0]).1 _ rfl rfl
        have g1 := (f [4, 0, 0]).2 _ rfl rfl
        simp only [List.cons.injEq, and_true] at g0 g1
        exact ⟨g0, g1⟩
      · have g0 := (f [1, 0, 0]).1 _ rfl rfl
        have g1 := (f [1, 0, 0]).2 _ rfl rfl
        simp only [List.cons.injEq, and_true] at g0 g1
        exact ⟨g0, g1⟩
      all_goals
        have g0 := (f [0, 0, 0]).1 _ rfl rfl
        have g1 := (f [0, 0, 0]).2 _ rfl rfl
        simp only [List.cons.injEq, and_true] at g0 g1
        exact ⟨g0, g1⟩
    have hle : ∀ q ∈ [a, c, d], q.length ≤ 5 + 5 := fun q hq => (n3 q hq).le
    refine ⟨a, c, d, hpol, fun k x => ?_, fun k x => ?_, fun k x => ?_⟩
    · exact derivAt_unique (h := 5) a [0, 1] 4 (by norm_num) (hle a (by simp)) (by simp) (fun k hk => (hends k hk).1.1) (fun k hk => (hends k hk).2.1) k x
    · rw [derivAt_unique (h := 5) c [] 4 (by norm_num) (hle c (by simp)) (by simp) (fun k hk => (hends k hk).1.2.1) (fun k hk => (hends k hk).2.2.1) k x,
        derivAt_nil']
    · rw [derivAt_unique (h := 5) d [] 4 (by norm_num) (hle d (by simp)) (by simp) (fun k hk => (hends k hk).1.2.2) (fun k hk => (hends k hk).2.2.2) k x,
        derivAt_nil']
  obtain ⟨a, c, d, hpol, ha, hcz, hdz⟩ := hline
  have hmag : ∀ k τ, magnitude s (List.range 3) k τ = |derivAt [0, 1] k τ| := by
    intro k τ
    unfold magnitude
    rw [← Real.sqrt_sq_eq_abs]
    congr 1
    simp [List.range_succ, hpol, ha, hcz, hdz]
  have hcap : 0 ≤ cost - 1000 * duration tr.segments ^ 2 ∧ cost - 1000 * duration tr.segments ^ 2 < 1 := by
    have h' : (hastyBackend rf 1 4).nonlinear cruise 2 = .ok tr := h
    unfold nonlinear at h'
    obtain ⟨o0, e0, h'⟩ := bind_eq_ok h'
    obtain rfl : o = o0 := Except.ok.inj (ho.symm.trans e0)
    obtain ⟨r, h2, h3⟩ := bind_eq_ok h'
    have hlast := C80_last_partial hrf ⟨cruise, ts, 2⟩ o r.1 oe _ r.2 hh (by omega) hne (.inl hm) hsearch hpos hsf h2 _ hlastx cost hobj
    rw [h3] at hlast
    obtain ⟨hi, hcost, _⟩ := C32_objective hrf ⟨cruise, ts, 2⟩ o oe _ cost hh (by omega) hne (.inl hm) hsearch hpos hobj tr hlast.symm
    have hk := (objectiveFull_spec o oe _ false cost (linHistory hh) e1).1
    obtain ⟨M, hM, hsoft⟩ := hi.soft (by rw [hk.1, hpar]; rfl)
    have htime := hi.time
    have htr := hi.trajectory
    rw [hk.1, hpar] at htime hsoft
    rw [hk.2.1, hc] at hsoft hM
    have htime : oe.info.costTime = 1000 * duration tr.segments ^ 2 := by
      rw [htime]
      unfold timeTerm OptBackend.params duration
      simp only
      ring
    have hen : energy 2 tr.segments = 0 := by
      rw [hseg]
      simp [energy, polyEnergy, hpol, ha, hcz, hdz, derivAt_line01]
    have htr : oe.info.costTrajectory = energy 2 tr.segments := htr
    obtain ⟨s1, hs1, τ1, _, m1⟩ := (hM ⟨1, 2⟩ (by simp)).1
    obtain ⟨s2, hs2, τ2, _, m2⟩ := (hM ⟨2, 1⟩ (by simp)).1
    rw [hseg, List.mem_singleton] at hs1 hs2
    rw [hs1, hmag, derivAt_line01] at m1
    rw [hs2, hmag, derivAt_line01] at m2
    simp only [abs_one, abs_zero] at m1 m2
    have hsoft : oe.info.costSoft = softCost 100 (10 ^ 12) 2 (M 1) + softCost 100 (10 ^ 12) 1 (M 2) := by
      rw [hsoft]; simp [softCosts, OptBackend.params]
    have k1 : softCost 100 (10 ^ 12) 2 (M 1) < 1 / 2 := by
      rw [m1]
      refine lt_of_le_of_lt (min_le_right _ _) ?_
      rw [show (100 : ℝ) * (1 / 2 - 1) = -50 by norm_num, Real.exp_neg, inv_lt_comm₀ (Real.exp_pos _) (by norm_num), show ((1 : ℝ) / 2)⁻¹ = 2 by norm_num]
      have := Real.add_one_le_exp (50 : ℝ)
      linarith
    have k2 : softCost 100 (10 ^ 12) 1 (M 2) < 1 / 2 := by
      rw [m2]
      refine lt_of_le_of_lt (min_le_right _ _) ?_
      rw [show (100 : ℝ) * (0 / 1 - 1) = -100 by norm_num, Real.exp_neg, inv_lt_comm₀ (Real.exp_pos _) (by norm_num), show ((1 : ℝ) / 2)⁻¹ = 2 by norm_num]
      have := Real.add_one_le_exp (100 : ℝ)
      linarith
    have n1 := softCost_nonneg 100 (10 ^ 12) 2 (M 1) (by norm_num)
    have n2 := softCost_nonneg 100 (10 ^ 12) 1 (M 2) (by norm_num)
    rw [hcost, htr, hen, htime, hsoft]
    generalize softCost 100 (10 ^ 12) 2 (M 1) = S1 at k1 n1 ⊢
    generalize softCost 100 (10 ^ 12) 1 (M 2) = S2 at k2 n2 ⊢
    generalize 1000 * duration tr.segments ^ 2 = S3
    constructor
    · linarith only [n1, n2]
    · linarith only [k1, k2]
  refine ⟨hastyBackend rf 1 4, tr, _, o, oe, cost, hrf, one_pos, hv, h, hsf, hlastx, ho, hobj, hcap.2, fun s hs τ hτ => ?_⟩
  have := C124_excess_partial (hastyBackend rf 1 4) hrf one_pos cruise 2 hv tr h hsf _ hlastx o oe ho cost hobj (by linarith [hcap.2]) s hs τ hτ
  have hlog : Real.log (cost - 1000 * duration tr.segments ^ 2) ≤ 0 := Real.log_nonpos hcap.1 hcap.2.le
  have hA1 : (hastyBackend rf 1 4).aMax = 1 := rfl
  rw [hA1] at this ⊢
  constructor <;> linarith [this.1, this.2]

/-- A plan just taken over, before any modification. -/
noncomputable def plainState : Planner ℝ :=
  { realState with
    dyn := [{ vertex := startVertex, original := ⟨0, 0, 0⟩, current := ⟨0, 0, 0⟩, time := 0, name := "", index := 0, modifiers := [], lastSigma := 3 / 2 },
      { vertex := ⟨3, [(0, [1, 0, 0])]⟩, original := ⟨1, 0, 0⟩, current := ⟨1, 0, 0⟩, time := 1, name := "a", index := 1, modifiers := [], lastSigma := 3 / 2 }] }

theorem plainState_exec : exec realEnv (Planner.init ⟨0, 0, 0⟩) (realHistory.take 11) = .ok (some plainState) := by
  have ho := fun sp => realEnv_optimize sp
  unfold startVertex endVertex at ho
  simp [realHistory, exec, Planner.step, Planner.setWaypoints, Planner.init, Planner.workerStep, Planner.checkIfTrajectoryCanBeGenerated, Planner.checkInSecurityZone, bind,
    Except.bind, pure, Except.pure, Planner.generateWaypoints, resetAll, Planner.checkStitchTrajectory, Planner.appendDronePosition, Waypoint.reset,
    Waypoint.resetWithCurrent, Waypoint.default, Vertex.mk', Vertex.addConstraint, V3.toList, V3.zero, Waypoint.setConstraint, Waypoint.copy, rwp, Planner.asyncStart,
    Planner.asyncFinish, Planner.computeTrajectory, extractVertices, ho, IntMap.insert, assignTimes, realPlan_time0, realPlan_time1, Waypoint.setIndex, Waypoint.setTime,
    Planner.getDynamicWaypoints, Planner.checkTrajectoryGenerated, Planner.swapTrajectory, Planner.swapDynamicWaypoints,
    realPlan_fit, Future.isReady, Future.valid, plainState, realState, startVertex, sigmaFixed]

/-- The hypotheses of `C124_reference` are met by a plan just taken over. -/
example : Reachable realEnv plainState ∧ plainState.traj = some realPlan ∧ ¬ PlanWaiting plainState ∧ (∀ w ∈ plainState.dyn, w.modifiers = []) ∧
    (∃ V, ∀ seg ∈ realPlan.segments, ∀ τ ∈ Set.Icc 0 seg.time, magnitude seg (List.range 3) 1 τ ≤ V) ∧
    ∃ r s' v, plainState.evaluateTrajectory realEnv (1 / 2) false true = .ok (some (r, s')) ∧ refOrder r 1 = some v := by
  have hr : Reachable realEnv plainState := by
    refine reachable_of_fresh ⟨⟨0, 0, 0⟩, realHistory.take 11, ?_, exec_run _ _ _ _ plainState_exec⟩
    simp [realHistory, FreshEvent, rwp_bookkept]
  have hw : ¬ PlanWaiting plainState := by
    rintro (h | ⟨tr, h⟩) <;> cases h
  have hm : ∀ w ∈ plainState.dyn, w.modifiers = [] := by simp [plainState]
  refine ⟨hr, rfl, hw, hm, ?_, ?_⟩
  · have hc : Continuous fun τ => magnitude (hermiteSegment startVertex endVertex) (List.range 3) 1 τ := by
      unfold magnitude
      refine Real.continuous_sqrt.comp ?_
      simp only [List.range_succ, List.range_zero, List.nil_append, List.cons_append, List.map_cons, List.map_nil, List.sum_cons, List.sum_nil]
      have h : ∀ c : List ℝ, Continuous fun τ => derivAt c 1 τ := fun c => continuous_iff_continuousAt.mpr fun t => (hasDerivAt_derivAt c 1 t).continuousAt
      fun_prop
    obtain ⟨τ, _, hτ⟩ := isCompact_Icc.exists_isMaxOn (Set.nonempty_Icc.mpr (realPlan_usable.2.2.2.1 (hermiteSegment startVertex endVertex) (by simp [realPlan])).le) hc.continuousOn
    refine ⟨magnitude (hermiteSegment startVertex endVertex) (List.range 3) 1 τ, fun seg hseg x hx => ?_⟩
    obtain rfl : seg = hermiteSegment startVertex endVertex := by simpa [realPlan] using hseg
    exact hτ hx
  · obtain ⟨r, s', h⟩ := C40_returns realEnv realEnv_segmentwise plainState hr realPlan rfl hw (fun w hw m hm' => by rw [hm w hw] at hm'; cases hm') (1 / 2) false true
    have := (C40_references realEnv realEnv_segmentwise plainState hr realPlan rfl hw _ (idle_minTime realEnv plainState realPlan rfl) _ _ _ r s' h).2 1 (by omega)
    obtain ⟨v, hv⟩ := Option.isSome_iff_exists.mp (this.mpr (.inr rfl))
    exact ⟨r, s', v, h, hv⟩

end Verif.Properties
