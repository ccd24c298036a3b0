import Verif.Lemmas.NonlinearMellinger
import Verif.Properties.NonlinearCost

/-!
# Properties C83 and C84: the gradient of the Mellinger method and its final scaling of the times
-/

set_option linter.unusedSectionVars false

namespace Verif.Properties

open Verif Spec Lemmas LinOpt NonLin
variable {h dim : ℕ} {rf : Poly.RootFinder ℝ} {solve : LinSolver ℝ}

/-! ## C83 -/

/-- C83: asked for cost and gradient at segment times `x`, the object afterwards holds the linear solution for `x`, the cost is its energy, and with two or
more segments entry `i` of the gradient is the difference quotient between the energy of the linear solution for the times perturbed in
direction `i` (of any object that was solved for them) and the cost. -/
theorem C83_gradient (q : Problem ℝ) (o o' : NonLin h) (x g : List ℝ) (cost : ℝ) (hh : NLHistory h dim rf solve (some q) o) (hdim : 0 < dim)
    (ho : o.objectiveFunctionTimeMellingerOuterLoop solve x true = .ok (o', cost, g)) (tr : Trajectory ℝ) (htr : o'.getTrajectory = .ok tr) :
    tr.segments.map (·.time) = x ∧ cost = energy q.derivative.toNat tr.segments ∧ g.length = x.length ∧
    (∀ (p0 p : LinOpt h ℝ), LinHistory h dim solve (some { q with times := x }) p0 → p0.solveLinear solve = .ok p → p.getTrajectory = .ok tr) ∧
    (2 ≤ x.length → ∀ (i : ℕ) (ts : List ℝ) (p0 p : LinOpt h ℝ) (tri : Trajectory ℝ), i < x.length → Perturbed x i ts →
      LinHistory h dim solve (some { q with times := ts }) p0 → p0.solveLinear solve = .ok p → p.getTrajectory = .ok tri →
      g[i]? = some ((energy q.derivative.toNat tri.segments - cost) / (1 / 10))) := by
  have hl := linHistory hh
  obtain ⟨_, hxl, _, hsol, hgl, _⟩ := objectiveMellinger_spec o o' x true (cost, g) hl ho
  unfold objectiveFunctionTimeMellingerOuterLoop at ho
  rw [if_neg (by simp)] at ho
  split at ho
  · cases ho
  obtain ⟨p1, h1, ho⟩ := bind_eq_ok ho
  obtain ⟨p2, h2, ho⟩ := bind_eq_ok ho
  obtain ⟨a, h3, ho⟩ := bind_eq_ok ho
  obtain ⟨e1, e2⟩ := Prod.mk.inj (Except.ok.inj ho)
  have hh1 : LinHistory h dim solve (some { q with times := x }) p1 := .times x hl h1
  have hs2 : Solved h dim solve { q with times := x } p2 := ⟨p1, hh1, .inr h2⟩
  obtain ⟨m1, m2, m3, m4, m5⟩ := mellinger_spec (q := { q with times := x }) { o with poly := p2 } a.1 a.2.1 a.2.2 hs2 h3
  obtain ⟨v1, v2⟩ := mellinger_values (q := { q with times := x }) { o with poly := p2 } a.1 a.2.1 a.2.2 hs2 h3
  have ea : a.2 = (cost, g) := e2
  have eo : o'.poly = a.1.poly := by rw [← e1]
  -- the object holds the linear solution
  have hlin : ∃ r0, LinHistory h dim solve (some { q with times := x }) r0 ∧ r0.solveLinear solve = .ok o'.poly := by
    by_cases hx1 : x.length = 1
    · refine ⟨p1, hh1, ?_⟩
      rw [eo, (v1 hx1).2]
      exact h2
    · rw [eo]
      exact (v2 hx1).1
  obtain ⟨r0, hr0, hr⟩ := hlin
  have hcost : cost = energy q.derivative.toNat tr.segments := by
    have hc := (C77_history_independent _ hdim p1 r0 p2 o'.poly hh1 hr0 h2 hr).2.1
    rw [C26_cost_solved _ r0 o'.poly hr0 (.inr hr)] at hc
    have hm : p2.computeCost = .ok a.2.1 := m3
    rw [hm, ea] at hc
    rw [setSegments_segments _ _ htr]
    exact Except.ok.inj hc
  refine ⟨solved_times_sum hsol hdim tr htr, hcost, hgl.trans hxl.symm, fun p0 p hp0 hp => ?_, fun hx2 i ts p0 p tri hi hper hp0 hp htri => ?_⟩
  · rw [(C77_history_independent _ hdim p0 r0 p o'.poly hp0 hr0 hp hr).1]
    exact htr
  · obtain ⟨b1, b2, ci, w1, w2, w3, w4⟩ := (v2 (by simp only; omega)).2 i hi
    rw [perturbed_unique hper (mellingerTimes_perturbed x i)] at hp0
    have w1' : LinHistory h dim solve (some { q with times := mellingerTimes x i }) b1 := w1
    have hc := (C77_history_independent _ hdim b1 p0 b2 p w1' hp0 w2 hp).2.1
    rw [w3, C26_cost_solved _ p0 p hp0 (.inr hp)] at hc
    rw [ea] at w4
    rw [setSegments_segments _ _ htri, ← Except.ok.inj hc]
    exact w4

/-- C83: with one segment the gradient is zero. -/
theorem C83_single (q : Problem ℝ) (o o' : NonLin h) (x g : List ℝ) (cost : ℝ) (hh : NLHistory h dim rf solve (some q) o)
    (ho : o.objectiveFunctionTimeMellingerOuterLoop solve x true = .ok (o', cost, g)) (hx : x.length = 1) : g = [0] := by
  unfold objectiveFunctionTimeMellingerOuterLoop at ho
  rw [if_neg (by simp)] at ho
  split at ho
  · cases ho
  obtain ⟨p1, h1, ho⟩ := bind_eq_ok ho
  obtain ⟨p2, h2, ho⟩ := bind_eq_ok ho
  obtain ⟨a, h3, ho⟩ := bind_eq_ok ho
  obtain ⟨e1, e2⟩ := Prod.mk.inj (Except.ok.inj ho)
  have hh1 : LinHistory h dim solve (some { q with times := x }) p1 := .times x (linHistory hh) h1
  obtain ⟨v1, _⟩ := mellinger_values (q := { q with times := x }) { o with poly := p2 } a.1 a.2.1 a.2.2 ⟨p1, hh1, .inr h2⟩ h3
  rw [← (v1 hx).1, show a.2.2 = g from congrArg Prod.snd e2]

/-- C83: a perturbation that the lower bound does not cut off keeps the total time. -/
theorem C83_total_time (ts ts' : List ℝ) (i : ℕ) (hi : i < ts.length) (h2 : 2 ≤ ts.length) (hp : Perturbed ts i ts')
    (hcut : ∀ t ∈ ts, 1 / 10 + 1 / 10 / ((ts.length : ℝ) - 1) ≤ t) : ts'.sum = ts.sum := by
  have hn : (0 : ℝ) < (ts.length : ℝ) - 1 := by
    have : (2 : ℝ) ≤ ts.length := by exact_mod_cast h2
    linarith
  have hpos : (0 : ℝ) < 1 / 10 / ((ts.length : ℝ) - 1) := by positivity
  have e : ts' = List.ofFn fun j : Fin ts.length => ts[j] + (if (j : ℕ) = i then 1 / 10 + 1 / 10 / ((ts.length : ℝ) - 1) else 0) -
      1 / 10 / ((ts.length : ℝ) - 1) := by
    apply List.ext_getElem?
    intro j
    by_cases hj : j < ts.length
    · rw [List.getElem?_eq_getElem (hp.1 ▸ hj), List.getElem?_eq_getElem (by simpa using hj)]
      rw [hp.2 j ts[j] _ (List.getElem?_eq_getElem hj) (List.getElem?_eq_getElem (hp.1 ▸ hj))]
      have := hcut ts[j] (List.getElem_mem hj)
      simp only [List.getElem_ofFn, Fin.getElem_fin, Option.some.injEq]
      split
      · rw [max_eq_right (by linarith)]; ring
      · rw [max_eq_right (by linarith)]; ring
    · rw [List.getElem?_eq_none (by rw [hp.1]; omega), List.getElem?_eq_none (by simpa using hj)]
  rw [e, List.sum_ofFn]
  have hsum : ts.sum = ∑ j : Fin ts.length, ts[j] := by
    rw [← List.sum_ofFn]
    congr 1
    exact List.ofFn_getElem.symm
  rw [hsum, Finset.sum_sub_distrib, Finset.sum_add_distrib]
  have : ∑ j : Fin ts.length, (if (j : ℕ) = i then 1 / 10 + 1 / 10 / ((ts.length : ℝ) - 1) else 0) = 1 / 10 + 1 / 10 / ((ts.length : ℝ) - 1) := by
    rw [Finset.sum_eq_single ⟨i, hi⟩]
    · simp
    · intro b _ hb
      rw [if_neg (fun e => hb (Fin.ext e))]
    · simp
  rw [this, Finset.sum_const, Finset.card_univ, Fintype.card_fin, nsmul_eq_mul]
  field_simp
  ring

/-- C83: an algorithm of the wrong kind ends the program: without gradients for this method, with gradients for the others and for limits as
constraints. -/
theorem C83_wrong_kind (o : NonLin h) (x : List ℝ) (c : MagConstraint) :
    o.objectiveFunctionTimeMellingerOuterLoop solve x false = .error .check ∧ o.objectiveFunctionTime rf solve x true = .error .check ∧
    o.objectiveFunctionTimeAndConstraints rf x true = .error .check ∧ o.evaluateMaximumMagnitudeConstraint rf c x true = .error .check :=
  ⟨rfl, rfl, rfl, rfl⟩

/-- Hypotheses of `C83_gradient` met: two segments, in three dimensions. -/
example : ∃ (o o' : NonLin 5) (cost : ℝ) (g : List ℝ) (tr : Trajectory ℝ), NLHistory 5 3 rf exactSolver (some realProblem) o ∧
    o.objectiveFunctionTimeMellingerOuterLoop exactSolver [4, 5] true = .ok (o', cost, g) ∧ o'.getTrajectory = .ok tr := by
  obtain ⟨o, o1, hh, _, _, hs, _⟩ := nl_setup (rf := rf) (solve := exactSolver) (h := 5) (dim := 3) plannerParams realProblem (by omega)
    realProblem_wellFormed realProblem_acceptable (by simp [realProblem])
  obtain ⟨p, hp, _⟩ := bind_eq_ok hs
  obtain ⟨o', r, ho⟩ := objectiveMellinger_total o (linHistory hh) (by omega) (by simp [realProblem]) (solvable_of_solve (linHistory hh) hp) [4, 5] rfl
    (by
      intro t ht
      unfold Poly.dblEps
      rcases List.mem_pair.mp ht with rfl | rfl <;> norm_num)
  obtain ⟨_, _, _, hsol, _⟩ := objectiveMellinger_spec o o' [4, 5] true r (linHistory hh) ho
  obtain ⟨tr, htr⟩ := solved_trajectory hsol (by simp)
  exact ⟨o, o', r.1, r.2, tr, hh, ho, htr⟩

/-! ## C84 -/

theorem limitOf_eq (k : ℕ) (cs : List MagConstraint) : limitOf k cs = (lastLimit k cs).getD 0 := by
  unfold limitOf lastLimit
  induction cs using List.reverseRecOn with
  | nil => rfl
  | append_singleton cs c ih =>
    rw [List.foldl_append]
    simp only [List.foldl_cons, List.foldl_nil, List.filter_append, List.filter_singleton]
    by_cases hc : c.derivative = k
    · simp [hc]
    · simp [hc, ih]

/-- C84: scaling a solved object multiplies all segment times by one common factor, at least 1, and leaves the linear solution for the new
times. -/
theorem C84_common_factor (q : Problem ℝ) (o0 o o' : NonLin h) (hh : NLHistory h dim rf solve (some q) o0) (hs : o0.solveLinear solve = .ok o)
    (hdim : 0 < dim) (hq : q.times ≠ []) (ho : o.scaleSegmentTimesWithViolation rf solve = .ok o') :
    ∃ c, 1 ≤ c ∧ o'.poly.times = q.times.map (· * c) ∧
      ∃ p0, LinHistory h dim solve (some { q with times := q.times.map (· * c) }) p0 ∧ p0.solveLinear solve = .ok o'.poly := by
  obtain ⟨p, hp, ee⟩ := bind_eq_ok hs
  have hsol : Solved h dim solve q o.poly := ⟨_, linHistory hh, .inr (by rw [← Except.ok.inj ee]; exact hp)⟩
  obtain ⟨_, _, tr, r, p1, h1, h2, h3, h4⟩ := scaleTimes_spec o o' ⟨q.times, hsol.history⟩ ho
  obtain ⟨_, _, _, hc, hR⟩ := solved_usable hsol hdim hq tr h1
  obtain ⟨c, hc1, hst⟩ := C12_only_stretches rf _ _ tr hc (fun s hs => (hR s hs).1) r.1 r.2 h2
  have ht := solved_times_sum hsol hdim tr h1
  have e : r.2.segments.map (·.time) = q.times.map (· * c) := by
    rw [hst.1, ← ht, List.map_map]
    rfl
  rw [e] at h3
  refine ⟨c, hc1, ?_, p1, h3, h4⟩
  exact LinHistory_times (.solve h3 h4)

/-- C84: when the limits given last for velocity and acceleration are respected, scaling changes neither times nor trajectory. -/
theorem C84_unchanged (hrf : ∀ c, FindsRealRoots c (rf c)) (q : Problem ℝ) (o0 o o' : NonLin h) (hh : NLHistory h dim rf solve (some q) o0)
    (hs : o0.solveLinear solve = .ok o) (hdim : 0 < dim) (hh2 : 2 ≤ h) (hq : q.times ≠ []) (v a : ℝ) (hv : 0 < v) (ha : 0 < a)
    (hlv : lastLimit 1 o.constraints = some v) (hla : lastLimit 2 o.constraints = some a) (tr : Trajectory ℝ) (htr : o.getTrajectory = .ok tr)
    (hfeas : ∀ s ∈ tr.segments, ∀ τ ∈ Set.Icc 0 s.time, magnitude s (List.range dim) 1 τ ≤ v ∧ magnitude s (List.range dim) 2 τ ≤ a)
    (ho : o.scaleSegmentTimesWithViolation rf solve = .ok o') : o'.getTrajectory = .ok tr := by
  obtain ⟨p, hp, ee⟩ := bind_eq_ok hs
  have hp : o0.poly.solveLinear solve = .ok o.poly := by rw [← Except.ok.inj ee]; exact hp
  have hsol : Solved h dim solve q o.poly := ⟨_, linHistory hh, .inr hp⟩
  obtain ⟨_, _, tr2, r, p1, h1, h2, h3, h4⟩ := scaleTimes_spec o o' ⟨q.times, hsol.history⟩ ho
  obtain rfl : tr2 = tr := Except.ok.inj (h1.symm.trans htr)
  obtain ⟨hD, hN, hne, hc, hR⟩ := solved_usable hsol hdim hq tr2 h1
  rw [limitOf_eq, limitOf_eq, hlv, hla] at h2
  have hun := C12_no_change_when_feasible rf hrf v a hv ha tr2 hc hne (by omega) (by omega) (fun s hs => ⟨(hR s hs).1, (hR s hs).2.le⟩)
    (fun j s hj τ hτ => by rw [hD]; exact hfeas s (List.mem_of_getElem? hj) τ hτ)
  have er : r = (true, tr2) := Except.ok.inj (h2.symm.trans hun)
  have ht := solved_times_sum hsol hdim tr2 h1
  rw [er] at h3
  simp only at h3
  rw [ht] at h3
  have := (C77_history_independent q hdim o0.poly p1 o.poly o'.poly (linHistory hh) h3 hp h4).1
  exact this.symm.trans htr

/-- C84: both limits are needed: without a limit on velocity or on acceleration the factor is not a number. -/
theorem C84_needs_limits (q : Problem ℝ) (o0 o : NonLin h) (hh : NLHistory h dim rf solve (some q) o0) (hs : o0.solveLinear solve = .ok o)
    (hq : q.times ≠ []) (hl : lastLimit 1 o.constraints = none ∨ lastLimit 2 o.constraints = none) :
    o.scaleSegmentTimesWithViolation rf solve = .error .nonfinite := by
  obtain ⟨p, hp, ee⟩ := bind_eq_ok hs
  have hsol : Solved h dim solve q o.poly := ⟨_, linHistory hh, .inr (by rw [← Except.ok.inj ee]; exact hp)⟩
  obtain ⟨tr, htr⟩ := solved_trajectory hsol hq
  unfold scaleSegmentTimesWithViolation
  rw [htr]
  simp only [bind, Except.bind]
  rw [C12_zero_limit rf _ _ (by rw [limitOf_eq, limitOf_eq]; exact hl.imp (fun e => by rw [e]; rfl) (fun e => by rw [e]; rfl)) tr]

/-- The real problem with limits `v` and `a`. -/
theorem limited (v a : ℝ) (hv : 0 ≤ v) (ha : 0 ≤ a) : ∃ o0 o : NonLin 5, NLHistory 5 3 rf exactSolver (some realProblem) o0 ∧
    o0.solveLinear exactSolver = .ok o ∧ o.constraints = [⟨1, v⟩, ⟨2, a⟩] := by
  obtain ⟨o, o1, hh, hpar, hcs, hs, _⟩ := nl_setup (rf := rf) (solve := exactSolver) (h := 5) (dim := 3) plannerParams realProblem (by omega)
    realProblem_wellFormed realProblem_acceptable (by simp [realProblem])
  obtain ⟨o2, hh2, e2⟩ := nl_add hh (by rw [hpar]; rfl) 1 v hv
  obtain ⟨o3, hh3, e3⟩ := nl_add hh2 (by rw [e2]; simp only; rw [hpar]; rfl) 2 a ha
  obtain ⟨p, hp, e⟩ := bind_eq_ok hs
  refine ⟨o3, { o3 with poly := p }, hh3, ?_, ?_⟩
  · unfold NonLin.solveLinear
    rw [show o3.poly = o.poly from by rw [e3, e2], hp]
    rfl
  · simp only [e3, e2, hcs]
    rfl

/-- Hypotheses of `C84_common_factor` and `C84_unchanged` met. -/
example : ∃ (rf : Poly.RootFinder ℝ) (o0 o o' : NonLin 5) (v a : ℝ) (tr : Trajectory ℝ), (∀ c, FindsRealRoots c (rf c)) ∧ 0 < v ∧ 0 < a ∧
    NLHistory 5 3 rf exactSolver (some realProblem) o0 ∧ o0.solveLinear exactSolver = .ok o ∧
    lastLimit 1 o.constraints = some v ∧ lastLimit 2 o.constraints = some a ∧ o.getTrajectory = .ok tr ∧
    (∀ s ∈ tr.segments, ∀ τ ∈ Set.Icc 0 s.time, magnitude s (List.range 3) 1 τ ≤ v ∧ magnitude s (List.range 3) 2 τ ≤ a) ∧
    o.scaleSegmentTimesWithViolation rf exactSolver = .ok o' := by
  obtain ⟨rf, hrf⟩ := exists_complete_rootFinder
  obtain ⟨o0, o, hh, hs, _⟩ := limited (rf := rf) 1 1 (by norm_num) (by norm_num)
  obtain ⟨p, hp, ee⟩ := bind_eq_ok hs
  have hp : o0.poly.solveLinear exactSolver = .ok o.poly := by rw [← Except.ok.inj ee]; exact hp
  have hsol : Solved 5 3 exactSolver realProblem o.poly := ⟨_, linHistory hh, .inr hp⟩
  have hq : realProblem.times ≠ [] := by simp [realProblem]
  obtain ⟨tr, htr⟩ := solved_trajectory hsol hq
  have k1 := peak_isPeak hrf hsol (by omega) hq tr htr 1 (by omega)
  have k2 := peak_isPeak hrf hsol (by omega) hq tr htr 2 (by omega)
  let v : ℝ := max 1 (peak rf o.poly 1).value
  let a : ℝ := max 1 (peak rf o.poly 2).value
  have hv : 0 < v := lt_of_lt_of_le one_pos (le_max_left _ _)
  have ha : 0 < a := lt_of_lt_of_le one_pos (le_max_left _ _)
  obtain ⟨u0, u, hu, hus, huc⟩ := limited (rf := rf) v a hv.le ha.le
  obtain ⟨p2, hp2, ee2⟩ := bind_eq_ok hus
  have hp2 : u0.poly.solveLinear exactSolver = .ok u.poly := by rw [← Except.ok.inj ee2]; exact hp2
  have hutr : u.poly.getTrajectory = .ok tr :=
    (C77_history_independent realProblem (by omega) u0.poly o0.poly u.poly o.poly (linHistory hu) (linHistory hh) hp2 hp).1.trans htr
  have husol : Solved 5 3 exactSolver realProblem u.poly := ⟨_, linHistory hu, .inr hp2⟩
  obtain ⟨hD, hN, hne, hc, hR⟩ := solved_usable husol (by omega) hq tr hutr
  have hfeas : ∀ s ∈ tr.segments, ∀ τ ∈ Set.Icc 0 s.time, magnitude s (List.range 3) 1 τ ≤ v ∧ magnitude s (List.range 3) 2 τ ≤ a :=
    fun s hs τ hτ => ⟨(k1.2 s hs τ hτ).trans (le_max_right _ _), (k2.2 s hs τ hτ).trans (le_max_right _ _)⟩
  have hun := C12_no_change_when_feasible rf hrf v a hv ha tr hc hne (by omega) (by omega) (fun s hs => ⟨(hR s hs).1, (hR s hs).2.le⟩)
    (fun j s hj τ hτ => by rw [hD]; exact hfeas s (List.mem_of_getElem? hj) τ hτ)
  have hl1 : lastLimit 1 u.constraints = some v := by rw [huc]; simp [lastLimit]
  have hl2 : lastLimit 2 u.constraints = some a := by rw [huc]; simp [lastLimit]
  have ht := solved_times_sum husol (by omega) tr hutr
  obtain ⟨p3, p4, w1, w2, _⟩ := resolve_total husol.history (by omega) hq (solvable_of_solved (linHistory hu) (.inr hp2)) realProblem.times rfl
    (hN_of_history (linHistory hu) hq).2
  refine ⟨rf, u0, u, { u with poly := p4 }, v, a, tr, hrf, hv, ha, hu, hus, hl1, hl2, hutr, hfeas, ?_⟩
  unfold scaleSegmentTimesWithViolation
  rw [hutr]
  simp only [bind, Except.bind]
  rw [limitOf_eq, limitOf_eq, hl1, hl2]
  simp only [Option.getD_some]
  rw [hun]
  simp only
  rw [ht, w1]
  simp only
  rw [w2]
  rfl

/-- Hypotheses of `C84_needs_limits` met: the object as it is after the set-up. -/
example : ∃ o0 o : NonLin 5, NLHistory 5 3 rf exactSolver (some realProblem) o0 ∧ o0.solveLinear exactSolver = .ok o ∧
    lastLimit 1 o.constraints = none := by
  obtain ⟨o, o1, hh, _, hcs, hs, _⟩ := nl_setup (rf := rf) (solve := exactSolver) (h := 5) (dim := 3) plannerParams realProblem (by omega)
    realProblem_wellFormed realProblem_acceptable (by simp [realProblem])
  obtain ⟨p, _, e⟩ := bind_eq_ok hs
  refine ⟨o, o1, hh, hs, ?_⟩
  rw [← Except.ok.inj e]
  simp only [hcs]
  rfl

end Verif.Properties
