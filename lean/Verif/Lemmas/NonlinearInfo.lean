import Verif.Lemmas.NonlinearRun

/-!
# Costs and information of the nonlinear optimisation describe the trajectory held
-/

set_option linter.unusedSectionVars false

namespace Verif

open Spec Lemmas Properties

namespace NonLin
open LinOpt
variable {h dim : ℕ} {rf : Poly.RootFinder ℝ} {solve : LinSolver ℝ}

/-- The maximum reported is the largest magnitude, at the place reported. -/
theorem peak_spec {q : Problem ℝ} {p : LinOpt h ℝ} (hrf : ∀ c, FindsRealRoots c (rf c)) (hs : Solved h dim solve q p) (hdim : 0 < dim)
    (hq : q.times ≠ []) (tr : Trajectory ℝ) (htr : p.getTrajectory = .ok tr) (k : ℕ) (hk : k + 1 < h + h) :
    (∃ s, tr.segments[(peak rf p k).segmentIdx]? = some s ∧ (peak rf p k).time ∈ Set.Icc 0 s.time ∧
      (peak rf p k).value = magnitude s (List.range dim) k (peak rf p k).time) ∧
    (∀ s ∈ tr.segments, ∀ τ ∈ Set.Icc 0 s.time, magnitude s (List.range dim) k τ ≤ (peak rf p k).value) ∧
    ∃ l, p.computeMaximumOfMagnitude rf k = .ok (peak rf p k, l) := by
  obtain ⟨p0, hh, hu⟩ := hs
  obtain ⟨e, cs, h1, h2, h3, _⟩ := C75_maximum rf hrf q p0 p hh hdim hq hu tr htr k hk
  have : peak rf p k = e := by unfold peak; rw [h1]
  rw [this]
  exact ⟨h2, h3, cs, h1⟩

theorem peak_isPeak {q : Problem ℝ} {p : LinOpt h ℝ} (hrf : ∀ c, FindsRealRoots c (rf c)) (hs : Solved h dim solve q p) (hdim : 0 < dim)
    (hq : q.times ≠ []) (tr : Trajectory ℝ) (htr : p.getTrajectory = .ok tr) (k : ℕ) (hk : k + 1 < h + h) :
    IsPeak dim k tr.segments (peak rf p k).value := by
  obtain ⟨⟨s, h1, h2, h3⟩, h4, _⟩ := peak_spec hrf hs hdim hq tr htr k hk
  exact ⟨⟨s, List.mem_of_getElem? h1, _, h2, h3⟩, h4⟩

theorem softSum_eq (M : ℕ → Extremum ℝ) (weight cap : ℝ) (cs : List MagConstraint) (hpos : ∀ c ∈ cs, 0 < c.value) :
    softSum M weight cap cs = softCosts weight cap (fun k => (M k).value) cs := by
  unfold softSum softCosts
  congr 1
  refine List.map_congr_left fun c hc => ?_
  have h0 := (hpos c hc).ne'
  unfold softTerm softCost
  rw [if_neg h0]
  congr 2
  field_simp

theorem solved_times_sum {q : Problem ℝ} {p : LinOpt h ℝ} (hs : Solved h dim solve q p) (hdim : 0 < dim) (tr : Trajectory ℝ)
    (htr : p.getTrajectory = .ok tr) : tr.segments.map (·.time) = q.times := by
  obtain ⟨p0, hh, hu⟩ := hs
  have hi := (inv_history dim solve _ p0 hh).2 q rfl
  obtain ⟨free, hi1, _, hl, hlen, hsg⟩ := solved_spec dim q solve p0 p hi hu
  have es := setSegments_segments _ _ htr
  rw [es]
  apply List.ext_getElem?
  intro i
  rw [List.getElem?_map]
  cases hc : p.segments[i]? with
  | some s => exact ((hsg i s hc).2.1 hdim).symm
  | none =>
    rw [List.getElem?_eq_none_iff, hl] at hc
    rw [List.getElem?_eq_none hc]; rfl

theorem timeTerm_linear (m : AllocMethod) (penalty : ℝ) (segs : List (Segment ℝ)) (linear : Bool)
    (hl : linear = decide (m = .richterTime ∨ m = .richterTimeAndConstraints)) :
    timeTerm m penalty segs = timeCost linear penalty (segs.map (·.time)) := by
  rw [hl]
  cases m <;> simp [timeTerm, timeCost, pow_two]

theorem linear_time {m : AllocMethod} (hm : TimeMethod m) :
    decide (m = .richterTime) = decide (m = .richterTime ∨ m = .richterTimeAndConstraints) := by
  rcases hm with hm | hm <;> rw [hm] <;> rfl

theorem linear_full {m : AllocMethod} (hm : FullMethod m) :
    decide (m = .richterTimeAndConstraints) = decide (m = .richterTime ∨ m = .richterTimeAndConstraints) := by
  rcases hm with hm | hm <;> rw [hm] <;> rfl

/-- After an evaluation of the objective the information describes the trajectory, and its cost is the sum of the parts. -/
theorem costOf_info {q : Problem ℝ} (hrf : ∀ c, FindsRealRoots c (rf c)) (linear : Bool) (o o' : NonLin h) (v : ℝ)
    (hs : Solved h dim solve q o.poly) (hdim : 0 < dim) (hq : q.times ≠ [])
    (hl : linear = decide (o.params.method = .richterTime ∨ o.params.method = .richterTimeAndConstraints))
    (hc : Searchable o) (hpos : ∀ c ∈ o.constraints, 0 < c.value) (ho : costOf rf linear q.times o = .ok (o', v)) (tr : Trajectory ℝ)
    (htr : o'.getTrajectory = .ok tr) :
    InfoMatches dim q o' tr.segments ∧ v = o'.info.costTrajectory + o'.info.costTime + o'.info.costSoft ∧
      o'.info.nIterations = o.info.nIterations + 1 := by
  obtain ⟨c, h1, _, h3, h4⟩ := costOf_ok linear q.times o o' v ho
  have hp : o'.poly = o.poly := (costOf_keeps _ _ _ _ _ ho).2
  unfold getTrajectory at htr
  rw [hp] at htr
  have htimes := solved_times_sum hs hdim tr htr
  have es := setSegments_segments _ _ htr
  have hen : c = energy q.derivative.toNat tr.segments := by
    obtain ⟨p0, hh, hu⟩ := hs
    rw [C26_cost_solved q p0 o.poly hh hu] at h1
    rw [es]
    exact (Except.ok.inj h1).symm
  refine ⟨⟨?_, ?_, ?_, ?_, ?_⟩, ?_, ?_⟩
  · rw [h3]; exact hen
  · rw [h3]
    simp only
    rw [timeTerm_linear _ _ _ linear hl, htimes]
  · intro hu
    rw [h3] at hu ⊢
    simp only at hu ⊢
    rw [hu]; rfl
  · intro hu
    rw [h3] at hu ⊢
    simp only at hu ⊢
    rw [if_pos hu]
    exact ⟨fun k => (peak rf o.poly k).value, fun c hm => peak_isPeak hrf hs hdim hq tr htr _ (hc c hm), softSum_eq _ _ _ _ hpos⟩
  · intro hu x hx
    rw [h3] at hu hx ⊢
    simp only at hu hx ⊢
    obtain ⟨g1, g2, _⟩ := peak_spec hrf hs hdim hq tr htr x.derivative (hc x hx)
    exact ⟨_, if_pos ⟨hu, List.mem_map_of_mem hx⟩, g1, g2⟩
  · rw [h4, h3]
  · rw [h3]

/-- Answering a constraint keeps the information right. -/
theorem evaluateMax_info {q : Problem ℝ} (hrf : ∀ c, FindsRealRoots c (rf c)) (o o' : NonLin h) (c : MagConstraint) (x : List ℝ) (g : Bool) (v : ℝ)
    (hs : Solved h dim solve q o.poly) (hdim : 0 < dim) (hq : q.times ≠ []) (hc : Searchable o)
    (ho : evaluateMaximumMagnitudeConstraint rf o c x g = .ok (o', v)) (tr : Trajectory ℝ) (htr : o.getTrajectory = .ok tr)
    (hI : InfoMatches dim q o tr.segments) : InfoMatches dim q o' tr.segments := by
  obtain ⟨_, _, h2, _⟩ := evaluateMax_ok o o' c x g v ho
  rw [h2]
  refine ⟨hI.trajectory, hI.time, hI.hard, hI.soft, fun hu y hy => ?_⟩
  simp only
  by_cases hk : y.derivative = c.derivative
  · obtain ⟨g1, g2, _⟩ := peak_spec hrf hs hdim hq tr htr y.derivative (hc y hy)
    rw [← hk, Function.update_self]
    exact ⟨_, rfl, g1, g2⟩
  · rw [Function.update_of_ne hk]
    exact hI.maxima hu y hy

/-- The trajectory held is a solution, and the information describes it. -/
def Described (dim : ℕ) (solve : LinSolver ℝ) (q : Problem ℝ) (o : NonLin h) : Prop :=
  ∃ ts, ts ≠ [] ∧ Solved h dim solve { q with times := ts } o.poly ∧ ∀ tr, o.getTrajectory = .ok tr → InfoMatches dim q o tr.segments

theorem InfoMatches.of_times {q : Problem ℝ} {ts : List ℝ} {o : NonLin h} {segs : List (Segment ℝ)}
    (hI : InfoMatches dim { q with times := ts } o segs) : InfoMatches dim q o segs := ⟨hI.trajectory, hI.time, hI.hard, hI.soft, hI.maxima⟩

theorem InfoMatches.to_times {q : Problem ℝ} (ts : List ℝ) {o : NonLin h} {segs : List (Segment ℝ)}
    (hI : InfoMatches dim q o segs) : InfoMatches dim { q with times := ts } o segs := ⟨hI.trajectory, hI.time, hI.hard, hI.soft, hI.maxima⟩

/-- What the answers of a gradient-free run do to the information, and which point they leave. -/
theorem answers_info {q : Problem ℝ} (hrf : ∀ c, FindsRealRoots c (rf c)) (hdim : 0 < dim) (base : NonLin h) (hc : Searchable base)
    (f : NonLin h → List ℝ → Bool → Res (NonLin h × ℝ)) (P : List ℝ → LinOpt h ℝ → Prop)
    (hf : ∀ (o o' : NonLin h) x g a, Keeps base o → (∃ ts, ts.length = q.times.length ∧ LinHistory h dim solve (some { q with times := ts }) o.poly) →
      f o x g = .ok (o', a) → Keeps o o' ∧ (∃ ts, ts.length = q.times.length ∧ LinHistory h dim solve (some { q with times := ts }) o'.poly) ∧
      o'.info.nIterations = o.info.nIterations + 1 ∧ Described dim solve q o' ∧ P x o'.poly)
    (rs : List Request) (o o' : NonLin h) (hk : Keeps base o)
    (hh : ∃ ts, ts.length = q.times.length ∧ LinHistory h dim solve (some { q with times := ts }) o.poly)
    (hr : rs.foldlM (answer rf f) o = .ok o') :
    Keeps base o' ∧ o'.info.nIterations = o.info.nIterations + (evaluated rs).length ∧
    (Described dim solve q o ∨ evaluated rs ≠ [] → Described dim solve q o') ∧
    (∀ x, (evaluated rs).getLast? = some x → P x o'.poly) ∧ (evaluated rs = [] → o'.poly = o.poly) := by
  induction rs generalizing o with
  | nil =>
    rw [← Except.ok.inj hr]
    exact ⟨hk, by simp [evaluated], fun h => h.elim id (by simp [evaluated]), by simp [evaluated], fun _ => rfl⟩
  | cons r rs ih =>
    rw [List.foldlM_cons] at hr
    obtain ⟨o1, ha, hr1⟩ := bind_eq_ok hr
    cases r with
    | objective x g =>
      unfold answer at ha
      simp only at ha
      obtain ⟨a, hfo, e1⟩ := bind_eq_ok ha
      have e1 : a.1 = o1 := Except.ok.inj e1
      obtain ⟨k1, k2, k3, k4, k5⟩ := hf o a.1 x g a.2 hk hh hfo
      rw [e1] at k1 k2 k3 k4 k5
      obtain ⟨i1, i2, i3, i4, i5⟩ := ih o1 (hk.trans k1) k2 hr1
      have he : evaluated (.objective x g :: rs) = x :: evaluated rs := rfl
      rw [he]
      refine ⟨i1, by rw [i2, k3, List.length_cons]; omega, fun _ => i3 (.inl k4), fun y hy => ?_, fun h => (by cases h)⟩
      cases hl : (evaluated rs).getLast? with
      | none =>
        have hnil := List.getLast?_eq_none_iff.mp hl
        rw [hnil, List.getLast?_singleton] at hy
        rw [i5 hnil, ← Option.some.inj hy]
        exact k5
      | some z =>
        rw [List.getLast?_cons, hl] at hy
        rw [← Option.some.inj hy]
        exact i4 z hl
    | constraint c x g =>
      unfold answer at ha
      simp only at ha
      obtain ⟨a, he, e1⟩ := bind_eq_ok ha
      have e1 : a.1 = o1 := Except.ok.inj e1
      obtain ⟨_, _, e2, _⟩ := evaluateMax_ok o a.1 c x g a.2 he
      have he : evaluateMaximumMagnitudeConstraint rf o c x g = .ok (o1, a.2) := by rw [he, ← e1]
      rw [e1] at e2
      have hp : o1.poly = o.poly := by rw [e2]
      have hk1 : Keeps o o1 := by rw [e2]; exact ⟨rfl, rfl, rfl⟩
      have hit : o1.info.nIterations = o.info.nIterations := by rw [e2]
      obtain ⟨i1, i2, i3, i4, i5⟩ := ih o1 (hk.trans hk1) (by rw [hp]; exact hh) hr1
      have hev : evaluated (.constraint c x g :: rs) = evaluated rs := rfl
      rw [hev]
      refine ⟨i1, by rw [i2, hit], fun hd => i3 (hd.imp (fun ⟨ts, d1, d2, d3⟩ => ?_) id), i4, fun h => (i5 h).trans hp⟩
      refine ⟨ts, d1, by rw [hp]; exact d2, fun tr htr => ?_⟩
      unfold getTrajectory at htr
      rw [hp] at htr
      exact InfoMatches.of_times (evaluateMax_info hrf o o1 c x g a.2 d2 hdim d1 (by unfold Searchable; rw [hk.2.1]; exact hc) he tr htr
        (InfoMatches.to_times ts (d3 tr htr)))

theorem objectiveTime_info {q : Problem ℝ} (hrf : ∀ c, FindsRealRoots c (rf c)) (o o' : NonLin h) (x : List ℝ) (g : Bool) (v : ℝ)
    (hh : LinHistory h dim solve (some q) o.poly) (hdim : 0 < dim) (hq : q.times ≠ []) (hm : TimeMethod o.params.method) (hc : Searchable o)
    (hpos : ∀ c ∈ o.constraints, 0 < c.value) (ho : objectiveFunctionTime rf solve o x g = .ok (o', v)) :
    x.length = q.times.length ∧ Solved h dim solve { q with times := x } o'.poly ∧ o'.info.nIterations = o.info.nIterations + 1 ∧
    ∀ tr, o'.getTrajectory = .ok tr → InfoMatches dim q o' tr.segments ∧ v = o'.info.costTrajectory + o'.info.costTime + o'.info.costSoft := by
  obtain ⟨_, hxl, p1, p2, h1, h2, hco⟩ := objectiveTime_ok o o' x g v ho
  have hi := (inv_history dim solve _ _ hh).2 q rfl
  rw [hi.nSegments] at hxl
  have hne : x ≠ [] := by
    intro e; rw [e] at hxl; exact hq (List.length_eq_zero_iff.mp hxl.symm)
  have hh1 : LinHistory h dim solve (some { q with times := x }) p1 := .times x hh h1
  have hs : Solved h dim solve { q with times := x } ({ o with poly := p2 } : NonLin h).poly := ⟨p1, hh1, .inr h2⟩
  obtain ⟨_, hp⟩ := costOf_keeps _ _ _ _ _ hco
  have hs' : Solved h dim solve { q with times := x } o'.poly := by rw [hp]; exact hs
  have key := fun tr htr => costOf_info (q := { q with times := x }) hrf _ { o with poly := p2 } o' v hs hdim hne (linear_time hm) hc hpos hco tr htr
  obtain ⟨tr, htr⟩ := solved_trajectory hs' hne
  exact ⟨hxl, hs', (key tr htr).2.2, fun tr htr => ⟨InfoMatches.of_times (key tr htr).1, (key tr htr).2.1⟩⟩

theorem objectiveFull_info {q : Problem ℝ} (hrf : ∀ c, FindsRealRoots c (rf c)) (o o' : NonLin h) (x : List ℝ) (g : Bool) (v : ℝ)
    (hh : LinHistory h dim solve (some q) o.poly) (hdim : 0 < dim) (hq : q.times ≠ []) (hm : FullMethod o.params.method) (hc : Searchable o)
    (hpos : ∀ c ∈ o.constraints, 0 < c.value) (ho : objectiveFunctionTimeAndConstraints rf o x g = .ok (o', v)) :
    (x.take q.times.length).length = q.times.length ∧ Solved h dim solve { q with times := x.take q.times.length } o'.poly ∧
    o'.info.nIterations = o.info.nIterations + 1 ∧
    ∀ tr, o'.getTrajectory = .ok tr → InfoMatches dim q o' tr.segments ∧ v = o'.info.costTrajectory + o'.info.costTime + o'.info.costSoft := by
  obtain ⟨_, hxl, p1, p2, h1, h2, hco⟩ := objectiveFull_ok o o' x g v ho
  have hi := (inv_history dim solve _ _ hh).2 q rfl
  rw [hi.nSegments] at hxl h1 hco
  have hxl' : (x.take q.times.length).length = q.times.length := by rw [List.length_take]; omega
  have hne : x.take q.times.length ≠ [] := by
    intro e; rw [e] at hxl'; exact hq (List.length_eq_zero_iff.mp hxl'.symm)
  have hh1 : LinHistory h dim solve (some { q with times := x.take q.times.length }) p1 := .times _ hh h1
  have hs : Solved h dim solve { q with times := x.take q.times.length } ({ o with poly := p2 } : NonLin h).poly := ⟨p1, hh1, .inl ⟨_, h2⟩⟩
  obtain ⟨_, hp⟩ := costOf_keeps _ _ _ _ _ hco
  have hs' : Solved h dim solve { q with times := x.take q.times.length } o'.poly := by rw [hp]; exact hs
  have key := fun tr htr => costOf_info (q := { q with times := x.take q.times.length }) hrf _ { o with poly := p2 } o' v hs hdim hne (linear_full hm)
    hc hpos hco tr htr
  obtain ⟨tr, htr⟩ := solved_trajectory hs' hne
  exact ⟨hxl', hs', (key tr htr).2.2, fun tr htr => ⟨InfoMatches.of_times (key tr htr).1, (key tr htr).2.1⟩⟩

theorem runNlopt_ok {α : Type} (f : NonLin h → List ℝ → Bool → Res (NonLin h × α)) (run : NloptRun) (o o' : NonLin h) (res : Option Int)
    (hsf : run.setupFails = false) (hr : runNlopt rf f run o = .ok (o', res)) :
    run.requests.foldlM (answer rf f) o = .ok o' ∧ res = run.result := by
  unfold runNlopt at hr
  cases hnl : o.nlopt with
  | none => rw [hnl] at hr; cases hr
  | some nl =>
    rw [hnl, hsf] at hr
    simp only [Bool.false_eq_true, if_false] at hr
    obtain ⟨o1, h1, h2⟩ := bind_eq_ok hr
    obtain ⟨e1, e2⟩ := Prod.mk.inj (Except.ok.inj h2)
    rw [h1, e1]
    exact ⟨rfl, e2.symm⟩

theorem optimize_time_ok (run : NloptRun) (o o' : NonLin h) (code : Int) (hm : TimeMethod o.params.method)
    (ho : o.optimize rf solve run = .ok (o', code)) :
    ∃ o1 res, runNlopt rf (objectiveFunctionTime rf solve) run { o with info := OptInfo.new } = .ok (o1, res) ∧ code = res.getD nloptFailure ∧
      o' = { o1 with info := { o1.info with stoppingReason := code } } := by
  unfold optimize at ho
  obtain ⟨r, h1, h2⟩ := bind_eq_ok ho
  obtain ⟨e1, e2⟩ := Prod.mk.inj (Except.ok.inj h2)
  have h3 : optimizeTime rf solve run { o with info := OptInfo.new } = .ok r := by
    unfold optimizeBy at h1
    rcases hm with hm | hm <;> rw [hm] at h1 <;> exact h1
  unfold optimizeTime at h3
  obtain ⟨a, h4, h5⟩ := bind_eq_ok h3
  have e5 := Except.ok.inj h5
  rw [← e5] at e1 e2
  refine ⟨a.1, a.2, h4, e2.symm, ?_⟩
  rw [← e1, ← e2]

theorem optimize_full_ok (run : NloptRun) (o o' : NonLin h) (code : Int) (hm : FullMethod o.params.method)
    (ho : o.optimize rf solve run = .ok (o', code)) :
    ∃ p o1 res, o.poly.solveLinear solve = .ok p ∧
      runNlopt rf (objectiveFunctionTimeAndConstraints rf) run { o with poly := p, info := OptInfo.new } = .ok (o1, res) ∧
      code = res.getD nloptFailure ∧ o' = { o1 with info := { o1.info with stoppingReason := code } } := by
  unfold optimize at ho
  obtain ⟨r, h1, h2⟩ := bind_eq_ok ho
  obtain ⟨e1, e2⟩ := Prod.mk.inj (Except.ok.inj h2)
  have h3 : optimizeTimeAndFreeConstraints rf solve run { o with info := OptInfo.new } = .ok r := by
    unfold optimizeBy at h1
    rcases hm with hm | hm <;> rw [hm] at h1 <;> exact h1
  unfold optimizeTimeAndFreeConstraints at h3
  obtain ⟨p, h4, h5⟩ := bind_eq_ok h3
  simp only at h4 h5
  obtain ⟨_, _, h5⟩ := bind_eq_ok h5
  obtain ⟨a, h6, h7⟩ := bind_eq_ok h5
  have e5 := Except.ok.inj h7
  rw [← e5] at e1 e2
  refine ⟨p, a.1, a.2, h4, h6, e2.symm, ?_⟩
  rw [← e1, ← e2]

/-- Evaluating the full objective at a point gives the same trajectory from all objects that hold the same vertices. -/
theorem objectiveFull_unique {q : Problem ℝ} {ts ts2 x : List ℝ} {g g2 : Bool} {v v2 : ℝ} (hdim : 0 < dim) (a a' b b' : NonLin h)
    (hl : ts.length = ts2.length) (ha : LinHistory h dim solve (some { q with times := ts }) a.poly)
    (hb : LinHistory h dim solve (some { q with times := ts2 }) b.poly) (ea : objectiveFunctionTimeAndConstraints rf a x g = .ok (a', v))
    (eb : objectiveFunctionTimeAndConstraints rf b x g2 = .ok (b', v2)) : a'.poly.segments = b'.poly.segments := by
  obtain ⟨_, _, p1, p2, h1, h2, hco⟩ := objectiveFull_ok a a' x g v ea
  obtain ⟨_, _, r1, r2, k1, k2, hco2⟩ := objectiveFull_ok b b' x g2 v2 eb
  have hia := (inv_history dim solve _ _ ha).2 _ rfl
  have hib := (inv_history dim solve _ _ hb).2 _ rfl
  have hp : a'.poly = p2 := (costOf_keeps _ _ _ _ _ hco).2
  have hr : b'.poly = r2 := (costOf_keeps _ _ _ _ _ hco2).2
  rw [hia.nSegments, hia.dimension, nFree_of_inv hia hib rfl hl] at h2
  rw [hib.nSegments, hib.dimension] at k2
  rw [hia.nSegments] at h1
  rw [hib.nSegments] at k1
  simp only [← hl] at k1 k2
  have hh1 : LinHistory h dim solve (some { q with times := x.take ts.length }) p1 := .times (q := { q with times := ts }) _ ha h1
  have hk1 : LinHistory h dim solve (some { q with times := x.take ts.length }) r1 := .times (q := { q with times := ts2 }) _ hb k1
  have hi1 := (inv_history dim solve _ _ hh1).2 _ rfl
  have hi2 := (inv_history dim solve _ _ hk1).2 _ rfl
  rw [hp, hr]
  exact segments_unique (solve := solve) (solve2 := solve) hi1 hi2 hdim (.inl ⟨_, h2⟩) (.inl ⟨_, k2⟩)
    ((setFree_free hi1 _ h2).trans (setFree_free hi2 _ k2).symm)

theorem objectiveTime_unique {q : Problem ℝ} {ts ts2 x : List ℝ} {g g2 : Bool} {v v2 : ℝ} (hdim : 0 < dim) (a a' b b' : NonLin h)
    (ha : LinHistory h dim solve (some { q with times := ts }) a.poly)
    (hb : LinHistory h dim solve (some { q with times := ts2 }) b.poly) (ea : objectiveFunctionTime rf solve a x g = .ok (a', v))
    (eb : objectiveFunctionTime rf solve b x g2 = .ok (b', v2)) : a'.poly.segments = b'.poly.segments := by
  obtain ⟨_, _, p1, p2, h1, h2, hco⟩ := objectiveTime_ok a a' x g v ea
  obtain ⟨_, _, r1, r2, k1, k2, hco2⟩ := objectiveTime_ok b b' x g2 v2 eb
  have hp : a'.poly = p2 := (costOf_keeps _ _ _ _ _ hco).2
  have hr : b'.poly = r2 := (costOf_keeps _ _ _ _ _ hco2).2
  have hh1 : LinHistory h dim solve (some { q with times := x }) p1 := .times (q := { q with times := ts }) _ ha h1
  have hk1 : LinHistory h dim solve (some { q with times := x }) r1 := .times (q := { q with times := ts2 }) _ hb k1
  have hi1 := (inv_history dim solve _ _ hh1).2 _ rfl
  have hi2 := (inv_history dim solve _ _ hk1).2 _ rfl
  rw [hp, hr]
  exact segments_unique hi1 hi2 hdim (.inr h2) (.inr k2) (solve_free_unique hi1 hi2 (freeCompact_length hh1) (freeCompact_length hk1) h2 k2)

/-- The information after a gradient-free optimisation, and the point whose trajectory is held. -/
theorem optimize_info {q : Problem ℝ} (hrf : ∀ c, FindsRealRoots c (rf c)) (run : NloptRun) (o o' : NonLin h) (code : Int)
    (hh : LinHistory h dim solve (some q) o.poly) (hdim : 0 < dim) (hq : q.times ≠ [])
    (hm : FullMethod o.params.method ∨ TimeMethod o.params.method) (hc : Searchable o) (hpos : ∀ c ∈ o.constraints, 0 < c.value)
    (hsf : run.setupFails = false) (ho : o.optimize rf solve run = .ok (o', code)) :
    code = run.result.getD nloptFailure ∧ o'.info.stoppingReason = code ∧ o'.info.nIterations = (evaluated run.requests).length ∧
    (evaluated run.requests ≠ [] → Described dim solve q o') ∧
    (∀ x, (evaluated run.requests).getLast? = some x → Solved h dim solve { q with times := x.take q.times.length } o'.poly ∧
      ∀ oe v, objectiveAt rf solve o x = .ok (oe, v) → oe.poly.segments = o'.poly.segments) := by
  have hdesc : ∀ (o1 : NonLin h) (c : Int), Described dim solve q o1 → Described dim solve q { o1 with info := { o1.info with stoppingReason := c } } := by
    rintro o1 c ⟨ts, d1, d2, d3⟩
    exact ⟨ts, d1, d2, fun tr htr => ⟨(d3 tr htr).trajectory, (d3 tr htr).time, (d3 tr htr).hard, (d3 tr htr).soft, (d3 tr htr).maxima⟩⟩
  have hnil : ∀ ts : List ℝ, ts.length = q.times.length → ts ≠ [] := by
    intro ts hl e; rw [e] at hl; exact hq (List.length_eq_zero_iff.mp hl.symm)
  rcases hm with hm | hm
  · obtain ⟨p, o1, res, h1, h2, h3, h4⟩ := optimize_full_ok run o o' code hm ho
    obtain ⟨h5, h6⟩ := runNlopt_ok _ run _ o1 res hsf h2
    have hsol : LinHistory h dim solve (some { q with times := q.times }) p := .solve hh h1
    obtain ⟨_, i2, i3, i4, _⟩ := answers_info (q := q) hrf hdim { o with poly := p, info := OptInfo.new } hc _
      (fun x p => Solved h dim solve { q with times := x.take q.times.length } p ∧
        ∀ oe v, objectiveAt rf solve o x = .ok (oe, v) → oe.poly.segments = p.segments)
      (fun a a' x g v hk ⟨ts, t1, t2⟩ hf => by
        obtain ⟨k1, _⟩ := objectiveFull_spec a a' x g v t2 hf
        obtain ⟨j1, j2, j3, j4⟩ := objectiveFull_info hrf a a' x g v t2 hdim (hnil ts t1) (by rw [hk.1]; exact hm)
          (by unfold Searchable; rw [hk.2.1]; exact hc) (by rw [hk.2.1]; exact hpos) hf
        simp only [t1] at j1 j2
        refine ⟨k1, ⟨_, j1, j2.history⟩, j3, ⟨_, hnil _ j1, j2, fun tr htr => InfoMatches.of_times (j4 tr htr).1⟩, j2, fun oe v' he => ?_⟩
        unfold objectiveAt at he
        rw [if_pos hm] at he
        exact objectiveFull_unique hdim o oe a a' t1.symm (ts := q.times) hh t2 he hf)
      run.requests _ o1 (.refl _) ⟨q.times, rfl, hsol⟩ h5
    rw [h6] at h3
    rw [h4]
    refine ⟨h3, rfl, by simp only; rw [i2]; simp [OptInfo.new], fun h => hdesc o1 code (i3 (.inr h)), i4⟩
  · obtain ⟨o1, res, h2, h3, h4⟩ := optimize_time_ok run o o' code hm ho
    obtain ⟨h5, h6⟩ := runNlopt_ok _ run _ o1 res hsf h2
    obtain ⟨_, i2, i3, i4, _⟩ := answers_info (q := q) (solve := solve) hrf hdim { o with info := OptInfo.new } hc _
      (fun x p => Solved h dim solve { q with times := x.take q.times.length } p ∧
        ∀ oe v, objectiveAt rf solve o x = .ok (oe, v) → oe.poly.segments = p.segments)
      (fun a a' x g v hk ⟨ts, t1, t2⟩ hf => by
        obtain ⟨k1, _⟩ := objectiveTime_spec a a' x g v t2 hf
        obtain ⟨j1, j2, j3, j4⟩ := objectiveTime_info hrf a a' x g v t2 hdim (hnil ts t1) (by rw [hk.1]; exact hm)
          (by unfold Searchable; rw [hk.2.1]; exact hc) (by rw [hk.2.1]; exact hpos) hf
        have j1' : x.length = q.times.length := j1.trans t1
        have hx : x.take q.times.length = x := by rw [← j1', List.take_length]
        refine ⟨k1, ⟨x, j1', j2.history⟩, j3, ⟨x, hnil _ j1', j2, fun tr htr => InfoMatches.of_times (j4 tr htr).1⟩, ?_⟩
        rw [hx]
        refine ⟨j2, fun oe v' he => ?_⟩
        unfold objectiveAt at he
        rw [if_neg (by rintro (h | h) <;> rcases hm with hm | hm <;> rw [hm] at h <;> cases h)] at he
        exact objectiveTime_unique hdim o oe a a' (ts := q.times) hh t2 he hf)
      run.requests _ o1 (.refl _) ⟨q.times, rfl, hh⟩ h5
    rw [h6] at h3
    rw [h4]
    exact ⟨h3, rfl, by simp only; rw [i2]; simp [OptInfo.new], fun h => hdesc o1 code (i3 (.inr h)), i4⟩

theorem totalCost_total {q : Problem ℝ} (o : NonLin h) (hh : LinHistory h dim solve (some q) o.poly) (hq : q.times ≠ []) (hc : Searchable o) :
    ∃ o' v, o.getTotalCostWithSoftConstraints rf = .ok (o', v) := by
  obtain ⟨o1, v, h1⟩ := softLoop_total (rf := rf) o.params.softWeight (10 ^ 9) o.constraints o 0
    (fun c hm => computeMaximum_total rf hh hq _ (hc c hm))
  unfold getTotalCostWithSoftConstraints evaluateMaximumMagnitudeAsSoftConstraint
  rw [C26_cost q o.poly hh]
  simp only [bind, Except.bind]
  rw [h1]
  exact ⟨_, _, rfl⟩

end NonLin

end Verif
