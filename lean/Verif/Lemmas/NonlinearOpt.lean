import Verif.Spec.NonlinearOpt
import Verif.Properties.OptMagnitude
import Verif.Properties.ScaleToMeet

/-!
# Lemmas about the nonlinear optimisation: what the callbacks change
-/

set_option linter.unusedSectionVars false

namespace Verif

open Spec Lemmas

namespace NonLin
variable {h dim : ℕ} {rf : Poly.RootFinder ℝ} {solve : LinSolver ℝ}

/-- Parameters, constraints and NLopt object are the same. -/
def Keeps (o o' : NonLin h) : Prop := o'.params = o.params ∧ o'.constraints = o.constraints ∧ o'.nlopt = o.nlopt

theorem bind_eq_ok {α β : Type} {x : Res α} {f : α → Res β} {y : β} (hx : (x >>= f) = .ok y) : ∃ a, x = .ok a ∧ f a = .ok y := by
  cases x with
  | error e => cases hx
  | ok a => exact ⟨a, rfl, hx⟩

theorem Keeps.refl (o : NonLin h) : Keeps o o := ⟨rfl, rfl, rfl⟩

theorem Keeps.trans {a b c : NonLin h} (h1 : Keeps a b) (h2 : Keeps b c) : Keeps a c :=
  ⟨h2.1.trans h1.1, h2.2.1.trans h1.2.1, h2.2.2.trans h1.2.2⟩

/-- The maximum reported for derivative `k`, if the search succeeds. -/
noncomputable def peak (rf : Poly.RootFinder ℝ) (p : LinOpt h ℝ) (k : ℕ) : Extremum ℝ :=
  match p.computeMaximumOfMagnitude rf k with
  | .ok r => r.1
  | .error _ => ⟨0, 0, 0⟩

theorem evaluateMax_ok (o o' : NonLin h) (c : MagConstraint) (x : List ℝ) (g : Bool) (v : ℝ)
    (he : evaluateMaximumMagnitudeConstraint rf o c x g = .ok (o', v)) :
    g = false ∧ (∃ l, o.poly.computeMaximumOfMagnitude rf c.derivative = .ok (peak rf o.poly c.derivative, l)) ∧
    o' = { o with info := { o.info with maxima := Function.update o.info.maxima c.derivative (some (peak rf o.poly c.derivative)) } } ∧
    v = (peak rf o.poly c.derivative).value - c.value := by
  unfold evaluateMaximumMagnitudeConstraint at he
  cases g with
  | true => simp at he
  | false =>
    simp only [Bool.false_eq_true, if_false, bind, Except.bind] at he
    unfold peak
    cases hm : o.poly.computeMaximumOfMagnitude rf c.derivative with
    | error e => rw [hm] at he; cases he
    | ok m =>
      rw [hm] at he
      simp only [pure, Except.pure] at he
      obtain ⟨e1, e2⟩ := Prod.mk.inj (Except.ok.inj he)
      exact ⟨rfl, ⟨m.2, rfl⟩, e1.symm, e2.symm⟩

theorem evaluateMax_total (o : NonLin h) (c : MagConstraint) (x : List ℝ) (e : Extremum ℝ) (l : List (Extremum ℝ))
    (hm : o.poly.computeMaximumOfMagnitude rf c.derivative = .ok (e, l)) :
    ∃ o' v, evaluateMaximumMagnitudeConstraint rf o c x false = .ok (o', v) := by
  unfold evaluateMaximumMagnitudeConstraint
  simp only [Bool.false_eq_true, if_false, bind, Except.bind]
  rw [hm]
  exact ⟨_, _, rfl⟩

/-- Sum of the soft-constraint terms for a trajectory with maxima `M`. -/
noncomputable def softSum (M : ℕ → Extremum ℝ) (weight cap : ℝ) (cs : List MagConstraint) : ℝ :=
  (cs.map fun c => softTerm ((M c.derivative).value - c.value) c.value weight cap).sum

theorem softLoop_ok (weight cap : ℝ) (cs : List MagConstraint) (o o' : NonLin h) (a v : ℝ) (hs : softLoop rf weight cap cs o a = .ok (o', v)) :
    (∀ c ∈ cs, ∃ l, o.poly.computeMaximumOfMagnitude rf c.derivative = .ok (peak rf o.poly c.derivative, l)) ∧
    o' = { o with info := { o.info with maxima :=
      (fun k => if k ∈ cs.map (·.derivative) then some (peak rf o.poly k) else o.info.maxima k) } } ∧
    v = a + softSum (peak rf o.poly) weight cap cs := by
  induction cs generalizing o a with
  | nil =>
    obtain ⟨e1, e2⟩ := Prod.mk.inj (Except.ok.inj hs)
    exact ⟨by simp, by rw [← e1]; simp, by rw [← e2]; simp [softSum]⟩
  | cons c cs ih =>
    unfold softLoop at hs
    cases he : evaluateMaximumMagnitudeConstraint rf o c [] false with
    | error e => rw [he] at hs; cases hs
    | ok r =>
      rw [he] at hs
      simp only [bind, Except.bind] at hs
      obtain ⟨_, h1, h2, h3⟩ := evaluateMax_ok o r.1 c [] false r.2 he
      obtain ⟨i1, i2, i3⟩ := ih r.1 _ hs
      have hp : r.1.poly = o.poly := by rw [h2]
      rw [hp] at i1 i2 i3
      refine ⟨fun x hx => (List.mem_cons.mp hx).elim (fun e => by rw [e]; exact h1) (i1 x), ?_, ?_⟩
      · have hfun : (fun k => if k ∈ cs.map (·.derivative) then some (peak rf o.poly k) else
            Function.update o.info.maxima c.derivative (some (peak rf o.poly c.derivative)) k) =
            fun k => if k ∈ (c :: cs).map (·.derivative) then some (peak rf o.poly k) else o.info.maxima k := ?_
        · rw [i2, h2, ← hfun]
        funext k
        by_cases hk : k ∈ cs.map (·.derivative)
        · rw [if_pos hk, if_pos (by simp only [List.map_cons, List.mem_cons]; exact .inr hk)]
        · rw [if_neg hk]
          by_cases hkc : k = c.derivative
          · rw [hkc, Function.update_self, if_pos (by simp)]
          · rw [Function.update_of_ne hkc, if_neg (by simp only [List.map_cons, List.mem_cons]; tauto)]
      · rw [i3, h3]
        unfold softSum
        rw [List.map_cons, List.sum_cons]
        ring

theorem softLoop_total (weight cap : ℝ) (cs : List MagConstraint) (o : NonLin h) (a : ℝ)
    (hs : ∀ c ∈ cs, ∃ e l, o.poly.computeMaximumOfMagnitude rf c.derivative = .ok (e, l)) :
    ∃ o' v, softLoop rf weight cap cs o a = .ok (o', v) := by
  induction cs generalizing o a with
  | nil => exact ⟨_, _, rfl⟩
  | cons c cs ih =>
    obtain ⟨e, l, he⟩ := hs c (by simp)
    obtain ⟨o1, v, h1⟩ := evaluateMax_total o c [] e l he
    obtain ⟨_, _, h2, _⟩ := evaluateMax_ok o o1 c [] false v h1
    unfold softLoop
    rw [h1]
    simp only [bind, Except.bind]
    exact ih o1 _ (fun x hx => by rw [h2]; exact hs x (by simp [hx]))

theorem total_eq_sum (ts : List ℝ) : computeTotalTrajectoryTime ts = ts.sum := by
  unfold computeTotalTrajectoryTime
  rw [List.sum_eq_foldl]

/-- The time cost: linear or squared in the total time. -/
noncomputable def timeCost (linear : Bool) (penalty : ℝ) (ts : List ℝ) : ℝ :=
  if linear then ts.sum * penalty else ts.sum * ts.sum * penalty

/-- Cost and information after an evaluation of the objective. -/
theorem costOf_ok (linear : Bool) (ts : List ℝ) (o o' : NonLin h) (v : ℝ) (hc : costOf rf linear ts o = .ok (o', v)) :
    ∃ c, o.poly.computeCost = .ok c ∧
      (o.params.useSoft = true → ∀ x ∈ o.constraints, ∃ l, o.poly.computeMaximumOfMagnitude rf x.derivative = .ok (peak rf o.poly x.derivative, l)) ∧
      o' = { o with info :=
        { o.info with
          nIterations := o.info.nIterations + 1
          costTrajectory := c
          costTime := timeCost linear o.params.timePenalty ts
          costSoft := if o.params.useSoft then softSum (peak rf o.poly) o.params.softWeight (10 ^ 12) o.constraints else 0
          maxima := (fun k => if o.params.useSoft = true ∧ k ∈ o.constraints.map (·.derivative) then some (peak rf o.poly k)
            else o.info.maxima k) } } ∧
      v = c + timeCost linear o.params.timePenalty ts +
        if o.params.useSoft then softSum (peak rf o.poly) o.params.softWeight (10 ^ 12) o.constraints else 0 := by
  unfold costOf at hc
  cases hcc : o.poly.computeCost with
  | error e => rw [hcc] at hc; cases hc
  | ok c =>
    rw [hcc] at hc
    simp only [bind, Except.bind] at hc
    refine ⟨c, rfl, ?_⟩
    cases hu : o.params.useSoft with
    | false =>
      rw [hu] at hc
      simp only [Bool.false_eq_true, if_false, pure, Except.pure, total_eq_sum] at hc
      obtain ⟨e1, e2⟩ := Prod.mk.inj (Except.ok.inj hc)
      refine ⟨by simp, ?_, ?_⟩
      · rw [← e1]
        simp [timeCost]
      · rw [← e2]
        simp [timeCost]
    | true =>
      rw [hu] at hc
      simp only [if_true] at hc
      cases hs : evaluateMaximumMagnitudeAsSoftConstraint rf o o.params.softWeight (10 ^ 12) with
      | error e => rw [hs] at hc; cases hc
      | ok r =>
        rw [hs] at hc
        simp only [pure, Except.pure, total_eq_sum] at hc
        obtain ⟨e1, e2⟩ := Prod.mk.inj (Except.ok.inj hc)
        obtain ⟨s1, s2, s3⟩ := softLoop_ok _ _ _ _ r.1 0 r.2 hs
        rw [zero_add] at s3
        refine ⟨fun _ => s1, ?_, ?_⟩
        · rw [← e1, s2, s3]
          simp [timeCost]
        · rw [← e2, s3]
          simp [timeCost]

theorem costOf_keeps (linear : Bool) (ts : List ℝ) (o o' : NonLin h) (v : ℝ) (hc : costOf rf linear ts o = .ok (o', v)) :
    Keeps o o' ∧ o'.poly = o.poly := by
  obtain ⟨c, _, _, e, _⟩ := costOf_ok linear ts o o' v hc
  rw [e]
  exact ⟨⟨rfl, rfl, rfl⟩, rfl⟩

theorem costOf_total (linear : Bool) (ts : List ℝ) (o : NonLin h) (c : ℝ) (hc : o.poly.computeCost = .ok c)
    (hs : ∀ c ∈ o.constraints, ∃ e l, o.poly.computeMaximumOfMagnitude rf c.derivative = .ok (e, l)) :
    ∃ o' v, costOf rf linear ts o = .ok (o', v) := by
  unfold costOf
  rw [hc]
  simp only [bind, Except.bind]
  cases hu : o.params.useSoft with
  | false => exact ⟨_, _, rfl⟩
  | true =>
    obtain ⟨o1, v, h1⟩ := softLoop_total (rf := rf) o.params.softWeight (10 ^ 12) o.constraints o 0 hs
    simp only [if_true]
    unfold evaluateMaximumMagnitudeAsSoftConstraint
    rw [h1]
    exact ⟨_, _, rfl⟩

/-- What an evaluation of the time-only objective does. -/
theorem objectiveTime_ok (o o' : NonLin h) (x : List ℝ) (g : Bool) (v : ℝ) (ho : objectiveFunctionTime rf solve o x g = .ok (o', v)) :
    g = false ∧ x.length = o.poly.nSegments ∧ ∃ p1 p2, o.poly.updateSegmentTimes x = .ok p1 ∧ p1.solveLinear solve = .ok p2 ∧
      costOf rf (o.params.method = .richterTime) x { o with poly := p2 } = .ok (o', v) := by
  unfold objectiveFunctionTime at ho
  cases g with
  | true => simp at ho
  | false =>
    simp only [Bool.false_eq_true, if_false] at ho
    split at ho
    · cases ho
    · rename_i hl
      rw [not_not] at hl
      refine ⟨rfl, hl, ?_⟩
      cases h1 : o.poly.updateSegmentTimes x with
      | error e => rw [h1] at ho; cases ho
      | ok p1 =>
        rw [h1] at ho
        simp only [bind, Except.bind] at ho
        cases h2 : p1.solveLinear solve with
        | error e => rw [h2] at ho; cases ho
        | ok p2 =>
          rw [h2] at ho
          exact ⟨p1, p2, rfl, h2, ho⟩

/-- What an evaluation of the full objective does. -/
theorem objectiveFull_ok (o o' : NonLin h) (x : List ℝ) (g : Bool) (v : ℝ)
    (ho : objectiveFunctionTimeAndConstraints rf o x g = .ok (o', v)) :
    g = false ∧ x.length = o.poly.nSegments + o.poly.nFree * o.poly.dimension ∧ ∃ p1 p2,
      o.poly.updateSegmentTimes (x.take o.poly.nSegments) = .ok p1 ∧
      p1.setFreeConstraints ((List.range o.poly.dimension).map (decodeFree o.poly.nSegments o.poly.nFree x)) = .ok p2 ∧
      costOf rf (o.params.method = .richterTimeAndConstraints) (x.take o.poly.nSegments) { o with poly := p2 } = .ok (o', v) := by
  unfold objectiveFunctionTimeAndConstraints at ho
  cases g with
  | true => simp at ho
  | false =>
    simp only [Bool.false_eq_true, if_false] at ho
    split at ho
    · cases ho
    · rename_i hl
      rw [not_not] at hl
      refine ⟨rfl, hl, ?_⟩
      simp only [bind, Except.bind] at ho
      cases h1 : o.poly.updateSegmentTimes (x.take o.poly.nSegments) with
      | error e => rw [h1] at ho; cases ho
      | ok p1 =>
        rw [h1] at ho
        simp only at ho
        cases h2 : p1.setFreeConstraints ((List.range o.poly.dimension).map (decodeFree o.poly.nSegments o.poly.nFree x)) with
        | error e => rw [h2] at ho; cases ho
        | ok p2 =>
          rw [h2] at ho
          exact ⟨p1, p2, rfl, h2, ho⟩

/-! ## Histories -/

theorem _root_.Verif.Spec.Solved.history {q : Problem ℝ} {p : LinOpt h ℝ} (hs : Solved h dim solve q p) : LinHistory h dim solve (some q) p := by
  obtain ⟨p0, hh, ⟨values, hu⟩ | hu⟩ := hs
  · exact .free values hh hu
  · exact .solve hh hu

theorem updateTimes_times (p p' : LinOpt h ℝ) (ts : List ℝ) (hu : p.updateSegmentTimes ts = .ok p') : p'.times = ts := by
  obtain ⟨_, ms, _, e⟩ := LinOpt.updateSegmentTimes_ok p p' ts hu
  rw [e]

theorem LinHistory_times {q : Problem ℝ} {p : LinOpt h ℝ} (hh : LinHistory h dim solve (some q) p) : p.times = q.times :=
  ((LinOpt.inv_history dim solve _ p hh).2 q rfl).times

/-- An evaluation of the time-only objective solves the linear problem for the point. -/
theorem objectiveTime_spec {q : Problem ℝ} (o o' : NonLin h) (x : List ℝ) (g : Bool) (v : ℝ) (hh : LinHistory h dim solve (some q) o.poly)
    (ho : objectiveFunctionTime rf solve o x g = .ok (o', v)) :
    Keeps o o' ∧ Solved h dim solve { q with times := x } o'.poly ∧ ∃ p0, LinHistory h dim solve (some { q with times := x }) p0 ∧
      p0.solveLinear solve = .ok o'.poly := by
  obtain ⟨_, _, p1, p2, h1, h2, hc⟩ := objectiveTime_ok o o' x g v ho
  obtain ⟨hk, hp⟩ := costOf_keeps _ _ _ _ _ hc
  have hh1 : LinHistory h dim solve (some { q with times := x }) p1 := .times x hh h1
  refine ⟨hk, ⟨p1, hh1, .inr ?_⟩, p1, hh1, ?_⟩ <;> rw [hp] <;> exact h2

theorem objectiveFull_spec {q : Problem ℝ} (o o' : NonLin h) (x : List ℝ) (g : Bool) (v : ℝ) (hh : LinHistory h dim solve (some q) o.poly)
    (ho : objectiveFunctionTimeAndConstraints rf o x g = .ok (o', v)) :
    Keeps o o' ∧ Solved h dim solve { q with times := x.take q.times.length } o'.poly := by
  obtain ⟨_, _, p1, p2, h1, h2, hc⟩ := objectiveFull_ok o o' x g v ho
  obtain ⟨hk, hp⟩ := costOf_keeps _ _ _ _ _ hc
  have hn := ((LinOpt.inv_history dim solve _ _ hh).2 q rfl).nSegments
  rw [hn] at h1
  have hp' : o'.poly = p2 := hp
  rw [hp']
  exact ⟨hk, p1, .times _ hh h1, .inl ⟨_, h2⟩⟩

theorem gradientLoop_spec {q : Problem ℝ} (ts : List ℝ) (cost : ℝ) (ns : List ℕ) (p p' : LinOpt h ℝ) (acc g : List ℝ)
    (hh : ∃ ts', LinHistory h dim solve (some { q with times := ts' }) p) (hg : gradientLoop solve ts cost ns p acc = .ok (p', g)) :
    (∃ ts', LinHistory h dim solve (some { q with times := ts' }) p') ∧ g.length = acc.length + ns.length := by
  induction ns generalizing p acc with
  | nil =>
    obtain ⟨e1, e2⟩ := Prod.mk.inj (Except.ok.inj hg)
    rw [← e1, ← e2]
    exact ⟨hh, by simp⟩
  | cons n ns ih =>
    unfold gradientLoop at hg
    obtain ⟨ts', hh⟩ := hh
    cases h1 : p.updateSegmentTimes (mellingerTimes ts n) with
    | error e => rw [h1] at hg; cases hg
    | ok p1 =>
      rw [h1] at hg
      simp only [bind, Except.bind] at hg
      have hh1 : LinHistory h dim solve (some { q with times := mellingerTimes ts n }) p1 := .times (q := { q with times := ts' }) _ hh h1
      cases h2 : p1.solveLinear solve with
      | error e => rw [h2] at hg; cases hg
      | ok p2 =>
        rw [h2] at hg
        simp only at hg
        cases h3 : p2.computeCost with
        | error e => rw [h3] at hg; cases hg
        | ok c =>
          rw [h3] at hg
          obtain ⟨i1, i2⟩ := ih p2 _ ⟨_, .solve hh1 h2⟩ hg
          refine ⟨i1, ?_⟩
          rw [i2]
          simp only [List.length_append, List.length_cons, List.length_nil]
          omega

/-- The Mellinger gradient leaves the linear solution for the times it was called with. -/
theorem mellinger_spec {q : Problem ℝ} (o o' : NonLin h) (c : ℝ) (g : List ℝ) (hh : Solved h dim solve q o.poly)
    (ho : getCostAndGradientMellinger solve o = .ok (o', c, g)) :
    Keeps o o' ∧ Solved h dim solve q o'.poly ∧ o.poly.computeCost = .ok c ∧ g.length = q.times.length ∧ o'.info = o.info := by
  unfold getCostAndGradientMellinger at ho
  have hn := ((LinOpt.inv_history dim solve _ _ hh.history).2 q rfl).nSegments
  have ht := LinHistory_times hh.history
  cases hc : o.poly.computeCost with
  | error e => rw [hc] at ho; cases ho
  | ok c' =>
    rw [hc] at ho
    simp only [bind, Except.bind] at ho
    split at ho
    · obtain ⟨e1, e2⟩ := Prod.mk.inj (Except.ok.inj ho)
      obtain ⟨e2, e3⟩ := Prod.mk.inj e2
      rw [← e1, ← e2, ← e3]
      exact ⟨.refl o, hh, rfl, by rw [List.length_replicate, hn], rfl⟩
    · cases hg : gradientLoop solve o.poly.times c' (List.range o.poly.nSegments) o.poly [] with
      | error e => rw [hg] at ho; cases ho
      | ok r =>
        rw [hg] at ho
        simp only at ho
        obtain ⟨⟨ts', hr⟩, hl⟩ := gradientLoop_spec (dim := dim) (q := q) _ _ _ _ r.1 _ r.2 ⟨q.times, hh.history⟩ hg
        cases h1 : r.1.updateSegmentTimes o.poly.times with
        | error e => rw [h1] at ho; cases ho
        | ok p1 =>
          rw [h1] at ho
          simp only at ho
          cases h2 : p1.solveLinear solve with
          | error e => rw [h2] at ho; cases ho
          | ok p2 =>
            rw [h2] at ho
            obtain ⟨e1, e2⟩ := Prod.mk.inj (Except.ok.inj ho)
            obtain ⟨e2, e3⟩ := Prod.mk.inj e2
            have hh1 : LinHistory h dim solve (some { q with times := o.poly.times }) p1 := .times (q := { q with times := ts' }) _ hr h1
            rw [ht] at hh1
            rw [← e1, ← e2, ← e3]
            refine ⟨⟨rfl, rfl, rfl⟩, ⟨p1, hh1, .inr h2⟩, rfl, ?_, rfl⟩
            rw [hl, List.length_range, hn]
            simp

theorem objectiveMellinger_spec {q : Problem ℝ} (o o' : NonLin h) (x : List ℝ) (gr : Bool) (r : ℝ × List ℝ)
    (hh : LinHistory h dim solve (some q) o.poly) (ho : objectiveFunctionTimeMellingerOuterLoop solve o x gr = .ok (o', r)) :
    gr = true ∧ x.length = q.times.length ∧ Keeps o o' ∧ Solved h dim solve { q with times := x } o'.poly ∧ r.2.length = q.times.length ∧
    o'.info = { o.info with nIterations := o.info.nIterations + 1, costTrajectory := r.1 } := by
  unfold objectiveFunctionTimeMellingerOuterLoop at ho
  have hn := ((LinOpt.inv_history dim solve _ _ hh).2 q rfl).nSegments
  cases gr with
  | false => simp at ho
  | true =>
    simp only [not_true_eq_false, if_false] at ho
    split at ho
    · cases ho
    · rename_i hl
      rw [not_not] at hl
      cases h1 : o.poly.updateSegmentTimes x with
      | error e => rw [h1] at ho; cases ho
      | ok p1 =>
        rw [h1] at ho
        simp only [bind, Except.bind] at ho
        have hh1 : LinHistory h dim solve (some { q with times := x }) p1 := .times x hh h1
        cases h2 : p1.solveLinear solve with
        | error e => rw [h2] at ho; cases ho
        | ok p2 =>
          rw [h2] at ho
          simp only at ho
          cases h3 : getCostAndGradientMellinger solve { o with poly := p2 } with
          | error e => rw [h3] at ho; cases ho
          | ok a =>
            rw [h3] at ho
            obtain ⟨m1, m2, m3, m4, m5⟩ := mellinger_spec (q := { q with times := x }) _ a.1 a.2.1 a.2.2 ⟨p1, hh1, .inr h2⟩ h3
            obtain ⟨e1, e2⟩ := Prod.mk.inj (Except.ok.inj ho)
            rw [← e1, ← e2]
            refine ⟨rfl, by rw [hl, hn], ⟨m1.1, m1.2.1, m1.2.2⟩, m2, ?_, ?_⟩
            · rw [m4, hl, hn]
            · simp only
              rw [m5]

/-- Answers keep the problem apart from the times. -/
theorem answers_spec {α : Type} {q : Problem ℝ} (f : NonLin h → List ℝ → Bool → Res (NonLin h × α)) (P : LinOpt h ℝ → Prop)
    (hf : ∀ (o o' : NonLin h) x g a, (∃ ts, LinHistory h dim solve (some { q with times := ts }) o.poly) → f o x g = .ok (o', a) →
      Keeps o o' ∧ (∃ ts, LinHistory h dim solve (some { q with times := ts }) o'.poly) ∧ P o'.poly)
    (rs : List Request) (o o' : NonLin h) (hh : ∃ ts, LinHistory h dim solve (some { q with times := ts }) o.poly)
    (hr : rs.foldlM (answer rf f) o = .ok o') :
    Keeps o o' ∧ (∃ ts, LinHistory h dim solve (some { q with times := ts }) o'.poly) ∧
    ((P o.poly ∨ ∃ x g, Request.objective x g ∈ rs) → P o'.poly) ∧ ((∀ x g, Request.objective x g ∉ rs) → o'.poly = o.poly) := by
  induction rs generalizing o with
  | nil =>
    rw [← Except.ok.inj hr]
    exact ⟨.refl o, hh, fun h => h.elim id (by simp), fun _ => rfl⟩
  | cons r rs ih =>
    rw [List.foldlM_cons] at hr
    cases ha : answer rf f o r with
    | error e => rw [ha] at hr; cases hr
    | ok o1 =>
      rw [ha] at hr
      simp only [bind, Except.bind] at hr
      cases r with
      | objective x g =>
        unfold answer at ha
        simp only at ha
        cases hfo : f o x g with
        | error e => rw [hfo] at ha; cases ha
        | ok a =>
          rw [hfo] at ha
          have e1 : a.1 = o1 := Except.ok.inj ha
          obtain ⟨k1, k2, k3⟩ := hf o a.1 x g a.2 hh hfo
          rw [e1] at k1 k2 k3
          obtain ⟨i1, i2, i3, i4⟩ := ih o1 k2 hr
          exact ⟨k1.trans i1, i2, fun _ => i3 (.inl k3), fun hno => absurd (by simp) (hno x g)⟩
      | constraint c x g =>
        unfold answer at ha
        simp only at ha
        cases he : evaluateMaximumMagnitudeConstraint rf o c x g with
        | error e => rw [he] at ha; cases ha
        | ok a =>
          rw [he] at ha
          have e1 : a.1 = o1 := Except.ok.inj ha
          obtain ⟨_, _, e2, _⟩ := evaluateMax_ok o a.1 c x g a.2 he
          rw [e1] at e2
          have hp : o1.poly = o.poly := by rw [e2]
          have hk : Keeps o o1 := by rw [e2]; exact ⟨rfl, rfl, rfl⟩
          obtain ⟨i1, i2, i3, i4⟩ := ih o1 (by rw [hp]; exact hh) hr
          refine ⟨hk.trans i1, i2, fun h => i3 ?_, fun hno => ?_⟩
          · rw [hp]
            rcases h with h | ⟨x', g', hm⟩
            · exact .inl h
            · rcases List.mem_cons.mp hm with hm | hm
              · cases hm
              · exact .inr ⟨x', g', hm⟩
          · rw [i4 (fun x' g' hm => hno x' g' (by simp [hm])), hp]

/-- The trajectory is a solution for some times. -/
def SolvedSome (h dim : ℕ) (solve : LinSolver ℝ) (q : Problem ℝ) (p : LinOpt h ℝ) : Prop :=
  ∃ ts, Solved h dim solve { q with times := ts } p

theorem runNlopt_spec {α : Type} {q : Problem ℝ} (f : NonLin h → List ℝ → Bool → Res (NonLin h × α))
    (hf : ∀ (o o' : NonLin h) x g a, (∃ ts, LinHistory h dim solve (some { q with times := ts }) o.poly) → f o x g = .ok (o', a) →
      Keeps o o' ∧ SolvedSome h dim solve q o'.poly)
    (run : NloptRun) (o o' : NonLin h) (res : Option Int) (hh : ∃ ts, LinHistory h dim solve (some { q with times := ts }) o.poly)
    (hr : runNlopt rf f run o = .ok (o', res)) :
    Keeps o o' ∧ (∃ ts, LinHistory h dim solve (some { q with times := ts }) o'.poly) ∧
    ((SolvedSome h dim solve q o.poly ∨ (run.setupFails = false ∧ ∃ x g, Request.objective x g ∈ run.requests)) → SolvedSome h dim solve q o'.poly) ∧
    ((run.setupFails = true ∨ ∀ x g, Request.objective x g ∉ run.requests) → o'.poly = o.poly) := by
  unfold runNlopt at hr
  cases hnl : o.nlopt with
  | none => rw [hnl] at hr; cases hr
  | some nl =>
    rw [hnl] at hr
    simp only at hr
    cases hsf : run.setupFails with
    | true =>
      rw [hsf] at hr
      simp only [if_true] at hr
      obtain ⟨e1, _⟩ := Prod.mk.inj (Except.ok.inj hr)
      rw [← e1]
      exact ⟨.refl o, hh, fun h => h.elim id (by simp), fun _ => rfl⟩
    | false =>
      rw [hsf] at hr
      simp only [Bool.false_eq_true, if_false, bind, Except.bind] at hr
      cases ho : run.requests.foldlM (answer rf f) o with
      | error e => rw [ho] at hr; cases hr
      | ok o1 =>
        rw [ho] at hr
        obtain ⟨e1, _⟩ := Prod.mk.inj (Except.ok.inj hr)
        obtain ⟨a1, a2, a3, a4⟩ := answers_spec f (SolvedSome h dim solve q) (fun o o' x g a hh hfo => by
          obtain ⟨k1, ts, k2⟩ := hf o o' x g a hh hfo
          exact ⟨k1, ⟨ts, k2.history⟩, ts, k2⟩) run.requests o o1 hh ho
        rw [← e1]
        exact ⟨a1, a2, fun h => a3 (h.imp id (·.2)), fun h => a4 (h.resolve_left (by simp))⟩

theorem scaleTimes_spec {q : Problem ℝ} (o o' : NonLin h) (hh : ∃ ts, LinHistory h dim solve (some { q with times := ts }) o.poly)
    (hs : scaleSegmentTimesWithViolation rf solve o = .ok o') :
    Keeps o o' ∧ o'.info = o.info ∧ ∃ tr r p1, o.poly.getTrajectory = .ok tr ∧
      tr.scaleSegmentTimesToMeetConstraints rf (limitOf 1 o.constraints) (limitOf 2 o.constraints) = .ok r ∧
      LinHistory h dim solve (some { q with times := r.2.segments.map (·.time) }) p1 ∧ p1.solveLinear solve = .ok o'.poly := by
  unfold scaleSegmentTimesWithViolation at hs
  obtain ⟨ts, hh⟩ := hh
  cases h1 : o.poly.getTrajectory with
  | error e => rw [h1] at hs; cases hs
  | ok tr =>
    rw [h1] at hs
    simp only [bind, Except.bind] at hs
    cases h2 : tr.scaleSegmentTimesToMeetConstraints rf (limitOf 1 o.constraints) (limitOf 2 o.constraints) with
    | error e => rw [h2] at hs; cases hs
    | ok r =>
      rw [h2] at hs
      simp only at hs
      cases h3 : o.poly.updateSegmentTimes (r.2.segments.map (·.time)) with
      | error e => rw [h3] at hs; cases hs
      | ok p1 =>
        rw [h3] at hs
        simp only at hs
        cases h4 : p1.solveLinear solve with
        | error e => rw [h4] at hs; cases hs
        | ok p2 =>
          rw [h4] at hs
          rw [← Except.ok.inj hs]
          exact ⟨⟨rfl, rfl, rfl⟩, rfl, tr, r, p1, rfl, h2, .times (q := { q with times := ts }) _ hh h3, h4⟩

/-- What `optimize` keeps, and when the trajectory is a solution of the problem for its times. -/
theorem optimize_spec {q : Problem ℝ} (run : NloptRun) (o o' : NonLin h) (code : Int) (hh : LinHistory h dim solve (some q) o.poly)
    (ho : o.optimize rf solve run = .ok (o', code)) :
    Keeps o o' ∧ (∃ ts, LinHistory h dim solve (some { q with times := ts }) o'.poly) ∧
    (FullMethod o.params.method → SolvedSome h dim solve q o'.poly) ∧
    (TimeMethod o.params.method ∨ o.params.method = .mellingerOuterLoop →
      (SolvedSome h dim solve q o.poly ∨ (run.setupFails = false ∧ ∃ x g, Request.objective x g ∈ run.requests)) →
      SolvedSome h dim solve q o'.poly) := by
  unfold optimize at ho
  have hself : ∃ ts, LinHistory h dim solve (some { q with times := ts }) o.poly := ⟨q.times, hh⟩
  have htime : ∀ (o o' : NonLin h) x g a, (∃ ts, LinHistory h dim solve (some { q with times := ts }) o.poly) →
      objectiveFunctionTime rf solve o x g = .ok (o', a) → Keeps o o' ∧ SolvedSome h dim solve q o'.poly := by
    intro o o' x g a ⟨ts, hts⟩ hf
    obtain ⟨k1, k2, _⟩ := objectiveTime_spec o o' x g a hts hf
    exact ⟨k1, x, k2⟩
  have hfull : ∀ (o o' : NonLin h) x g a, (∃ ts, LinHistory h dim solve (some { q with times := ts }) o.poly) →
      objectiveFunctionTimeAndConstraints rf o x g = .ok (o', a) → Keeps o o' ∧ SolvedSome h dim solve q o'.poly := by
    intro o o' x g a ⟨ts, hts⟩ hf
    obtain ⟨k1, k2⟩ := objectiveFull_spec o o' x g a hts hf
    exact ⟨k1, _, k2⟩
  have hmel : ∀ (o o' : NonLin h) x g a, (∃ ts, LinHistory h dim solve (some { q with times := ts }) o.poly) →
      objectiveFunctionTimeMellingerOuterLoop solve o x g = .ok (o', a) → Keeps o o' ∧ SolvedSome h dim solve q o'.poly := by
    intro o o' x g a ⟨ts, hts⟩ hf
    obtain ⟨_, _, k1, k2, _⟩ := objectiveMellinger_spec o o' x g a hts hf
    exact ⟨k1, x, k2⟩
  have key : ∀ (m : AllocMethod), m = o.params.method → ∀ r : NonLin h × Int, optimizeBy rf solve run m { o with info := OptInfo.new } = .ok r →
      Keeps o r.1 ∧ (∃ ts, LinHistory h dim solve (some { q with times := ts }) r.1.poly) ∧
      (FullMethod m → SolvedSome h dim solve q r.1.poly) ∧
      (TimeMethod m ∨ m = .mellingerOuterLoop →
        (SolvedSome h dim solve q o.poly ∨ (run.setupFails = false ∧ ∃ x g, Request.objective x g ∈ run.requests)) →
        SolvedSome h dim solve q r.1.poly) := by
    have ktime : ∀ r : NonLin h × Int, optimizeTime rf solve run { o with info := OptInfo.new } = .ok r →
        Keeps o r.1 ∧ (∃ ts, LinHistory h dim solve (some { q with times := ts }) r.1.poly) ∧
        ((SolvedSome h dim solve q o.poly ∨ (run.setupFails = false ∧ ∃ x g, Request.objective x g ∈ run.requests)) →
          SolvedSome h dim solve q r.1.poly) := by
      intro r hr
      unfold optimizeTime at hr
      cases h1 : runNlopt rf (objectiveFunctionTime rf solve) run { o with info := OptInfo.new } with
      | error e => rw [h1] at hr; cases hr
      | ok a =>
        rw [h1] at hr
        obtain ⟨k1, k2, k3, _⟩ := runNlopt_spec _ htime run { o with info := OptInfo.new } a.1 a.2 hself h1
        rw [← Except.ok.inj hr]
        exact ⟨⟨k1.1, k1.2.1, k1.2.2⟩, k2, k3⟩
    have kfull : ∀ r : NonLin h × Int, optimizeTimeAndFreeConstraints rf solve run { o with info := OptInfo.new } = .ok r →
        Keeps o r.1 ∧ (∃ ts, LinHistory h dim solve (some { q with times := ts }) r.1.poly) ∧ SolvedSome h dim solve q r.1.poly := by
      intro r hr
      unfold optimizeTimeAndFreeConstraints at hr
      cases h0 : o.poly.solveLinear solve with
      | error e => simp only [h0] at hr; cases hr
      | ok p =>
        simp only [h0, bind, Except.bind] at hr
        have hsol : Solved h dim solve { q with times := q.times } p := ⟨_, hh, .inr h0⟩
        cases hfp : fullProblem { o with poly := p, info := OptInfo.new } with
        | error e => rw [hfp] at hr; cases hr
        | ok pr =>
          rw [hfp] at hr
          simp only at hr
          cases h1 : runNlopt rf (objectiveFunctionTimeAndConstraints rf) run { o with poly := p, info := OptInfo.new } with
          | error e => rw [h1] at hr; cases hr
          | ok a =>
            rw [h1] at hr
            obtain ⟨k1, k2, k3, _⟩ := runNlopt_spec _ hfull run _ a.1 a.2 ⟨_, hsol.history⟩ h1
            rw [← Except.ok.inj hr]
            exact ⟨⟨k1.1, k1.2.1, k1.2.2⟩, k2, k3 (.inl ⟨_, hsol⟩)⟩
    intro m hm r hr
    cases m with
    | squaredTime =>
      obtain ⟨k1, k2, k3⟩ := ktime r hr
      exact ⟨k1, k2, fun h => (by rcases h with h | h <;> cases h), fun _ => k3⟩
    | richterTime =>
      obtain ⟨k1, k2, k3⟩ := ktime r hr
      exact ⟨k1, k2, fun h => (by rcases h with h | h <;> cases h), fun _ => k3⟩
    | squaredTimeAndConstraints =>
      obtain ⟨k1, k2, k3⟩ := kfull r hr
      exact ⟨k1, k2, fun _ => k3, fun _ _ => k3⟩
    | richterTimeAndConstraints =>
      obtain ⟨k1, k2, k3⟩ := kfull r hr
      exact ⟨k1, k2, fun _ => k3, fun _ _ => k3⟩
    | unknown =>
      rw [← Except.ok.inj hr]
      exact ⟨⟨rfl, rfl, rfl⟩, hself, fun h => (by rcases h with h | h <;> cases h), fun h => (by rcases h with (h | h) | h <;> cases h)⟩
    | mellingerOuterLoop =>
      unfold optimizeBy optimizeTimeMellingerOuterLoop at hr
      cases h1 : runNlopt rf (objectiveFunctionTimeMellingerOuterLoop solve) run { o with info := OptInfo.new } with
      | error e => rw [h1] at hr; cases hr
      | ok a =>
        rw [h1] at hr
        simp only [bind, Except.bind] at hr
        obtain ⟨k1, k2, k3, _⟩ := runNlopt_spec _ hmel run { o with info := OptInfo.new } a.1 a.2 hself h1
        have hscale : ∀ o2, scaleSegmentTimesWithViolation rf solve a.1 = .ok o2 →
            Keeps o o2 ∧ (∃ ts, LinHistory h dim solve (some { q with times := ts }) o2.poly) ∧ SolvedSome h dim solve q o2.poly := by
          intro o2 hs
          obtain ⟨s1, _, tr, r', p1, _, _, s4, s5⟩ := scaleTimes_spec a.1 o2 k2 hs
          have hk : Keeps o a.1 := ⟨k1.1, k1.2.1, k1.2.2⟩
          exact ⟨hk.trans s1, ⟨_, .solve s4 s5⟩, _, p1, s4, .inr s5⟩
        have hno : FullMethod AllocMethod.mellingerOuterLoop → SolvedSome h dim solve q r.1.poly := fun h => (by rcases h with h | h <;> cases h)
        cases hcode : a.2 with
        | some code =>
          rw [hcode] at hr
          simp only at hr
          cases hs : scaleSegmentTimesWithViolation rf solve a.1 with
          | error e => rw [hs] at hr; cases hr
          | ok o2 =>
            rw [hs] at hr
            obtain ⟨s1, s2, s3⟩ := hscale o2 hs
            rw [← Except.ok.inj hr] at hno ⊢
            exact ⟨s1, s2, hno, fun _ _ => s3⟩
        | none =>
          rw [hcode] at hr
          simp only at hr
          split at hr
          · rw [← Except.ok.inj hr] at hno ⊢
            exact ⟨⟨k1.1, k1.2.1, k1.2.2⟩, k2, hno, fun _ => k3⟩
          · cases hs : scaleSegmentTimesWithViolation rf solve a.1 with
            | error e => rw [hs] at hr; cases hr
            | ok o2 =>
              rw [hs] at hr
              obtain ⟨s1, s2, s3⟩ := hscale o2 hs
              rw [← Except.ok.inj hr] at hno ⊢
              exact ⟨s1, s2, hno, fun _ _ => s3⟩
  obtain ⟨r, hr, hr2⟩ := bind_eq_ok ho
  obtain ⟨e1, _⟩ := Prod.mk.inj (Except.ok.inj hr2)
  have := key o.params.method rfl r hr
  rw [← e1]
  exact this

/-- Every history of the nonlinear object is a history of the linear one inside. -/
theorem linHistory {p : Option (Problem ℝ)} {o : NonLin h} (hh : NLHistory h dim rf solve p o) : LinHistory h dim solve p o.poly := by
  have htimes : ∀ (q : Problem ℝ) (o : NonLin h), (∃ ts, LinHistory h dim solve (some { q with times := ts }) o.poly) →
      LinHistory h dim solve (some { q with times := o.poly.times }) o.poly := by
    rintro q o ⟨ts, hts⟩
    rw [LinHistory_times hts]
    exact hts
  induction hh with
  | new params => exact .new
  | @setup p o o' q _ hu ih =>
    unfold setupFromVertices at hu
    cases hs : o.poly.setupFromVertices q.vertices q.times q.derivative with
    | error e => rw [hs] at hu; cases hu
    | ok p' =>
      rw [hs] at hu
      rw [← Except.ok.inj hu]
      exact .setup q ih hs
  | @add p o o' b k value _ ha ih =>
    unfold addMaximumMagnitudeConstraint at ha
    split at ha
    · cases ha
    · simp only at ha
      split at ha
      · rw [← (Prod.mk.inj (Except.ok.inj ha)).1]; exact ih
      · split at ha
        · cases ha
        · split at ha
          · rw [← (Prod.mk.inj (Except.ok.inj ha)).1]; exact ih
          · rw [← (Prod.mk.inj (Except.ok.inj ha)).1]; exact ih
  | @solve q o o' _ hu ih =>
    unfold NonLin.solveLinear at hu
    cases hs : o.poly.solveLinear solve with
    | error e => rw [hs] at hu; cases hu
    | ok p' =>
      rw [hs] at hu
      rw [← Except.ok.inj hu]
      exact .solve ih hs
  | @cost p o o' c _ hc ih =>
    unfold getTotalCostWithSoftConstraints at hc
    cases h1 : o.poly.computeCost with
    | error e => rw [h1] at hc; cases hc
    | ok c' =>
      rw [h1] at hc
      simp only [bind, Except.bind] at hc
      cases h2 : evaluateMaximumMagnitudeAsSoftConstraint rf o o.params.softWeight (10 ^ 9) with
      | error e => rw [h2] at hc; cases hc
      | ok r =>
        rw [h2] at hc
        have e1 := (Prod.mk.inj (Except.ok.inj hc)).1
        obtain ⟨_, e2, _⟩ := softLoop_ok _ _ _ _ r.1 0 r.2 h2
        rw [← e1, e2]
        exact ih
  | @scale q o o' _ hs ih =>
    obtain ⟨_, _, tr, r, p1, _, _, h1, h2⟩ := scaleTimes_spec o o' ⟨q.times, ih⟩ hs
    exact htimes q o' ⟨_, .solve h1 h2⟩
  | @optimize q o o' code run _ _ ho ih =>
    obtain ⟨_, h2, _, _⟩ := optimize_spec run o o' code ih ho
    exact htimes q o' h2

end NonLin

end Verif
