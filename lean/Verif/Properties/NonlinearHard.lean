import Mathlib.Logic.Relation
import Verif.Properties.NonlinearCost

/-!
# Properties C81 and C82: magnitude limits as constraints of NLopt
-/

set_option linter.unusedSectionVars false

namespace Verif.Properties

open Verif Spec Lemmas LinOpt NonLin
variable {h dim : ℕ} {rf : Poly.RootFinder ℝ} {solve : LinSolver ℝ}

/-! ## C81 -/

/-- Full statement of C81: asked for a constraint at a point, the callback answers for the trajectory of that point: largest magnitude minus
limit. -/
def C81Full : Prop :=
  ∀ (h dim : ℕ) (rf : Poly.RootFinder ℝ) (solve : LinSolver ℝ) (q : Problem ℝ) (o o' oe : NonLin h) (c : MagConstraint) (x : List ℝ) (v cost M : ℝ)
    (tr : Trajectory ℝ), (∀ c, FindsRealRoots c (rf c)) → NLHistory h dim rf solve (some q) o → 0 < dim → q.times ≠ [] →
    FullMethod o.params.method ∨ TimeMethod o.params.method → c.derivative + 1 < h + h →
    o.evaluateMaximumMagnitudeConstraint rf c x false = .ok (o', v) → objectiveAt rf solve o x = .ok (oe, cost) → oe.getTrajectory = .ok tr →
    IsPeak dim c.derivative tr.segments M → v = M - c.value

/-- C81: it answers for the trajectory held, whatever the point. -/
theorem C81_held (hrf : ∀ c, FindsRealRoots c (rf c)) (q : Problem ℝ) (o0 o o' : NonLin h) (c : MagConstraint) (x : List ℝ) (v : ℝ)
    (hh : NLHistory h dim rf solve (some q) o0) (hs : o0.solveLinear solve = .ok o) (hdim : 0 < dim) (hq : q.times ≠ [])
    (hk : c.derivative + 1 < h + h) (ho : o.evaluateMaximumMagnitudeConstraint rf c x false = .ok (o', v)) (tr : Trajectory ℝ)
    (htr : o.getTrajectory = .ok tr) : IsPeak dim c.derivative tr.segments (v + c.value) := by
  obtain ⟨_, _, _, e⟩ := evaluateMax_ok o o' c x false v ho
  obtain ⟨p, hp, ee⟩ := bind_eq_ok hs
  have hsol : Solved h dim solve q o.poly := ⟨_, linHistory hh, .inr (by rw [← Except.ok.inj ee]; exact hp)⟩
  have := peak_isPeak hrf hsol hdim hq tr htr c.derivative hk
  rw [e]
  simpa using this

/-- C81, proved part: it does when the objective was evaluated at the same point just before. Missing: points at which the objective was not
evaluated last, see `C81_refuted`. -/
theorem C81_same_point_partial (hrf : ∀ c, FindsRealRoots c (rf c)) (q : Problem ℝ) (o o' oe : NonLin h) (c : MagConstraint) (x : List ℝ) (v cost : ℝ)
    (hh : NLHistory h dim rf solve (some q) o) (hdim : 0 < dim) (hq : q.times ≠ []) (hk : c.derivative + 1 < h + h)
    (he : objectiveAt rf solve o x = .ok (oe, cost)) (ho : oe.evaluateMaximumMagnitudeConstraint rf c x false = .ok (o', v)) (tr : Trajectory ℝ)
    (htr : oe.getTrajectory = .ok tr) : IsPeak dim c.derivative tr.segments (v + c.value) := by
  obtain ⟨_, _, _, e⟩ := evaluateMax_ok oe o' c x false v ho
  have hi := (inv_history dim solve _ _ (linHistory hh)).2 q rfl
  have hsol : ∃ ts, ts ≠ [] ∧ Solved h dim solve { q with times := ts } oe.poly := by
    unfold objectiveAt at he
    split at he
    · obtain ⟨_, h2⟩ := objectiveFull_spec o oe x false cost (linHistory hh) he
      obtain ⟨_, hxl, _⟩ := objectiveFull_ok o oe x false cost he
      refine ⟨_, fun e => ?_, h2⟩
      have h3 : (x.take q.times.length).length = 0 := by rw [e]; rfl
      rw [hi.nSegments] at hxl
      rw [List.length_take] at h3
      exact hq (List.length_eq_zero_iff.mp (by omega))
    · obtain ⟨_, h2, _⟩ := objectiveTime_spec o oe x false cost (linHistory hh) he
      obtain ⟨_, hxl, _⟩ := objectiveTime_ok o oe x false cost he
      refine ⟨_, fun e => ?_, h2⟩
      rw [e, hi.nSegments] at hxl
      exact hq (List.length_eq_zero_iff.mp hxl.symm)
  obtain ⟨ts, hne, hsol⟩ := hsol
  have := peak_isPeak hrf hsol hdim hne tr htr c.derivative hk
  rw [e]
  simpa using this

/-- C81 does not hold: one segment with a free end; at the points where the end is far away, the answer is still that for the trajectory held. -/
theorem C81_refuted : ¬C81Full := by
  intro hfull
  obtain ⟨rf, hrf⟩ := exists_complete_rootFinder
  obtain ⟨o0, o, hh0, hpar0, hcs0, hs, _⟩ := nl_setup (rf := rf) (solve := exactSolver) (h := 1) (dim := 1) plannerParams halfFree (by omega)
    halfFree_wellFormed halfFree_acceptable (by simp [halfFree])
  have hh : NLHistory 1 1 rf exactSolver (some halfFree) o := .solve hh0 hs
  obtain ⟨p, hp, e⟩ := bind_eq_ok hs
  have e := Except.ok.inj e
  have hpar : o.params = plannerParams := by rw [← e]; exact hpar0
  have hcs : o.constraints = [] := by rw [← e]; exact hcs0
  have hi := (inv_history 1 exactSolver _ _ (linHistory hh)).2 halfFree rfl
  obtain ⟨em, l, hm⟩ := computeMaximum_total rf (linHistory hh) (by simp [halfFree]) 0 (by omega)
  let c : MagConstraint := ⟨0, 1⟩
  obtain ⟨o', v, hv⟩ := evaluateMax_total o c [] em l hm
  let y : ℝ := |v| + 2
  have hv' : o.evaluateMaximumMagnitudeConstraint rf c [1, y] false = .ok (o', v) := hv
  have hnf : o.poly.nFree = 1 := by rw [nFree_eq hi halfFree_wellFormed]; rfl
  obtain ⟨oe, cost, he, _⟩ := objectiveFull_total (rf := rf) o (linHistory hh) (by omega) (by simp [halfFree]) (by rw [Searchable, hcs]; simp) [1, y]
    (by rw [hnf]; rfl) (by
      intro t ht
      have : t = 1 := by simpa [halfFree] using ht
      rw [this]
      unfold Poly.dblEps
      norm_num)
  have hobj : objectiveAt rf exactSolver o [1, y] = .ok (oe, cost) := by
    unfold objectiveAt
    rw [if_pos (by rw [hpar]; exact .inl rfl)]
    exact he
  obtain ⟨_, h2⟩ := objectiveFull_spec o oe [1, y] false cost (linHistory hh) he
  have hne : (List.take halfFree.times.length [1, y]) ≠ [] := by simp [halfFree]
  obtain ⟨tr, htr⟩ := solved_trajectory h2 hne
  obtain ⟨_, ht, hdec⟩ := C29_decoding halfFree o oe [1, y] false cost hh (by omega) halfFree_wellFormed he tr htr
  have hat := hdec 0 1 0 0 y rfl (by omega) rfl
  have hpk := peak_isPeak hrf h2 (by omega) hne tr htr 0 (by omega)
  have hval := hfull 1 1 rf exactSolver halfFree o o' oe c [1, y] v cost _ tr hrf hh (by omega) (by simp [halfFree])
    (.inl (by rw [hpar]; exact .inl rfl)) (by simp [c]) hv' hobj htr hpk
  have htime : tr.segments.map (·.time) = [1] := ht
  match hseg : tr.segments with
  | [] => rw [hseg] at htime; cases htime
  | s :: rest =>
    rw [hseg] at htime hat hpk
    simp only [List.map_cons, List.cons.injEq, List.map_eq_nil_iff] at htime
    have hend := hat.2 0 s rfl rfl
    have hle := hpk.2 s (by simp) s.time ⟨by rw [htime.1]; norm_num, le_rfl⟩
    have hmag : magnitude s (List.range 1) 0 s.time = |y| := by
      unfold segDeriv at hend
      rw [List.getElem?_map] at hend
      cases hp0 : s.polys[0]? with
      | none => rw [hp0] at hend; cases hend
      | some c0 =>
        rw [hp0] at hend
        have hend : derivAt c0 0 s.time = y := Option.some.inj hend
        unfold magnitude
        simp [List.range_succ, hp0, hend, Real.sqrt_sq_eq_abs]
    rw [hmag] at hle
    rw [abs_of_nonneg (by positivity : (0 : ℝ) ≤ y)] at hle
    have := le_abs_self v
    simp only [c, y] at hval hle
    linarith

/-- Hypotheses of `C81_same_point_partial` and `C81_held` met: the straight line from 0 to 7, evaluated at the time 2. -/
example : ∃ (rf : Poly.RootFinder ℝ) (o oe o' : NonLin 1) (v cost : ℝ) (tr : Trajectory ℝ), (∀ c, FindsRealRoots c (rf c)) ∧
    NLHistory 1 1 rf exactSolver (some (lineProblem 0 7 1)) o ∧ objectiveAt rf exactSolver o [2] = .ok (oe, cost) ∧
    oe.evaluateMaximumMagnitudeConstraint rf ⟨0, 1⟩ [2] false = .ok (o', v) ∧ oe.getTrajectory = .ok tr := by
  obtain ⟨rf, hrf⟩ := exists_complete_rootFinder
  obtain ⟨o0, o, hh0, hpar0, hcs0, hs, _⟩ := nl_setup (rf := rf) (solve := exactSolver) (h := 1) (dim := 1)
    { plannerParams with method := .squaredTime } (lineProblem 0 7 1) (by omega)
    (lineProblem_wellFormed 0 7 1) (lineProblem_acceptable 0 7 1 (by norm_num)) (by simp [lineProblem])
  have hh : NLHistory 1 1 rf exactSolver (some (lineProblem 0 7 1)) o := .solve hh0 hs
  obtain ⟨p, hp, e⟩ := bind_eq_ok hs
  have e := Except.ok.inj e
  have hpar : o.params = { plannerParams with method := .squaredTime } := by rw [← e]; exact hpar0
  have hcs : o.constraints = [] := by rw [← e]; exact hcs0
  obtain ⟨oe, cost, he, _⟩ := objectiveTime_total (rf := rf) o (linHistory hh) (by omega) (by simp [lineProblem]) (by rw [Searchable, hcs]; simp)
    (solvable_of_solved (linHistory hh0) (.inr (by rw [← e]; exact hp))) [2] rfl (by
      intro t ht
      rw [List.mem_singleton.mp ht]
      unfold Poly.dblEps
      norm_num)
  obtain ⟨_, h2, _⟩ := objectiveTime_spec o oe [2] false cost (linHistory hh) he
  obtain ⟨tr, htr⟩ := solved_trajectory h2 (by simp)
  obtain ⟨em, l, hm⟩ := computeMaximum_total rf h2.history (by simp) 0 (by omega)
  obtain ⟨o', v, hv⟩ := evaluateMax_total oe ⟨0, 1⟩ [2] em l hm
  refine ⟨rf, o, oe, o', v, cost, tr, hrf, hh, ?_, hv, htr⟩
  unfold objectiveAt
  rw [if_neg (by rw [hpar]; rintro (h | h) <;> cases h)]
  exact he

/-! ## C82 -/

/-- Full statement of C82: a limit that `addMaximumMagnitudeConstraint` reports as added, without soft constraints, is a constraint of NLopt from then on,
through all later set-ups and calls. -/
def C82Full : Prop :=
  ∀ (h dim : ℕ) (rf : Poly.RootFinder ℝ) (solve : LinSolver ℝ) (p : Option (Problem ℝ)) (o o1 o2 : NonLin h) (k : ℕ) (value : ℝ) (q : Problem ℝ),
    NLHistory h dim rf solve p o → o.params.useSoft = false → o.addMaximumMagnitudeConstraint k value = .ok (o1, true) →
    o1.setupFromVertices q.vertices q.times q.derivative = .ok o2 → ∃ nl, o2.nlopt = some nl ∧ ⟨k, value⟩ ∈ nl.hard

theorem add_ok (o o1 : NonLin h) (k : ℕ) (value : ℝ) (b : Bool) (ha : o.addMaximumMagnitudeConstraint k value = .ok (o1, b)) :
    0 ≤ value ∧ o1.constraints = o.constraints ++ [⟨k, value⟩] ∧ o1.params = o.params ∧ o1.poly = o.poly ∧
    (o.params.useSoft = true → b = true ∧ o1.nlopt = o.nlopt) ∧
    (o.params.useSoft = false → ∃ nl, o.nlopt = some nl ∧ b = o.params.acceptsConstraints ∧
      o1.nlopt = some { nl with hard := if b then nl.hard ++ [⟨k, value⟩] else nl.hard }) := by
  unfold addMaximumMagnitudeConstraint at ha
  split at ha
  · cases ha
  · rename_i hn
    push Not at hn
    simp only at ha
    split at ha
    · rename_i hs
      obtain ⟨e1, e2⟩ := Prod.mk.inj (Except.ok.inj ha)
      rw [← e1, ← e2]
      exact ⟨hn.2, rfl, rfl, rfl, fun _ => ⟨rfl, rfl⟩, fun h => (by rw [hs] at h; cases h)⟩
    · rename_i hs
      split at ha
      · cases ha
      · rename_i nl hnl
        split at ha
        · rename_i hacc
          obtain ⟨e1, e2⟩ := Prod.mk.inj (Except.ok.inj ha)
          rw [← e1, ← e2]
          exact ⟨hn.2, rfl, rfl, rfl, fun h => absurd h hs, fun _ => ⟨nl, hnl, hacc.symm, rfl⟩⟩
        · rename_i hacc
          obtain ⟨e1, e2⟩ := Prod.mk.inj (Except.ok.inj ha)
          rw [← e1, ← e2]
          exact ⟨hn.2, rfl, rfl, rfl, fun h => absurd h hs, fun _ => ⟨nl, hnl, by simpa using hacc, by simp [hnl]⟩⟩

theorem nlopt_none {p : Option (Problem ℝ)} {o : NonLin h} (hh : NLHistory h dim rf solve p o) (hp : p = none) : o.nlopt = none := by
  induction hh with
  | new params => rfl
  | setup q hh hu ih => cases hp
  | @add p o o' b k value hh ha ih =>
    unfold addMaximumMagnitudeConstraint at ha
    split at ha
    · cases ha
    · simp only [ih hp] at ha
      split at ha
      · rw [← (Prod.mk.inj (Except.ok.inj ha)).1]
      · cases ha
  | solve hh hs ih => cases hp
  | cost hh hc ih => rw [(costUpdate_keeps _ _ _ hc).1.2.2]; exact ih hp
  | scale hh hs ih => cases hp
  | optimize run hh hg ho ih => cases hp

/-- C82, proved part: it is until the object is set up again, through all other calls. Missing: set-ups, after which no constraint is left, see
`C82_forgotten`. -/
theorem C82_kept_partial (p : Option (Problem ℝ)) (o o1 o2 : NonLin h) (k : ℕ) (value : ℝ) (hh : NLHistory h dim rf solve p o)
    (hsoft : o.params.useSoft = false) (ha : o.addMaximumMagnitudeConstraint k value = .ok (o1, true))
    (hc : Relation.ReflTransGen (Call rf solve) o1 o2) : ∃ nl, o2.nlopt = some nl ∧ ⟨k, value⟩ ∈ nl.hard := by
  have key : (∃ p, NLHistory h dim rf solve p o2) ∧ ∃ nl, o2.nlopt = some nl ∧ ⟨k, value⟩ ∈ nl.hard := by
    induction hc with
    | refl =>
      obtain ⟨_, _, _, _, _, h6⟩ := add_ok o o1 k value true ha
      obtain ⟨nl, _, _, e⟩ := h6 hsoft
      exact ⟨⟨p, .add _ _ hh ha⟩, _, e, by simp⟩
    | @tail a b _ hab ih =>
      obtain ⟨⟨p', hp⟩, nl, hn, hm⟩ := ih
      obtain ⟨q, rfl⟩ : ∃ q, p' = some q := by
        cases p' with
        | none => rw [nlopt_none hp rfl] at hn; cases hn
        | some q => exact ⟨q, rfl⟩
      cases hab with
      | add k' value' hadd =>
        refine ⟨⟨_, .add _ _ hp hadd⟩, ?_⟩
        unfold addMaximumMagnitudeConstraint at hadd
        split at hadd
        · cases hadd
        · simp only [hn] at hadd
          split at hadd
          · rw [← (Prod.mk.inj (Except.ok.inj hadd)).1]
            exact ⟨nl, rfl, hm⟩
          · split at hadd
            · rw [← (Prod.mk.inj (Except.ok.inj hadd)).1]
              exact ⟨_, rfl, List.mem_append_left _ hm⟩
            · rw [← (Prod.mk.inj (Except.ok.inj hadd)).1]
              exact ⟨nl, rfl, hm⟩
      | solve hs =>
        refine ⟨⟨_, .solve hp hs⟩, ?_⟩
        obtain ⟨p2, _, e⟩ := bind_eq_ok hs
        rw [← Except.ok.inj e]
        exact ⟨nl, hn, hm⟩
      | cost hc =>
        refine ⟨⟨_, .cost hp hc⟩, nl, ?_, hm⟩
        rw [(costUpdate_keeps _ _ _ hc).1.2.2, hn]
      | scale hs =>
        refine ⟨⟨_, .scale hp hs⟩, nl, ?_, hm⟩
        rw [(scaleTimes_spec _ _ ⟨q.times, linHistory hp⟩ hs).1.2.2, hn]
      | optimize run hg ho =>
        refine ⟨⟨_, .optimize run hp hg ho⟩, nl, ?_, hm⟩
        rw [(optimize_spec run _ _ _ (linHistory hp) ho).1.2.2, hn]
  exact key.2

/-- C82: after a set-up NLopt has no constraints, while the limits given before are still among those the object stores. -/
theorem C82_forgotten (o o' : NonLin h) (q : Problem ℝ) (hu : o.setupFromVertices q.vertices q.times q.derivative = .ok o') :
    o'.constraints = o.constraints ∧ ∃ nl, o'.nlopt = some nl ∧ nl.hard = [] := by
  obtain ⟨p, _, e⟩ := setup_ok o o' _ _ _ hu
  rw [e]
  exact ⟨rfl, _, rfl, rfl⟩

/-- C82: without soft constraints a limit given before the first set-up is undefined behaviour (a null pointer is used). -/
theorem C82_before_setup (o : NonLin h) (k : ℕ) (value : ℝ) (hh : NLHistory h dim rf solve none o) (hsoft : o.params.useSoft = false)
    (hv : 0 ≤ value) : o.addMaximumMagnitudeConstraint k value = .error .ub := by
  unfold addMaximumMagnitudeConstraint
  rw [if_neg (by push Not; exact ⟨Int.natCast_nonneg k, hv⟩)]
  simp only [hsoft, nlopt_none hh rfl]
  rfl

/-- C82: with an algorithm that takes no constraints, the call returns `false` and NLopt's constraints stay as they were. -/
theorem C82_rejected (q : Problem ℝ) (o : NonLin h) (k : ℕ) (value : ℝ) (hh : NLHistory h dim rf solve (some q) o) (hsoft : o.params.useSoft = false)
    (hacc : o.params.acceptsConstraints = false) (hv : 0 ≤ value) :
    ∃ o1, o.addMaximumMagnitudeConstraint k value = .ok (o1, false) ∧ o1.nlopt = o.nlopt := by
  obtain ⟨nl, hn, _⟩ := (nlopt_history hh).2 q rfl
  unfold addMaximumMagnitudeConstraint
  rw [if_neg (by push Not; exact ⟨Int.natCast_nonneg k, hv⟩)]
  simp only [hsoft, hn, hacc]
  exact ⟨_, rfl, hn.symm ▸ rfl⟩

/-- An object with NLopt constraints, set up for the line from 0 to 7. -/
theorem hard_setup : ∃ o : NonLin 1, NLHistory 1 1 rf exactSolver (some (lineProblem 0 7 1)) o ∧
    o.params = { plannerParams with useSoft := false, acceptsConstraints := true } := by
  obtain ⟨o, _, hh, hpar, _⟩ := nl_setup (rf := rf) (solve := exactSolver) (h := 1) (dim := 1)
    { plannerParams with useSoft := false, acceptsConstraints := true } (lineProblem 0 7 1) (by omega) (lineProblem_wellFormed 0 7 1)
    (lineProblem_acceptable 0 7 1 (by norm_num)) (by simp [lineProblem])
  exact ⟨o, hh, hpar⟩

/-- Adding a limit to it. -/
theorem hard_add {q : Problem ℝ} {o : NonLin h} (hh : NLHistory h dim rf solve (some q) o)
    (hpar : o.params = { plannerParams with useSoft := false, acceptsConstraints := true }) :
    ∃ o1, o.addMaximumMagnitudeConstraint ((0 : ℕ) : Int) 1 = .ok (o1, true) := by
  obtain ⟨nl, hn, _⟩ := (nlopt_history hh).2 _ rfl
  refine ⟨{ o with constraints := o.constraints ++ [⟨0, 1⟩], nlopt := some { nl with hard := nl.hard ++ [⟨0, 1⟩] } }, ?_⟩
  unfold addMaximumMagnitudeConstraint
  rw [if_neg (by norm_num)]
  simp only [hpar, hn]
  rfl

/-- C82 does not hold: any set-up after the limit drops it. -/
theorem C82_refuted : ¬C82Full := by
  intro hfull
  obtain ⟨o, hh, hpar⟩ := hard_setup (rf := fun _ => [])
  obtain ⟨o1, ha⟩ := hard_add hh hpar
  have hlin := linHistory (.add _ _ hh ha)
  obtain ⟨p, hp⟩ := (C28_setup_iff _ _ hlin (lineProblem 0 7 1) (by omega) (lineProblem_wellFormed 0 7 1)).mpr
    (lineProblem_acceptable 0 7 1 (by norm_num))
  have hset : ∃ o2, o1.setupFromVertices (lineProblem 0 7 1).vertices (lineProblem 0 7 1).times (lineProblem 0 7 1).derivative = .ok o2 := by
    unfold NonLin.setupFromVertices
    rw [hp]
    exact ⟨_, rfl⟩
  obtain ⟨o2, h2⟩ := hset
  obtain ⟨nl, hn, hm⟩ := hfull 1 1 _ exactSolver _ o o1 o2 0 1 _ hh (by rw [hpar]) ha h2
  obtain ⟨_, nl', hn', he⟩ := C82_forgotten o1 o2 _ h2
  rw [hn] at hn'
  rw [Option.some.inj hn', he] at hm
  cases hm

/-- Hypotheses of `C82_kept_partial` met, with a call after the limit. -/
example : ∃ o o1 o2 : NonLin 1, NLHistory 1 1 rf exactSolver (some (lineProblem 0 7 1)) o ∧ o.params.useSoft = false ∧
    o.addMaximumMagnitudeConstraint ((0 : ℕ) : Int) 1 = .ok (o1, true) ∧ Relation.ReflTransGen (Call rf exactSolver) o1 o2 ∧
    o1.nlopt ≠ o2.nlopt := by
  obtain ⟨o, hh, hpar⟩ := hard_setup (rf := rf)
  obtain ⟨o1, ha⟩ := hard_add hh hpar
  have hpar1 : o1.params = _ := (add_ok o o1 0 1 true ha).2.2.1.trans hpar
  obtain ⟨o2, ha2⟩ := hard_add (.add _ _ hh ha) hpar1
  refine ⟨o, o1, o2, hh, by rw [hpar], ha, .single (.add _ _ ha2), ?_⟩
  obtain ⟨nl, hn, _, e⟩ := (add_ok o1 o2 0 1 true ha2).2.2.2.2.2 (by rw [hpar1])
  rw [hn, e]
  intro he
  have := congrArg (fun n : Option NloptObj => n.map fun n => n.hard.length) he
  simp at this

/-- Hypotheses of `C82_before_setup` and `C82_rejected` met. -/
example : ∃ o : NonLin 1, NLHistory 1 1 rf exactSolver none o ∧ o.params.useSoft = false := ⟨_, .new { plannerParams with useSoft := false }, rfl⟩
example : ∃ o : NonLin 1, NLHistory 1 1 rf exactSolver (some (lineProblem 0 7 1)) o ∧ o.params.useSoft = false ∧
    o.params.acceptsConstraints = false := by
  obtain ⟨o, _, hh, hpar, _⟩ := nl_setup (rf := rf) (solve := exactSolver) (h := 1) (dim := 1)
    { plannerParams with useSoft := false, acceptsConstraints := false } (lineProblem 0 7 1) (by omega) (lineProblem_wellFormed 0 7 1)
    (lineProblem_acceptable 0 7 1 (by norm_num)) (by simp [lineProblem])
  exact ⟨o, hh, by rw [hpar], by rw [hpar]⟩

end Verif.Properties
