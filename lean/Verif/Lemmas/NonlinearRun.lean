import Verif.Lemmas.NonlinearFree

/-!
# Runs of the nonlinear optimisation: invariants of the NLopt object and success
-/

set_option linter.unusedSectionVars false

namespace Verif

open Spec Lemmas Properties

namespace NonLin
open LinOpt
variable {h dim : ℕ} {rf : Poly.RootFinder ℝ} {solve : LinSolver ℝ}

theorem costUpdate_keeps (o o' : NonLin h) (c : ℝ) (hc : o.getTotalCostWithSoftConstraints rf = .ok (o', c)) :
    Keeps o o' ∧ o'.poly = o.poly := by
  unfold getTotalCostWithSoftConstraints at hc
  cases h1 : o.poly.computeCost with
  | error e => rw [h1] at hc; cases hc
  | ok c' =>
    rw [h1] at hc
    simp only [bind, Except.bind] at hc
    cases h2 : evaluateMaximumMagnitudeAsSoftConstraint rf o o.params.softWeight (10 ^ 9) with
    | error e => rw [h2] at hc; cases hc
    | ok r =>
      rw [h2] at hc
      have e1 := (Prod.mk.inj (Except.ok.inj hc)).1
      obtain ⟨_, e2, _⟩ := softLoop_ok _ _ _ _ r.1 0 r.2 h2
      rw [← e1, e2]
      exact ⟨⟨rfl, rfl, rfl⟩, rfl⟩

/-- How many variables the NLopt object must have. -/
def wantedDim (m : AllocMethod) (n free dim : ℕ) : ℕ :=
  match m with
  | .squaredTime | .richterTime | .mellingerOuterLoop => n
  | _ => n + free * dim

theorem nFree_of_inv {q q' : Problem ℝ} {p p' : LinOpt h ℝ} (hi : Inv dim q p) (hi' : Inv dim q' p') (hv : q.vertices = q'.vertices)
    (hl : q.times.length = q'.times.length) : p.nFree = p'.nFree := by
  have : p.vertices = p'.vertices := Except.ok.inj (hi.vertices.symm.trans (by rw [hv]; exact hi'.vertices))
  rw [hi.nFree, hi'.nFree, this, hl]

theorem setup_ok (o o' : NonLin h) (vs : List (Vertex ℝ)) (ts : List ℝ) (d : Int) (hu : o.setupFromVertices vs ts d = .ok o') :
    ∃ p, o.poly.setupFromVertices vs ts d = .ok p ∧
      o' = { o with poly := p, nlopt := some ⟨wantedDim o.params.method ts.length p.nFree p.dimension, []⟩ } := by
  unfold setupFromVertices at hu
  cases hs : o.poly.setupFromVertices vs ts d with
  | error e => rw [hs] at hu; cases hu
  | ok p' =>
    rw [hs] at hu
    refine ⟨p', rfl, (Except.ok.inj hu).symm.trans ?_⟩
    unfold wantedDim
    cases o.params.method <;> rfl

/-- The NLopt object along histories: it exists after the set-up, has as many variables as the problem, and its constraints are among those
given. -/
theorem nlopt_history {p : Option (Problem ℝ)} {o : NonLin h} (hh : NLHistory h dim rf solve p o) :
    (∀ nl, o.nlopt = some nl → ∀ c ∈ nl.hard, c ∈ o.constraints) ∧
    ∀ q, p = some q → ∃ nl, o.nlopt = some nl ∧ nl.dim = wantedDim o.params.method q.times.length o.poly.nFree dim := by
  induction hh with
  | new params => exact ⟨fun nl hn => (by cases hn), fun q hq => (by cases hq)⟩
  | @setup p o o' q hh hu ih =>
    have hi := (inv_history dim solve _ _ (linHistory (.setup q hh hu))).2 q rfl
    obtain ⟨p', _, e⟩ := setup_ok o o' _ _ _ hu
    have hd : p'.dimension = dim := by rw [e] at hi; exact hi.dimension
    rw [e]
    refine ⟨fun nl hn c hc => ?_, fun q' hq' => ?_⟩
    · rw [← Option.some.inj hn] at hc
      cases hc
    · rw [← Option.some.inj hq', ← hd]
      exact ⟨_, rfl, rfl⟩
  | @add p o o' b k value hh ha ih =>
    obtain ⟨ih1, ih2⟩ := ih
    unfold addMaximumMagnitudeConstraint at ha
    split at ha
    · cases ha
    · simp only at ha
      split at ha
      · rw [← (Prod.mk.inj (Except.ok.inj ha)).1]
        exact ⟨fun nl hn c hc => List.mem_append_left _ (ih1 nl hn c hc), ih2⟩
      · split at ha
        · cases ha
        · rename_i nl hnl
          split at ha
          · rw [← (Prod.mk.inj (Except.ok.inj ha)).1]
            refine ⟨fun nl' hn c hc => ?_, fun q hq => ?_⟩
            · rw [← Option.some.inj hn] at hc
              simp only [List.mem_append] at hc ⊢
              exact hc.imp (ih1 nl hnl c) id
            · obtain ⟨nl', e1, e2⟩ := ih2 q hq
              rw [hnl] at e1
              rw [← Option.some.inj e1] at e2
              exact ⟨_, rfl, e2⟩
          · rw [← (Prod.mk.inj (Except.ok.inj ha)).1]
            exact ⟨fun nl hn c hc => List.mem_append_left _ (ih1 nl hn c hc), ih2⟩
  | @solve q o o' hh hu ih =>
    have hi := (inv_history dim solve _ _ (linHistory hh)).2 q rfl
    have hi' := (inv_history dim solve _ _ (linHistory (.solve hh hu))).2 q rfl
    have hk : Keeps o o' := by
      unfold NonLin.solveLinear at hu
      obtain ⟨p', _, e⟩ := bind_eq_ok hu
      rw [← Except.ok.inj e]
      exact ⟨rfl, rfl, rfl⟩
    rw [hk.1, hk.2.1, hk.2.2]
    refine ⟨ih.1, fun q' hq' => ?_⟩
    rw [← Option.some.inj hq', ← nFree_of_inv hi hi' rfl rfl]
    exact ih.2 q rfl
  | @cost p o o' c hh hc ih =>
    obtain ⟨hk, hp⟩ := costUpdate_keeps o o' c hc
    rw [hk.1, hk.2.1, hk.2.2, hp]
    exact ih
  | @scale q o o' hh hs ih =>
    have hi := (inv_history dim solve _ _ (linHistory hh)).2 q rfl
    have hi' := (inv_history dim solve _ _ (linHistory (.scale hh hs))).2 _ rfl
    obtain ⟨hk, _⟩ := scaleTimes_spec o o' ⟨q.times, linHistory hh⟩ hs
    have hl : o'.poly.times.length = q.times.length := by
      have h1 := hi.length
      have h2 := hi'.length
      simp only at h2
      omega
    rw [hk.1, hk.2.1, hk.2.2]
    refine ⟨ih.1, fun q' hq' => ?_⟩
    rw [← Option.some.inj hq', ← nFree_of_inv hi hi' rfl hl.symm]
    simp only
    rw [hl]
    exact ih.2 q rfl
  | @optimize q o o' code run hh hg ho ih =>
    have hi := (inv_history dim solve _ _ (linHistory hh)).2 q rfl
    have hi' := (inv_history dim solve _ _ (linHistory (.optimize run hh hg ho))).2 _ rfl
    obtain ⟨hk, _⟩ := optimize_spec run o o' code (linHistory hh) ho
    have hl : o'.poly.times.length = q.times.length := by
      have h1 := hi.length
      have h2 := hi'.length
      simp only at h2
      omega
    rw [hk.1, hk.2.1, hk.2.2]
    refine ⟨ih.1, fun q' hq' => ?_⟩
    rw [← Option.some.inj hq', ← nFree_of_inv hi hi' rfl hl.symm]
    simp only
    rw [hl]
    exact ih.2 q rfl

/-! ## Success -/

theorem answers_total {α : Type} (f : NonLin h → List ℝ → Bool → Res (NonLin h × α)) (I : NonLin h → Prop) (Q : List ℝ → Prop)
    (hard : List MagConstraint) (hf : ∀ o x, I o → Q x → ∃ o' a, f o x false = .ok (o', a) ∧ I o')
    (hc : ∀ o x, I o → ∀ c ∈ hard, ∃ o' v, evaluateMaximumMagnitudeConstraint rf o c x false = .ok (o', v) ∧ I o')
    (rs : List Request) (hr : ∀ r ∈ rs, match r with
      | .objective x g => Q x ∧ g = false
      | .constraint c x g => c ∈ hard ∧ Q x ∧ g = false) (o : NonLin h) (ho : I o) :
    ∃ o', rs.foldlM (answer rf f) o = .ok o' ∧ I o' := by
  induction rs generalizing o with
  | nil => exact ⟨o, rfl, ho⟩
  | cons r rs ih =>
    have h1 := hr r (by simp)
    rw [List.foldlM_cons]
    cases r with
    | objective x g =>
      obtain ⟨hq, rfl⟩ := h1
      obtain ⟨o1, a, e1, e2⟩ := hf o x ho hq
      unfold answer
      simp only
      rw [e1]
      exact ih (fun r hr' => hr r (by simp [hr'])) o1 e2
    | constraint c x g =>
      obtain ⟨hm, hq, rfl⟩ := h1
      obtain ⟨o1, v, e1, e2⟩ := hc o x ho c hm
      unfold answer
      simp only
      rw [e1]
      exact ih (fun r hr' => hr r (by simp [hr'])) o1 e2

/-- What a run of a gradient-free method keeps: constraints, the problem up to its times, and these in a set `T`. -/
structure RunInv (dim : ℕ) (solve : LinSolver ℝ) (q : Problem ℝ) (base : NonLin h) (T : List ℝ → Prop) (o : NonLin h) : Prop where
  keeps : Keeps base o
  nFree : o.poly.nFree = base.poly.nFree
  solved : ∃ ts, T ts ∧ ts.length = q.times.length ∧ Solved h dim solve { q with times := ts } o.poly

theorem constraint_total {q : Problem ℝ} {base o : NonLin h} {T : List ℝ → Prop} (hi : RunInv dim solve q base T o) (hq : q.times ≠ [])
    (hc : Searchable base) (x : List ℝ) (c : MagConstraint) (hm : c ∈ base.constraints) :
    ∃ o' v, evaluateMaximumMagnitudeConstraint rf o c x false = .ok (o', v) ∧ RunInv dim solve q base T o' := by
  obtain ⟨ts, h1, h2, h3⟩ := hi.solved
  have hne : ts ≠ [] := by
    intro e; rw [e] at h2; exact hq (List.length_eq_zero_iff.mp h2.symm)
  obtain ⟨e, l, he⟩ := computeMaximum_total rf h3.history hne c.derivative (hc c hm)
  obtain ⟨o', v, ho'⟩ := evaluateMax_total o c x e l he
  obtain ⟨_, _, e2, _⟩ := evaluateMax_ok o o' c x false v ho'
  refine ⟨o', v, ho', ?_⟩
  rw [e2]
  exact ⟨⟨hi.keeps.1, hi.keeps.2.1, hi.keeps.2.2⟩, hi.nFree, ts, h1, h2, h3⟩

theorem full_total {q : Problem ℝ} {base : NonLin h} {T : List ℝ → Prop} (hN : h + h ≤ 22) (hq : q.times ≠ []) (hc : Searchable base)
    (o : NonLin h) (hi : RunInv dim solve q base T o) (x : List ℝ) (hl : x.length = q.times.length + base.poly.nFree * dim)
    (hT : T (x.take q.times.length)) (ht : ∀ t ∈ x.take q.times.length, Poly.dblEps ≤ t) :
    ∃ o' v, objectiveFunctionTimeAndConstraints rf o x false = .ok (o', v) ∧ RunInv dim solve q base T o' := by
  obtain ⟨ts, h1, h2, h3⟩ := hi.solved
  have hne : ts ≠ [] := by
    intro e; rw [e] at h2; exact hq (List.length_eq_zero_iff.mp h2.symm)
  obtain ⟨o', v, e1, e2⟩ := objectiveFull_total (rf := rf) o h3.history hN hne (by unfold Searchable; rw [hi.keeps.2.1]; exact hc) x
    (by simp only; rw [h2, hi.nFree]; exact hl) (by simp only; rw [h2]; exact ht)
  obtain ⟨k1, k2⟩ := objectiveFull_spec o o' x false v h3.history e1
  simp only at k2
  rw [h2] at k2
  refine ⟨o', v, e1, hi.keeps.trans k1, e2.trans hi.nFree, _, hT, ?_, k2⟩
  rw [List.length_take]
  omega

theorem time_total {q : Problem ℝ} {base : NonLin h} {T : List ℝ → Prop} (hN : h + h ≤ 22) (hq : q.times ≠ []) (hc : Searchable base)
    (o : NonLin h) (hi : RunInv dim solve q base T o) (x : List ℝ) (hl : x.length = q.times.length) (hT : T x)
    (ht : ∀ t ∈ x, Poly.dblEps ≤ t) :
    ∃ o' v, objectiveFunctionTime rf solve o x false = .ok (o', v) ∧ RunInv dim solve q base T o' := by
  obtain ⟨ts, h1, h2, p0, h3, h4⟩ := hi.solved
  have hsol : Solved h dim solve { q with times := ts } o.poly := ⟨p0, h3, h4⟩
  have hne : ts ≠ [] := by
    intro e; rw [e] at h2; exact hq (List.length_eq_zero_iff.mp h2.symm)
  obtain ⟨o', v, e1, _⟩ := objectiveTime_total (rf := rf) o hsol.history hN hne (by unfold Searchable; rw [hi.keeps.2.1]; exact hc)
    (solvable_of_solved h3 h4) x (by simp only; rw [h2]; exact hl) ht
  obtain ⟨k1, k2, _⟩ := objectiveTime_spec o o' x false v hsol.history e1
  refine ⟨o', v, e1, hi.keeps.trans k1, ?_, x, hT, hl, k2⟩
  rw [← hi.nFree]
  exact nFree_of_inv ((inv_history dim solve _ _ k2.history).2 _ rfl) ((inv_history dim solve _ _ hsol.history).2 _ rfl) rfl
    (by simp only; omega)

theorem dblEps_le_tenth : (Poly.dblEps : ℝ) ≤ 1 / 10 := by unfold Poly.dblEps; norm_num

theorem hN_of_history {q : Problem ℝ} {p : LinOpt h ℝ} (hh : LinHistory h dim solve (some q) p) (hq : q.times ≠ []) :
    h + h ≤ 22 ∧ ∀ t ∈ q.times, Poly.dblEps ≤ t := by
  have hi := (inv_history dim solve _ _ hh).2 q rfl
  have hpos : 0 < q.times.length := List.length_pos_iff.mpr hq
  refine ⟨(hi.segment 0 _ (List.getElem?_eq_getElem hpos)).1, fun t ht => ?_⟩
  obtain ⟨i, hti⟩ := List.mem_iff_getElem?.mp ht
  exact (hi.segment i t hti).2.1

theorem forall2_min (ts x : List ℝ) (hF : List.Forall₂ (fun t0 t => min (1 / 10) t0 ≤ t) ts x) (ht : ∀ t ∈ ts, Poly.dblEps ≤ t) :
    ∀ t ∈ x, Poly.dblEps ≤ t := by
  induction hF with
  | nil => simp
  | @cons a b ts x hab _ ih =>
    intro t hm
    rcases List.mem_cons.mp hm with e | hm
    · rw [e]
      exact (le_min dblEps_le_tenth (ht a (by simp))).trans hab
    · exact ih (fun t ht' => ht t (by simp [ht'])) t hm

/-- The optimisation over times and free derivatives succeeds for every run of NLopt that obeys its contract. -/
theorem optimizeFull_total {q : Problem ℝ} (o o1 : NonLin h) (run : NloptRun) (hh : NLHistory h dim rf solve (some q) o) (hdim : 0 < dim)
    (hq : q.times ≠ []) (hm : FullMethod o.params.method) (hc : Searchable o) (hs : o.solveLinear solve = .ok o1)
    (hg : GoodRun solve o run) :
    ∃ o' code, o.optimize rf solve run = .ok (o', code) ∧ ∃ ts, List.Forall₂ (fun t0 t => min (1 / 10) t0 ≤ t) q.times ts ∧
      Solved h dim solve { q with times := ts } o'.poly := by
  have hl := linHistory hh
  obtain ⟨hN, hteps⟩ := hN_of_history hl hq
  obtain ⟨p, hp, e⟩ := bind_eq_ok hs
  have e := Except.ok.inj e
  obtain ⟨hhard, hsome⟩ := nlopt_history hh
  obtain ⟨nl, hnl, _⟩ := hsome q rfl
  let o2 : NonLin h := { o with poly := p, info := OptInfo.new }
  obtain ⟨pr, h1, h2, h3, h4, h5⟩ := fullProblem_spec o2 hdim hq hl hp
  have hpr : o1.fullProblem = .ok pr := by
    rw [← e]
    exact h1
  have hob := hg pr nl (.inl ⟨hm, o1, hs, hpr⟩) hnl
  have hdec : decide (o.params.method = .mellingerOuterLoop) = false := by
    rcases hm with hm | hm <;> rw [hm] <;> rfl
  rw [hdec] at hob
  let T : List ℝ → Prop := fun ts => List.Forall₂ (fun t0 t => min (1 / 10) t0 ≤ t) q.times ts
  have hstart : RunInv dim solve q o2 T o2 := by
    refine ⟨.refl _, rfl, q.times, ?_, rfl, _, hl, .inr hp⟩
    exact List.forall₂_same.mpr fun t _ => min_le_right _ _
  have hrun : ∃ o' res, runNlopt rf (objectiveFunctionTimeAndConstraints rf) run o2 = .ok (o', res) ∧ RunInv dim solve q o2 T o' := by
    unfold runNlopt
    rw [show o2.nlopt = some nl from hnl]
    simp only
    cases hsf : run.setupFails with
    | true => exact ⟨_, _, rfl, hstart⟩
    | false =>
      rcases hob with hob | ⟨hob, _⟩
      · rw [hsf] at hob; cases hob
      · obtain ⟨o', a1, a2⟩ := answers_total (rf := rf) (objectiveFunctionTimeAndConstraints rf) (RunInv dim solve q o2 T) (WithinBounds pr)
          nl.hard (fun o x hi hx => by
            obtain ⟨b1, b2⟩ := h5 x hx
            exact full_total (base := o2) (T := T) hN hq hc o hi x (by rw [b1, h3]) b2 (forall2_min _ _ b2 hteps))
          (fun o x hi c hm => constraint_total hi hq hc x c (hhard nl hnl c hm)) run.requests hob o2 hstart
        refine ⟨o', run.result, ?_, a2⟩
        simp only [Bool.false_eq_true, if_false, bind, Except.bind]
        rw [a1]
        rfl
  obtain ⟨o', res, r1, r2⟩ := hrun
  have hby : optimizeBy rf solve run o.params.method { o with info := OptInfo.new } = .ok (o', res.getD nloptFailure) := by
    have : optimizeTimeAndFreeConstraints rf solve run { o with info := OptInfo.new } = .ok (o', res.getD nloptFailure) := by
      unfold optimizeTimeAndFreeConstraints
      simp only [bind, Except.bind]
      rw [hp]
      simp only
      rw [show fullProblem ({ o with poly := p, info := OptInfo.new } : NonLin h) = .ok pr from h1]
      simp only
      rw [show runNlopt rf (objectiveFunctionTimeAndConstraints rf) run ({ o with poly := p, info := OptInfo.new } : NonLin h) =
        .ok (o', res) from r1]
      rfl
    unfold optimizeBy
    rcases hm with hm | hm <;> rw [hm] <;> exact this
  obtain ⟨ts, t1, _, t3⟩ := r2.solved
  refine ⟨{ o' with info := { o'.info with stoppingReason := res.getD nloptFailure } }, res.getD nloptFailure, ?_, ts, t1, t3⟩
  unfold optimize
  rw [hby]
  rfl

/-- The time-only optimisation succeeds, too. The times are those at the start or at least 0.1. -/
theorem optimizeTime_total {q : Problem ℝ} (o o1 : NonLin h) (run : NloptRun) (hh : NLHistory h dim rf solve (some q) o)
    (hq : q.times ≠ []) (hm : TimeMethod o.params.method) (hc : Searchable o) (hs : o.solveLinear solve = .ok o1)
    (hg : GoodRun solve o1 run) :
    ∃ o' code, o1.optimize rf solve run = .ok (o', code) ∧ ∃ ts, (ts = q.times ∨ ∀ t ∈ ts, 1 / 10 ≤ t) ∧
      Solved h dim solve { q with times := ts } o'.poly := by
  have hl := linHistory hh
  obtain ⟨hN, hteps⟩ := hN_of_history hl hq
  have hh1 : NLHistory h dim rf solve (some q) o1 := .solve hh hs
  obtain ⟨p, hp, e⟩ := bind_eq_ok hs
  have e := Except.ok.inj e
  have ep : o1.poly = p := by rw [← e]
  have em : o1.params = o.params := by rw [← e]
  have ec : o1.constraints = o.constraints := by rw [← e]
  obtain ⟨hhard, hsome⟩ := nlopt_history hh1
  obtain ⟨nl, hnl, _⟩ := hsome q rfl
  have hob := hg o1.timeProblem nl (.inr ⟨.inl (by rw [em]; exact hm), rfl⟩) hnl
  have hdec : decide (o1.params.method = .mellingerOuterLoop) = false := by
    rw [em]
    rcases hm with hm | hm <;> rw [hm] <;> rfl
  rw [hdec] at hob
  let o2 : NonLin h := { o1 with info := OptInfo.new }
  have hc2 : Searchable o2 := by unfold Searchable; rw [show o2.constraints = o.constraints from ec]; exact hc
  let T : List ℝ → Prop := fun ts => ts = q.times ∨ ∀ t ∈ ts, 1 / 10 ≤ t
  have hstart : RunInv dim solve q o2 T o2 := ⟨.refl _, rfl, q.times, .inl rfl, rfl, _, hl, .inr (by rw [show o2.poly = p from ep]; exact hp)⟩
  have htimes : o1.poly.times = q.times := LinHistory_times (linHistory hh1)
  have hwb : ∀ x, WithinBounds o1.timeProblem x → x.length = q.times.length ∧ ∀ t ∈ x, 1 / 10 ≤ t := by
    rintro x ⟨hxl, hxb⟩
    have hxl' : x.length = q.times.length := by rw [hxl, ← htimes]; rfl
    refine ⟨hxl', fun t ht => ?_⟩
    obtain ⟨i, hti⟩ := List.mem_iff_getElem?.mp ht
    have hlt := (List.getElem?_eq_some_iff.mp hti).1
    refine (hxb i t hti).1 _ ?_
    unfold timeProblem
    simp only [List.getElem?_map]
    rw [htimes, List.getElem?_eq_getElem (by omega)]
    rfl
  have hrun : ∃ o' res, runNlopt rf (objectiveFunctionTime rf solve) run o2 = .ok (o', res) ∧ RunInv dim solve q o2 T o' := by
    unfold runNlopt
    rw [show o2.nlopt = some nl from hnl]
    simp only
    cases hsf : run.setupFails with
    | true => exact ⟨_, _, rfl, hstart⟩
    | false =>
      rcases hob with hob | ⟨hob, _⟩
      · rw [hsf] at hob; cases hob
      · obtain ⟨o', a1, a2⟩ := answers_total (rf := rf) (objectiveFunctionTime rf solve) (RunInv dim solve q o2 T) (WithinBounds o1.timeProblem)
          nl.hard (fun o x hi hx => by
            obtain ⟨b1, b2⟩ := hwb x hx
            exact time_total (base := o2) (T := T) hN hq hc2 o hi x b1 (.inr b2)
              (fun t ht => dblEps_le_tenth.trans (b2 t ht)))
          (fun o x hi c hm => constraint_total hi hq hc2 x c
            (hhard nl hnl c hm)) run.requests hob o2 hstart
        refine ⟨o', run.result, ?_, a2⟩
        simp only [Bool.false_eq_true, if_false, bind, Except.bind]
        rw [a1]
        rfl
  obtain ⟨o', res, r1, r2⟩ := hrun
  have hby : optimizeBy rf solve run o1.params.method { o1 with info := OptInfo.new } = .ok (o', res.getD nloptFailure) := by
    have : optimizeTime rf solve run { o1 with info := OptInfo.new } = .ok (o', res.getD nloptFailure) := by
      unfold optimizeTime
      simp only [bind, Except.bind]
      rw [show runNlopt rf (objectiveFunctionTime rf solve) run ({ o1 with info := OptInfo.new } : NonLin h) = .ok (o', res) from r1]
      rfl
    unfold optimizeBy
    have hm' : TimeMethod o1.params.method := by rw [em]; exact hm
    rcases hm' with hm' | hm' <;> rw [hm'] <;> exact this
  obtain ⟨ts, t1, _, t3⟩ := r2.solved
  refine ⟨{ o' with info := { o'.info with stoppingReason := res.getD nloptFailure } }, res.getD nloptFailure, ?_, ts, t1, t3⟩
  unfold optimize
  rw [hby]
  rfl

/-- Reading the trajectory of an object that holds a solution. -/
theorem solved_trajectory {q : Problem ℝ} {p : LinOpt h ℝ} (hs : Solved h dim solve q p) (hq : q.times ≠ []) :
    ∃ tr, p.getTrajectory = .ok tr := by
  have hi := (inv_history dim solve _ _ hs.history).2 q rfl
  refine getTrajectory_total dim p hi.shape ?_
  intro e
  have := hi.segLength
  rw [e] at this
  exact hq (List.length_eq_zero_iff.mp this.symm)

end NonLin

end Verif
