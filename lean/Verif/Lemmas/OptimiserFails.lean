import Verif.Properties.PlannerOptimiser
import Verif.Lemmas.PlannerThreadsLive
import Verif.Lemmas.PlannerFail

/-! # How the planner's optimisation can fail -/

set_option linter.unusedSectionVars false

namespace Verif

open Spec Lemmas Properties

/-- It fails, if at all, by a failed check or a value that is not finite. -/
def Tame {α : Type} (x : Res α) : Prop := ∀ f, x = .error f → f = .check ∨ f = .nonfinite

theorem tame_ok {α : Type} (a : α) : Tame (.ok a : Res α) := fun _ h => by cases h
theorem tame_check {α : Type} : Tame (.error .check : Res α) := fun _ h => .inl (by cases h; rfl)
theorem tame_nonfinite {α : Type} : Tame (.error .nonfinite : Res α) := fun _ h => .inr (by cases h; rfl)

theorem tame_bind {α β : Type} {x : Res α} {f : α → Res β} (hx : Tame x) (hf : ∀ a, x = .ok a → Tame (f a)) : Tame (x >>= f) := by
  intro e he
  cases hxx : x with
  | error e' =>
    rw [hxx] at he
    exact hx e (by rw [hxx, Except.error.inj he])
  | ok a =>
    rw [hxx] at he
    exact hf a hxx e he

theorem tame_mapM {α β : Type} {f : α → Res β} (l : List α) (hf : ∀ a ∈ l, Tame (f a)) : Tame (l.mapM f) := by
  induction l with
  | nil => exact tame_ok _
  | cons a l ih =>
    rw [List.mapM_cons]
    refine tame_bind (hf a (by simp)) fun b _ => tame_bind (ih fun x hx => hf x (by simp [hx])) fun bs _ => tame_ok _

theorem tame_foldlM {α β : Type} {f : β → α → Res β} (I : β → Prop) (hf : ∀ b a, I b → Tame (f b a) ∧ ∀ b', f b a = .ok b' → I b') (l : List α) (b : β)
    (hb : I b) : Tame (l.foldlM f b) ∧ ∀ b', l.foldlM f b = .ok b' → I b' := by
  induction l generalizing b with
  | nil => exact ⟨tame_ok _, fun b' h => by cases h; exact hb⟩
  | cons a l ih =>
    rw [List.foldlM_cons]
    obtain ⟨h1, h2⟩ := hf b a hb
    refine ⟨tame_bind h1 fun b1 e => (ih b1 (h2 b1 e)).1, fun b' h => ?_⟩
    obtain ⟨b1, e, h⟩ := NonLin.bind_eq_ok h
    exact (ih b1 (h2 b1 e)).2 b' h

namespace LinOpt
variable {h dim : ℕ} {solve : LinSolver ℝ}

theorem tame_segmentMatrices (d : ℕ) (ts : List ℝ) (hd : d < h + h) (hN : h + h ≤ 22) : Tame (segmentMatrices (h := h) d ts) := by
  refine tame_mapM ts fun t _ => ?_
  split
  · rw [computeQuadraticCostJacobian_ok h d t hd hN]
    refine tame_bind (tame_ok _) fun _ _ => tame_bind ?_ fun A _ => tame_bind ?_ fun _ _ => tame_ok _
    · refine tame_bind (tame_mapM _ fun i hi => ?_) fun _ _ => tame_bind (tame_mapM _ fun i hi => ?_) fun _ _ => tame_ok _
      all_goals
        have := List.mem_range.mp hi
        unfold Poly.baseCoeffsWithTime
        rw [if_neg (by omega), if_neg (by unfold kMaxConvolutionSize; omega)]
        exact tame_ok _
    · unfold invertMappingMatrix
      simp only
      split
      · exact tame_nonfinite
      · exact tame_ok _
  · exact tame_check

theorem tame_updateSegmentTimes (o : LinOpt h ℝ) (ts : List ℝ) (hd : o.derivative.toNat < h + h) (hN : h + h ≤ 22) : Tame (o.updateSegmentTimes ts) := by
  unfold updateSegmentTimes
  split
  · exact tame_check
  · exact tame_bind (tame_segmentMatrices _ ts hd hN) fun _ _ => tame_ok _

theorem tame_setup (o : LinOpt h ℝ) (hs : o.dimension = dim) (hN : h + h ≤ 22) (q : Problem ℝ) (h0 : q.vertices ≠ [])
    (hv : ∀ v ∈ q.vertices, WellFormed v ∧ v.D = dim) : Tame (o.setupFromVertices q.vertices q.times q.derivative) := by
  have hc : ∀ v ∈ q.vertices, ∀ (k : Int) (c : List ℝ), k < h → v.getConstraint k = some c → c.length = dim := by
    intro v hm k c _ hc
    exact (constraint_length (hv v hm).1 hc).trans (hv v hm).2
  intro f hf
  have hf' := hf
  unfold setupFromVertices at hf
  split at hf
  · exact .inl (by cases hf; rfl)
  rename_i hd
  rw [if_neg (by simpa using h0)] at hf
  split at hf
  · exact .inl (by cases hf; rfl)
  rename_i hl
  obtain ⟨vs', hvs⟩ := mapM_total (filterVertex h o.dimension) q.vertices (fun v hm =>
    (filterVertex_ok_iff o.dimension v (hv v hm).1).mpr (by rw [hs]; exact hc v hm))
  simp only [bind, Except.bind] at hf
  rw [hvs] at hf
  simp only at hf
  split at hf
  · rename_i e he
    cases hf
    refine tame_updateSegmentTimes _ _ ?_ hN _ he
    simp only
    omega
  · rename_i o1 ho1
    exfalso
    obtain ⟨_, ms, hm, _⟩ := updateSegmentTimes_ok _ _ _ ho1
    have ht := (segmentMatrices_ok_iff (h := h) (K := ℝ) _ q.times (by simp only; omega) hN).mp ⟨ms, hm⟩
    obtain ⟨o', ho'⟩ := setup_total dim q o hs hN (fun v hm => (hv v hm).1) ⟨by omega, by omega, not_not.mp hl, hc, ht⟩
    rw [ho'] at hf'
    cases hf'

end LinOpt

theorem tame_estimate (vs : List (Vertex ℝ)) (vMax aMax : ℝ) (hv : ∀ v ∈ vs, ∃ p, v.getConstraint 0 = some p ∧ p.length = 3) :
    Tame (estimateSegmentTimes vs vMax aMax) ∧ ∀ ts, estimateSegmentTimes vs vMax aMax = .ok ts → ts.length + 1 = vs.length ∧ ts ≠ [] := by
  have loop : ∀ vs : List (Vertex ℝ), (∀ v ∈ vs, ∃ p, v.getConstraint 0 = some p ∧ p.length = 3) →
      Tame (nfabianLoop vMax aMax vs) ∧ ∀ ts, nfabianLoop vMax aMax vs = .ok ts → vs ≠ [] → ts.length + 1 = vs.length := by
    intro vs
    induction vs with
    | nil => intro _; exact ⟨tame_ok _, fun ts _ h => absurd rfl h⟩
    | cons v l ih =>
      intro hv
      cases l with
      | nil => exact ⟨tame_ok _, fun ts h _ => by cases h; rfl⟩
      | cons w l =>
        obtain ⟨i1, i2⟩ := ih fun x hx => hv x (by simp only [List.mem_cons] at hx ⊢; exact .inr hx)
        obtain ⟨p, hp, lp⟩ := hv v (by simp)
        obtain ⟨q, hq, lq⟩ := hv w (by simp)
        have ht : Tame (nfabianTime v w vMax aMax) := by
          unfold nfabianTime
          rw [hp, hq]
          simp only [Option.getD_some]
          unfold vsub
          rw [if_pos (by rw [lp, lq])]
          refine tame_bind (tame_ok _) fun d _ => ?_
          split
          · exact tame_nonfinite
          · split
            · split
              · exact tame_nonfinite
              · exact tame_ok _
            · exact tame_ok _
        refine ⟨tame_bind ht fun t _ => tame_bind i1 fun ts _ => tame_ok _, fun ts h _ => ?_⟩
        obtain ⟨t, _, h⟩ := NonLin.bind_eq_ok h
        obtain ⟨ts', h2, h⟩ := NonLin.bind_eq_ok h
        have := i2 ts' h2 (by simp)
        rw [← Except.ok.inj h]
        simp only [List.length_cons] at this ⊢
        omega
  unfold estimateSegmentTimes
  split
  · exact ⟨tame_check, fun ts h => by cases h⟩
  · rename_i hl
    obtain ⟨l1, l2⟩ := loop vs hv
    refine ⟨l1, fun ts h => ?_⟩
    have := l2 ts h (by rintro rfl; simp at hl)
    exact ⟨this, by rintro rfl; simp at this; omega⟩

namespace NonLin
open LinOpt
variable {h dim : ℕ} {rf : Poly.RootFinder ℝ} {solve : LinSolver ℝ}

/-- The state of the object while NLopt runs. -/
theorem tame_objective {q : Problem ℝ} {base : NonLin h} (hN : h + h ≤ 22) (hq : q.times ≠ []) (hc : Searchable base) (o : NonLin h)
    (hi : RunInv dim solve q base (fun _ => True) o) (x : List ℝ) (g : Bool) :
    Tame (objectiveFunctionTimeAndConstraints rf o x g) ∧
      ∀ r, objectiveFunctionTimeAndConstraints rf o x g = .ok r → RunInv dim solve q base (fun _ => True) r.1 := by
  obtain ⟨ts, _, h2, h3⟩ := hi.solved
  have hv := (inv_history dim solve _ _ h3.history).2 _ rfl
  have hlen : o.poly.nSegments = q.times.length := by rw [hv.nSegments]; exact h2
  by_cases hg : g = true
  · unfold objectiveFunctionTimeAndConstraints
    rw [if_pos hg]
    exact ⟨tame_check, fun r h => by cases h⟩
  obtain rfl : g = false := by simpa using hg
  by_cases hx : x.length = o.poly.nSegments + o.poly.nFree * o.poly.dimension
  swap
  · unfold objectiveFunctionTimeAndConstraints
    rw [if_neg (by simp), if_pos hx]
    exact ⟨tame_check, fun r h => by cases h⟩
  cases hu : o.poly.updateSegmentTimes (x.take o.poly.nSegments) with
  | error e =>
    have ht := tame_updateSegmentTimes o.poly (x.take o.poly.nSegments) (by rw [hv.derivative]; have := hv.range; simp only at this ⊢; omega) hN
    have heq : objectiveFunctionTimeAndConstraints rf o x false = .error e := by
      unfold objectiveFunctionTimeAndConstraints
      rw [if_neg (by simp), if_neg (not_not.mpr hx)]
      simp only [bind, Except.bind]
      rw [hu]
    rw [heq]
    exact ⟨fun f hf => by cases hf; exact ht e hu, fun r h => by cases h⟩
  | ok p1 =>
    obtain ⟨_, ms, hm, _⟩ := updateSegmentTimes_ok _ _ _ hu
    have ht := (segmentMatrices_ok_iff (h := h) (K := ℝ) _ _ (by rw [hv.derivative]; have := hv.range; simp only at this ⊢; omega) hN).mp ⟨ms, hm⟩
    rw [hlen] at ht
    obtain ⟨o', v, e1, e2⟩ := full_total (rf := rf) hN hq hc o hi x (by rw [hx, hlen, hi.nFree, hv.dimension]) trivial ht
    rw [e1]
    exact ⟨tame_ok _, fun r h => by cases h; exact e2⟩

theorem tame_constraint {q : Problem ℝ} {base : NonLin h} (hq : q.times ≠ []) (o : NonLin h) (hi : RunInv dim solve q base (fun _ => True) o)
    (c : MagConstraint) (x : List ℝ) (g : Bool) :
    Tame (evaluateMaximumMagnitudeConstraint rf o c x g) ∧
      ∀ r, evaluateMaximumMagnitudeConstraint rf o c x g = .ok r → RunInv dim solve q base (fun _ => True) r.1 := by
  obtain ⟨ts, h1, h2, h3⟩ := hi.solved
  have hv := (inv_history dim solve _ _ h3.history).2 _ rfl
  have hne : ts ≠ [] := by
    intro e; rw [e] at h2; exact hq (List.length_eq_zero_iff.mp h2.symm)
  refine ⟨?_, ?_⟩
  · unfold evaluateMaximumMagnitudeConstraint
    split
    · exact tame_check
    · refine tame_bind ?_ fun _ _ => tame_ok _
      by_cases hk : c.derivative + 1 < h + h
      · obtain ⟨e, l, he⟩ := computeMaximum_total rf h3.history hne c.derivative hk
        rw [he]
        exact tame_ok _
      · cases hs : o.poly.segments with
        | nil =>
          have := hv.segLength
          rw [hs] at this
          exact absurd (List.length_eq_zero_iff.mp this.symm) hne
        | cons s ss =>
          unfold computeMaximumOfMagnitude
          rw [hs]
          unfold magnitudeCandidates computeSegmentMaximumMagnitudeCandidates
          rw [if_pos hk]
          exact tame_check
  · rintro ⟨o', v⟩ ho'
    obtain ⟨_, _, e2, _⟩ := evaluateMax_ok o o' c x g v ho'
    simp only
    rw [e2]
    exact ⟨⟨hi.keeps.1, hi.keeps.2.1, hi.keeps.2.2⟩, hi.nFree, ts, h1, h2, h3⟩

/-- The optimisation over times and free derivatives, whatever NLopt does. -/
theorem tame_optimize {q : Problem ℝ} (o : NonLin h) (run : NloptRun) (hh : NLHistory h dim rf solve (some q) o) (hdim : 0 < dim)
    (hq : q.times ≠ []) (hm : FullMethod o.params.method) (hc : Searchable o) (o1 : NonLin h) (hs : o.solveLinear solve = .ok o1) :
    Tame (o.optimize rf solve run) ∧ ∀ r, o.optimize rf solve run = .ok r →
      ∃ ts, ts.length = q.times.length ∧ Solved h dim solve { q with times := ts } r.1.poly := by
  have hl := linHistory hh
  obtain ⟨hN, _⟩ := hN_of_history hl hq
  obtain ⟨p, hp, e⟩ := bind_eq_ok hs
  have e := Except.ok.inj e
  obtain ⟨_, hsome⟩ := nlopt_history hh
  obtain ⟨nl, hnl, _⟩ := hsome q rfl
  let o2 : NonLin h := { o with poly := p, info := OptInfo.new }
  obtain ⟨pr, h1, _⟩ := fullProblem_spec o2 hdim hq hl hp
  have hstart : RunInv dim solve q o2 (fun _ => True) o2 := ⟨.refl _, rfl, q.times, trivial, rfl, _, hl, .inr hp⟩
  have hfold := tame_foldlM (f := answer rf (objectiveFunctionTimeAndConstraints rf)) (RunInv dim solve q o2 (fun _ => True)) (fun b a hb => by
    cases a with
    | objective x g =>
      obtain ⟨t1, t2⟩ := tame_objective (rf := rf) (base := o2) hN hq hc b hb x g
      refine ⟨tame_bind t1 fun _ _ => tame_ok _, fun b' h => ?_⟩
      obtain ⟨r, h3, h4⟩ := bind_eq_ok h
      rw [← Except.ok.inj h4]
      exact t2 r h3
    | constraint c x g =>
      obtain ⟨t1, t2⟩ := tame_constraint (rf := rf) (base := o2) hq b hb c x g
      refine ⟨tame_bind t1 fun _ _ => tame_ok _, fun b' h => ?_⟩
      obtain ⟨r, h3, h4⟩ := bind_eq_ok h
      rw [← Except.ok.inj h4]
      exact t2 r h3) run.requests o2 hstart
  have hrun : Tame (runNlopt rf (objectiveFunctionTimeAndConstraints rf) run o2) ∧
      ∀ r, runNlopt rf (objectiveFunctionTimeAndConstraints rf) run o2 = .ok r → RunInv dim solve q o2 (fun _ => True) r.1 := by
    unfold runNlopt
    rw [show o2.nlopt = some nl from hnl]
    simp only
    split
    · exact ⟨tame_ok _, fun r h => by cases h; exact hstart⟩
    · refine ⟨tame_bind hfold.1 fun _ _ => tame_ok _, fun r h => ?_⟩
      obtain ⟨o3, h3, h4⟩ := bind_eq_ok h
      rw [← Except.ok.inj h4]
      exact hfold.2 o3 h3
  have hby : Tame (optimizeBy rf solve run o.params.method { o with info := OptInfo.new }) ∧
      ∀ r, optimizeBy rf solve run o.params.method { o with info := OptInfo.new } = .ok r → RunInv dim solve q o2 (fun _ => True) r.1 := by
    have : Tame (optimizeTimeAndFreeConstraints rf solve run { o with info := OptInfo.new }) ∧
        ∀ r, optimizeTimeAndFreeConstraints rf solve run { o with info := OptInfo.new } = .ok r → RunInv dim solve q o2 (fun _ => True) r.1 := by
      unfold optimizeTimeAndFreeConstraints
      simp only [bind, Except.bind]
      rw [hp]
      simp only
      rw [show fullProblem ({ o with poly := p, info := OptInfo.new } : NonLin h) = .ok pr from h1]
      simp only
      rw [show runNlopt rf (objectiveFunctionTimeAndConstraints rf) run ({ o with poly := p, info := OptInfo.new } : NonLin h) =
        runNlopt rf (objectiveFunctionTimeAndConstraints rf) run o2 from rfl]
      cases hr : runNlopt rf (objectiveFunctionTimeAndConstraints rf) run o2 with
      | error e' => exact ⟨fun f hf => by cases hf; exact hrun.1 _ hr, fun r h => by cases h⟩
      | ok r => exact ⟨tame_ok _, fun r' h => by cases h; exact hrun.2 r hr⟩
    unfold optimizeBy
    rcases hm with hm | hm <;> rw [hm] <;> exact this
  refine ⟨tame_bind hby.1 fun _ _ => tame_ok _, fun r h => ?_⟩
  obtain ⟨r', h3, h4⟩ := bind_eq_ok h
  obtain ⟨ts, _, t2, t3⟩ := (hby.2 r' h3).solved
  rw [← Except.ok.inj h4]
  exact ⟨ts, t2, t3⟩

end NonLin

namespace OptBackend
open LinOpt NonLin

/-- Vertices in space, each with a position. -/
def InSpace (vs : List (Vertex ℝ)) : Prop := ∀ v ∈ vs, WellFormed v ∧ v.D = 3 ∧ ∃ p, v.getConstraint 0 = some p

theorem inSpace_positions {vs : List (Vertex ℝ)} (hv : InSpace vs) : ∀ v ∈ vs, ∃ p, v.getConstraint 0 = some p ∧ p.length = 3 := by
  intro v hm
  obtain ⟨h1, h2, p, hp⟩ := hv v hm
  exact ⟨p, hp, (constraint_length h1 hp).trans h2⟩

theorem tame_linear (b : OptBackend) (vs : List (Vertex ℝ)) (speed : ℝ) (hv : InSpace vs) : Tame (b.linear vs speed) := by
  obtain ⟨e1, e2⟩ := tame_estimate vs speed b.aMax (inSpace_positions hv)
  refine tame_bind e1 fun ts hts => ?_
  obtain ⟨hl, hn⟩ := e2 ts hts
  have hne : vs ≠ [] := by rintro rfl; simp at hl
  refine tame_bind (tame_setup (LinOpt.init 5 ℝ 3) rfl (by omega) ⟨vs, ts, 2⟩ hne fun v hm => ⟨(hv v hm).1, (hv v hm).2.1⟩) fun o ho => ?_
  obtain ⟨hi, hf⟩ := setupFromVertices_ok 3 ⟨vs, ts, 2⟩ _ o ⟨rfl, by simp [LinOpt.init]⟩ ho
  obtain ⟨o', ho'⟩ := solve_total 3 ⟨vs, ts, 2⟩ b.solve o hi (List.length_pos_iff.mpr hn) (fun _ => by
    rw [hf]
    exact ⟨by simp [LinOpt.init], fun v hv => (List.mem_replicate.mp hv).2⟩)
  have hh : LinHistory 5 3 b.solve (some ⟨vs, ts, 2⟩) o := .setup ⟨vs, ts, 2⟩ .new ho
  obtain ⟨tr, htr⟩ := solved_trajectory ⟨o, hh, .inr ho'⟩ hn
  rw [ho']
  refine tame_bind (tame_ok _) fun a ha => ?_
  cases ha
  rw [htr]
  exact tame_ok _

theorem tame_add {h : ℕ} (o : NonLin h) (k : Int) (x : ℝ) (hs : o.params.useSoft = true) : Tame (o.addMaximumMagnitudeConstraint k x) := by
  unfold addMaximumMagnitudeConstraint
  split
  · exact tame_check
  · simp only
    exact tame_ok _

theorem tame_prepare (b : OptBackend) (vs : List (Vertex ℝ)) (speed : ℝ) (hv : InSpace vs) :
    Tame (b.prepare vs speed) ∧ ∀ o, b.prepare vs speed = .ok o → ∃ o1, o.solveLinear b.solve = .ok o1 := by
  obtain ⟨e1, e2⟩ := tame_estimate vs speed b.aMax (inSpace_positions hv)
  have setup : ∀ ts, estimateSegmentTimes vs speed b.aMax = .ok ts → Tame ((NonLin.init 5 3 params).setupFromVertices vs ts 2) := by
    intro ts hts
    obtain ⟨hl, hn⟩ := e2 ts hts
    have hne : vs ≠ [] := by rintro rfl; simp at hl
    exact tame_bind (tame_setup (LinOpt.init 5 ℝ 3) rfl (by omega) ⟨vs, ts, 2⟩ hne fun v hm => ⟨(hv v hm).1, (hv v hm).2.1⟩) fun o ho => tame_ok _
  refine ⟨tame_bind e1 fun ts hts => tame_bind (setup ts hts) fun o ho => ?_, fun o ho => ?_⟩
  · obtain ⟨p, _, e⟩ := setup_ok _ o _ _ _ ho
    have hp : o.params = params := by rw [e]; rfl
    refine tame_bind (tame_add o _ _ (by rw [hp]; rfl)) fun o2 ho2 => ?_
    have hp2 := (add_ok o o2.1 1 speed o2.2 ho2).2.2.1
    exact tame_bind (tame_add o2.1 _ _ (by rw [hp2, hp]; rfl)) fun _ _ => tame_ok _
  · unfold prepare at ho
    obtain ⟨ts, h0, ho⟩ := bind_eq_ok ho
    obtain ⟨o1, h1, ho⟩ := bind_eq_ok ho
    obtain ⟨o2, h2, ho⟩ := bind_eq_ok ho
    obtain ⟨o3, h3, ho⟩ := bind_eq_ok ho
    obtain ⟨hl, hn⟩ := e2 ts h0
    obtain ⟨p, hp, e⟩ := setup_ok _ o1 _ _ _ h1
    have a2 := add_ok o1 o2.1 1 speed o2.2 h2
    have a3 := add_ok o2.1 o3.1 2 b.aMax o3.2 h3
    have hpoly : o.poly = p := by
      rw [← Except.ok.inj ho, a3.2.2.2.1, a2.2.2.2.1, e]
    obtain ⟨hi, hf⟩ := setupFromVertices_ok 3 ⟨vs, ts, 2⟩ (LinOpt.init 5 ℝ 3) p ⟨rfl, by simp [LinOpt.init]⟩ hp
    obtain ⟨p', hp'⟩ := solve_total 3 ⟨vs, ts, 2⟩ b.solve p hi (List.length_pos_iff.mpr hn) (fun _ => by
      rw [hf]
      exact ⟨by simp [LinOpt.init], fun v hv => (List.mem_replicate.mp hv).2⟩)
    unfold NonLin.solveLinear
    rw [hpoly, hp']
    exact ⟨_, rfl⟩

theorem tame_nonlinear (b : OptBackend) (vs : List (Vertex ℝ)) (speed : ℝ) (hv : InSpace vs) : Tame (b.nonlinear vs speed) := by
  obtain ⟨h1, h2⟩ := tame_prepare b vs speed hv
  refine tame_bind h1 fun o ho => ?_
  obtain ⟨o1, ho1⟩ := h2 o ho
  obtain ⟨ts, hts, hh, hp, hc⟩ := prepare_history b vs speed o ho
  obtain ⟨hl, hn⟩ := (tame_estimate vs speed b.aMax (inSpace_positions hv)).2 ts hts
  obtain ⟨t1, t2⟩ := tame_optimize o (b.nlopt vs speed) hh (by omega) hn (by rw [hp]; exact .inl rfl) (by unfold Searchable; rw [hc]; simp) o1 ho1
  refine tame_bind t1 fun r hr => ?_
  obtain ⟨ts', hl', hs⟩ := t2 r hr
  obtain ⟨tr, htr⟩ := solved_trajectory hs (by simp only; intro e; rw [e] at hl'; exact hn (List.length_eq_zero_iff.mp hl'.symm))
  intro f hf
  rw [show r.1.getTrajectory = .ok tr from htr] at hf
  cases hf

theorem tame_env (b : OptBackend) (lineal : Bool) (vs : List (Vertex ℝ)) (speed : ℝ) (hv : InSpace vs) : Tame ((b.env lineal).optimize vs speed) := by
  cases lineal with
  | true => exact tame_linear b vs speed hv
  | false => exact tame_nonlinear b vs speed hv

end OptBackend

namespace Lemmas

variable {b : OptBackend} {lineal : Bool}

theorem handed_inSpace {s : Planner ℝ} (hw : WpInv s) (vs : List (Vertex ℝ)) (hvs : extractVertices s.next = .ok vs) : OptBackend.InSpace vs := by
  intro v hm
  obtain ⟨h1, h2⟩ := extractVertices_wellFormed s.next vs hvs hw.next v hm
  refine ⟨h1, h2, ?_⟩
  obtain ⟨i, hi⟩ := List.mem_iff_getElem?.mp hm
  have hl := (extractVertices_form _ _ hvs).1
  have hlt : i < s.next.length := by rw [← hl]; exact (List.getElem?_eq_some_iff.mp hi).1
  obtain ⟨v', e1, e2, _⟩ := extractVertices_position s.next vs hvs hw.next i _ (List.getElem?_eq_getElem hlt)
  rw [hi] at e1
  obtain rfl := Option.some.inj e1
  rw [e2 0 (.inr ⟨by omega, by omega⟩)]
  exact ⟨_, (hw.next _ (List.getElem_mem hlt)).2.2.1⟩

theorem compute_tame {s : Planner ℝ} (hc : Ctl s) (hw : WpInv s) {sp : ℝ} (hf : s.future = .running sp) : Tame (s.computeTrajectory (b.env lineal) sp) := by
  intro f he
  have hcomp : s.computing = true := by
    cases hcc : s.computing with
    | true => rfl
    | false => have := hc.idle hcc; rw [hf] at this; cases this
  obtain ⟨vs, h1, _, h3⟩ := computeTrajectory_fail _ (C85_segmentwise b lineal) s hw (hc.next2 (Or.inr hcomp)) sp f he
  exact OptBackend.tame_env b lineal vs sp (handed_inSpace hw vs h1) f h3

theorem micro_notFailed {e : Event ℝ} {s s' : Planner ℝ} (hc : Ctl s) (hw : WpInv s) (hn : s.future ≠ .failed) (h : Micro (b.env lineal) e s s') :
    s'.future ≠ .failed := by
  cases h with
  | asyncFail _ dt sp hf he =>
    rcases compute_tame hc hw hf _ he with h | h <;> cases h
  | apply _ s1 hp ha =>
    obtain ⟨_, d, r, rfl, _⟩ := applyAll_rel (fun _ _ => True) (fun _ => trivial) (fun _ _ _ _ _ => trivial)
      (fun _ _ _ _ _ => trivial) _ _ _ ha
    exact hn
  | takeOver => simp
  | launch => simp
  | asyncStart => simp
  | asyncFinish => simp
  | modify => exact hn
  | _ => exact hn

theorem reachable_notFailed {s : Planner ℝ} (h : Reachable (b.env lineal) s) : s.future ≠ .failed := by
  have : Ctl s ∧ WpInv s ∧ s.future ≠ .failed :=
    reachable_induction (b.env lineal) (fun s => Ctl s ∧ WpInv s ∧ s.future ≠ .failed) (fun v => ⟨ctl_init v, wp_init v, by simp [Planner.init]⟩)
      (fun e s s' hv hi hm => ⟨ctl_micro _ e s s' hi.1 hm, wp_micro _ e s s' hv hi.2.1 hm, micro_notFailed hi.1 hi.2.1 hi.2.2 hm⟩) s h
  exact this.2.2

theorem other_notFailed {p p' : Planner ℝ} (hc : Ctl p) (hw : WpInv p) (hn : p.future ≠ .failed) (h : OtherStep (b.env lineal) p p') : p'.future ≠ .failed := by
  cases h with
  | request => exact hn
  | belated hb => cases hb <;> exact hn
  | event e ho hv hs =>
    rcases step_micro' _ e _ _ hs with ⟨h, _⟩ | h | ⟨m, ⟨t, o, rfl⟩, _⟩
    · rw [h]; exact hn
    · exact micro_notFailed hc hw hn h
    · exact ho.elim

theorem aside_future {p p' : Planner ℝ} (h : Aside p p') : p'.future = p.future := by cases h <;> rfl

theorem interleaved_notFailed {f : Fine ℝ} (h : Interleaved (b.env lineal) f) : f.p.future ≠ .failed := by
  induction h with
  | init v => simp [Planner.init]
  | call k _ _ ih => exact ih
  | inside h0 hs ih =>
    cases hs with
    | own hown =>
      rcases own_future hown with ⟨new, h1, h2⟩ | ⟨_, h1, _⟩
      · rename_i f f'
        have hi := interleaved_inv (Interleaved.inside h0 (.own hown))
        have hh : Held f'.p := by
          obtain ⟨p, c⟩ := f'
          cases c <;> first | exact h2.elim | exact hi.2.1 | exact hi.2
        rw [hh.1]
        simp
      · rw [h1]; exact ih
    | other c ho =>
      rename_i p p'
      have hi := interleaved_inv h0
      by_cases htk : TakingOver c
      · have hh : Held p := by
          cases c <;> first | exact htk.elim | exact hi.2.1 | exact hi.2
        rw [aside_future (other_aside hh ho)]
        exact ih
      · have hs : Serialised (b.env lineal) p := by have hk := hi.1; rw [settled_eq (f := ⟨p, c⟩) htk] at hk; exact hk
        exact other_notFailed (serialised_ctl hs) (serialised_wp hs) ih ho

end Lemmas

end Verif
