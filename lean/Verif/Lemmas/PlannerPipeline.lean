import Verif.Lemmas.PlannerRequests

/-! # From the collected requests to the taken-over plan -/

set_option linter.unusedSectionVars false
set_option linter.unusedSimpArgs false

namespace Verif.Lemmas
open Verif Verif.Spec

variable {K : Type*} [Field K] [LinearOrder K] [IsStrictOrderedRing K] [FloorSemiring K]

theorem same_refl (w : Waypoint K) : SameWaypoint w w := ⟨rfl, rfl, fun _ => rfl⟩

theorem same_trans (a b c : Waypoint K) (h1 : SameWaypoint a b) (h2 : SameWaypoint b c) : SameWaypoint a c :=
  ⟨h2.1.trans h1.1, h2.2.1.trans h1.2.1, fun k => (h2.2.2 k).trans (h1.2.2 k)⟩

theorem same_copy (w : Waypoint K) : SameWaypoint w w.copy := ⟨rfl, rfl, fun _ => rfl⟩

theorem forall2_same_copy (ws : List (Waypoint K)) : List.Forall₂ SameWaypoint ws (ws.map (·.copy)) := by
  rw [List.forall₂_map_right_iff, List.forall₂_same]
  exact fun w _ => same_copy w

theorem planOf_same {from_ ws ws' : List (Waypoint K)} (h : PlanOf from_ ws) (h2 : List.Forall₂ SameWaypoint ws ws') : PlanOf from_ ws' := by
  obtain ⟨pre, kept, rfl, h⟩ := h
  obtain ⟨pre', kept', f1, f2, rfl⟩ := forall2_split h2
  have hnames : ∀ {l l' : List (Waypoint K)}, List.Forall₂ SameWaypoint l l' → l'.map (·.name) = l.map (·.name) := by
    intro l l' hf
    induction hf with
    | nil => rfl
    | cons hab _ ih => simp only [List.map_cons, ih, hab.1]
  refine ⟨pre', kept', rfl, ?_⟩
  rw [hnames f1]
  rcases h with ⟨h1, h3⟩ | ⟨h1, b, h3⟩
  · exact Or.inl ⟨h1, forall2_trans same_trans h3 f2⟩
  · exact Or.inr ⟨h1, b, forall2_trans same_trans h3 f2⟩

theorem assignTimes_same (segs : List (Segment K)) (g : K) (ws ws' : List (Waypoint K)) (i : ℕ) (h : assignTimes segs g ws i = .ok ws') :
    List.Forall₂ SameWaypoint ws ws' := by
  induction ws generalizing i ws' with
  | nil => rw [← Except.ok.inj h]; exact .nil
  | cons w ws ih =>
    simp only [assignTimes, bind, Except.bind] at h
    split at h
    · cases h
    · split at h
      · cases h
      · rename_i ws1 hw
        rw [← Except.ok.inj h]
        exact .cons ⟨rfl, rfl, fun _ => rfl⟩ (ih _ _ hw)

theorem stitchPoint_name (env : Env K) (s : Planner K) (traj : Trajectory K) (l : K) (d : Bool) (w : Waypoint K)
    (h : s.stitchPoint env traj l d = .ok w) : w.name = "stitching_point" := by
  have := stitchPoint_spec env s traj l d w h
  tauto

/-- A plan for the waypoints `ws` is in progress. -/
def Planning (ws : List (Waypoint K)) (s : Planner K) : Prop :=
  ((s.pc = .collected ∨ s.pc = .snapshotted) ∧ s.next = ws) ∨ ((s.pc = .planned ∨ s.computing = true) ∧ PlanOf ws s.next)

theorem planning_micro (env : Env K) (ws : List (Waypoint K)) (hne : ws ≠ []) (e : Event K) (s s' : Planner K) (hc : Ctl s) (hi : Planning ws s)
    (h : Micro env e s s') : Planning ws s' ∨ (TakesOver s s' ∧ PlanOf ws s'.dyn) := by
  have keep : ∀ s' : Planner K, s'.pc = s.pc → s'.computing = s.computing → s'.next = s.next → Planning ws s' := by
    intro s' h1 h2 h3
    unfold Planning
    rw [h1, h2, h3]; exact hi
  cases h with
  | takeOver _ _ new off hcomp hr he hfit =>
    right
    refine ⟨⟨hcomp, rfl⟩, ?_⟩
    rcases hi with ⟨hp, _⟩ | ⟨_, hp⟩
    · have := hc.quiet (by rcases hp with hp | hp <;> rw [hp] <;> decide) (by rcases hp with hp | hp <;> rw [hp] <;> decide)
        (by rcases hp with hp | hp <;> rw [hp] <;> decide)
      rw [hcomp] at this; cases this
    · exact planOf_same hp (forall2_same_copy _)
  | collect _ ws' hp hw =>
    exfalso
    rcases hi with ⟨h1 | h1, _⟩ | ⟨h1 | h1, _⟩
    · rw [hp] at h1; cases h1
    · rw [hp] at h1; cases h1
    · rw [hp] at h1; cases h1
    · have := hc.quiet (by rw [hp]; decide) (by rw [hp]; decide) (by rw [hp]; decide)
      rw [h1] at this; cases this
  | goCollect _ hp hg hz hcomp =>
    exfalso
    rcases hi with ⟨h1 | h1, _⟩ | ⟨h1 | h1, _⟩
    · rw [hp] at h1; cases h1
    · rw [hp] at h1; cases h1
    · rw [hp] at h1; cases h1
    · rw [h1] at hcomp; cases hcomp
  | goApply _ hp hm hcomp hno =>
    exfalso
    rcases hi with ⟨h1 | h1, _⟩ | ⟨h1 | h1, _⟩
    · rw [hp] at h1; cases h1
    · rw [hp] at h1; cases h1
    · rw [hp] at h1; cases h1
    · rw [h1] at hcomp; cases hcomp
  | apply _ s2 hp ha =>
    exfalso
    rcases hi with ⟨h1 | h1, _⟩ | ⟨h1 | h1, _⟩
    · rw [hp] at h1; cases h1
    · rw [hp] at h1; cases h1
    · rw [hp] at h1; cases h1
    · have := hc.quiet (by rw [hp]; decide) (by rw [hp]; decide) (by rw [hp]; decide)
      rw [h1] at this; cases this
  | nothingToPlan _ hp hn =>
    exfalso
    rcases hi with ⟨_, h1⟩ | ⟨h1 | h1, _⟩
    · rw [h1] at hn; exact hne hn
    · rw [hp] at h1; cases h1
    · have := hc.quiet (by rw [hp]; decide) (by rw [hp]; decide) (by rw [hp]; decide)
      rw [h1] at this; cases this
  | snapshot _ hp hn =>
    left; left
    rcases hi with ⟨_, h1⟩ | ⟨h1 | h1, _⟩
    · exact ⟨Or.inr rfl, h1⟩
    · rw [hp] at h1; cases h1
    · have := hc.quiet (by rw [hp]; decide) (by rw [hp]; decide) (by rw [hp]; decide)
      rw [h1] at this; cases this
  | stitch _ ws' hp hs hw =>
    left; right
    refine ⟨Or.inl rfl, ?_⟩
    rcases hi with ⟨_, h1⟩ | ⟨h1 | h1, _⟩
    · rw [h1] at hw
      obtain ⟨traj, w0, w1, _, e0, e1, rfl⟩ := stitch_form env s ws ws' hw
      refine ⟨[w0, w1], _, rfl, Or.inr ⟨?_,
        s.newParams.lastLocal + s.params.tOffset + 5 * s.computationTime + 5 * s.computationTime + s.params.gtlg, ?_⟩⟩
      · simp [stitchPoint_name env s traj _ _ _ e0, stitchPoint_name env s traj _ _ _ e1]
      · have : (fun w : Waypoint K => decide (w.time ≤ 0 ∨
            s.newParams.lastLocal + s.params.tOffset + 5 * s.computationTime + 5 * s.computationTime + s.params.gtlg ≤ w.time)) =
            fun w => !decide (w.time < s.newParams.lastLocal + s.params.tOffset + 5 * s.computationTime + 5 * s.computationTime
              + s.params.gtlg ∧ w.time > 0) := by
          funext w
          rw [← decide_not, decide_eq_decide, not_and_or, not_lt, gt_iff_lt, not_lt, or_comm]
        rw [this]
        exact forall2_same_copy _
    · rw [hp] at h1; cases h1
    · have := hc.quiet (by rw [hp]; decide) (by rw [hp]; decide) (by rw [hp]; decide)
      rw [h1] at this; cases this
  | scratch _ ws' hp hs hw =>
    left; right
    refine ⟨Or.inl rfl, ?_⟩
    rcases hi with ⟨_, h1⟩ | ⟨h1 | h1, _⟩
    · rw [h1] at hw
      obtain ⟨w, rfl, _, _, hwname, _⟩ := appendDrone_spec s ws ws' hw
      refine ⟨[w], ws, rfl, Or.inl ⟨?_, List.forall₂_same.mpr (fun w _ => same_refl w)⟩⟩
      simp [hwname]
    · rw [hp] at h1; cases h1
    · have := hc.quiet (by rw [hp]; decide) (by rw [hp]; decide) (by rw [hp]; decide)
      rw [h1] at this; cases this
  | planned _ hp =>
    left; right
    rcases hi with ⟨h1 | h1, _⟩ | ⟨_, h2⟩
    · rw [hp] at h1; cases h1
    · rw [hp] at h1; cases h1
    · exact ⟨Or.inr rfl, h2⟩
  | launch _ hp =>
    left; right
    rcases hi with ⟨h1 | h1, _⟩ | ⟨_, h2⟩
    · rw [hp] at h1; cases h1
    · rw [hp] at h1; cases h1
    · exact ⟨Or.inr (hc.launching hp).1, h2⟩
  | launched _ hp =>
    left; right
    rcases hi with ⟨h1 | h1, _⟩ | ⟨h1 | h1, h2⟩
    · rw [hp] at h1; cases h1
    · rw [hp] at h1; cases h1
    · rw [hp] at h1; cases h1
    · exact ⟨Or.inr h1, h2⟩
  | asyncFinish _ _ sp tr ws' hf hco =>
    left; right
    have hcomp : s.computing = true := by
      by_contra hh
      rw [hc.idle (by simpa using hh)] at hf; cases hf
    rcases hi with ⟨hp, _⟩ | ⟨_, h2⟩
    · have := hc.quiet (by rcases hp with hp | hp <;> rw [hp] <;> decide) (by rcases hp with hp | hp <;> rw [hp] <;> decide)
        (by rcases hp with hp | hp <;> rw [hp] <;> decide)
      rw [hcomp] at this; cases this
    · refine ⟨Or.inr hcomp, ?_⟩
      obtain ⟨vs, _, _, _, ha⟩ := computeTrajectory_form env s sp tr ws' hco
      exact planOf_same h2 (assignTimes_same _ _ _ _ _ ha)
  | asyncStart _ hf => exact Or.inl (keep _ rfl rfl rfl)
  | asyncFail _ _ sp hf hco => exact Or.inl (keep _ rfl rfl rfl)
  | _ => exact Or.inl (keep _ rfl rfl rfl)

theorem evalTime_takes (env : Env K) (t : K) (o : Bool) (m s' : Planner K) (hm : m.computing = false)
    (h : Micro env (.evaluate t o false) m s') : s'.computing = false ∧ s'.dyn = m.dyn := by
  cases h with
  | takeOver _ _ new off hcomp hr he hfit => rw [hm] at hcomp; cases hcomp
  | evalTime _ _ _ ht => exact ⟨hm, rfl⟩

theorem micro_takes (env : Env K) (e : Event K) (s s' : Planner K) (hc : Ctl s) (h : Micro env e s s') (ht : TakesOver s s') :
    (s.pc ≠ .collected ∧ s.pc ≠ .snapshotted ∧ s.pc ≠ .planned) ∧ s'.pc = s.pc := by
  obtain ⟨h1, h2⟩ := ht
  have hq : s.pc ≠ .collected ∧ s.pc ≠ .snapshotted ∧ s.pc ≠ .planned := by
    refine ⟨?_, ?_, ?_⟩ <;> intro hp <;>
      have := hc.quiet (by rw [hp]; decide) (by rw [hp]; decide) (by rw [hp]; decide) <;> rw [h1] at this <;> cases this
  cases h with
  | takeOver _ _ new off hcomp hr he hfit => exact ⟨hq, rfl⟩
  | apply _ s2 hp ha =>
    have := hc.quiet (by rw [hp]; decide) (by rw [hp]; decide) (by rw [hp]; decide)
    rw [h1] at this; cases this
  | planned _ hp => cases h2
  | setWaypoints _ ws => exact absurd (h1.symm.trans h2) (by decide)
  | append _ w => exact absurd (h1.symm.trans h2) (by decide)
  | modify _ n p g => exact absurd (h1.symm.trans h2) (by decide)
  | setSpeed _ v => exact absurd (h1.symm.trans h2) (by decide)
  | vehicle _ v => exact absurd (h1.symm.trans h2) (by decide)
  | _ => simp only [] at h2; exact absurd (h1.symm.trans h2) (by decide)

theorem planning_micro' (env : Env K) (ws : List (Waypoint K)) (hne : ws ≠ []) (e : Event K) (s s' : Planner K) (hc : Ctl s) (hi : Planning ws s)
    (h : Micro env e s s') : (Planning ws s' ∧ ¬ TakesOver s s') ∨ (TakesOver s s' ∧ PlanOf ws s'.dyn) := by
  rcases planning_micro env ws hne e s s' hc hi h with hp | hp
  · left
    refine ⟨hp, fun ht => ?_⟩
    obtain ⟨⟨a, b, c⟩, hpc⟩ := micro_takes env e s s' hc h ht
    rcases hp with ⟨hp | hp, _⟩ | ⟨hp | hp, _⟩
    · exact a (hpc.symm.trans hp)
    · exact b (hpc.symm.trans hp)
    · exact c (hpc.symm.trans hp)
    · rw [ht.2] at hp; cases hp
  · exact Or.inr hp

theorem planning_step (env : Env K) (ws : List (Waypoint K)) (hne : ws ≠ []) (e : Event K) (s s' : Planner K) (hc : Ctl s) (hi : Planning ws s)
    (h : s.step env e = .ok (some s')) : (Planning ws s' ∧ ¬ TakesOver s s') ∨ (TakesOver s s' ∧ PlanOf ws s'.dyn) := by
  rcases step_micro' env e s s' h with ⟨rfl, _⟩ | h | ⟨m, ⟨t, o, rfl⟩, h1, h2⟩
  · exact Or.inl ⟨hi, fun ht => absurd (ht.1.symm.trans ht.2) (by decide)⟩
  · exact planning_micro' env ws hne e s s' hc hi h
  · rcases planning_micro' env ws hne _ s m hc hi h1 with ⟨h, hn⟩ | ⟨⟨ha, hb⟩, h⟩
    · rcases planning_micro' env ws hne _ m s' (ctl_micro env _ s m hc h1) h h2 with ⟨h', hn'⟩ | ⟨⟨ha, hb⟩, h'⟩
      · left
        refine ⟨h', fun ht => ?_⟩
        cases hm : m.computing with
        | false => exact hn ⟨ht.1, hm⟩
        | true => exact hn' ⟨hm, ht.2⟩
      · right
        refine ⟨⟨?_, hb⟩, h'⟩
        cases h1 with
        | takeOver _ _ new off hcomp hr he hfit => exact hcomp
        | evalTime _ _ _ ht => exact ha
    · obtain ⟨k1, k2⟩ := evalTime_takes env t o m s' hb h2
      exact Or.inr ⟨⟨ha, k1⟩, by rw [k2]; exact h⟩

theorem ctl_step (env : Env K) (e : Event K) (s s' : Planner K) (hc : Ctl s) (h : s.step env e = .ok (some s')) : Ctl s' := by
  rcases step_micro env e s s' h with rfl | h | ⟨m, h1, h2⟩
  · exact hc
  · exact ctl_micro env e s s' hc h
  · exact ctl_micro env e m s' (ctl_micro env e s m hc h1) h2

theorem planning_run (env : Env K) (ws : List (Waypoint K)) (hne : ws ≠ []) (s s' : Planner K) (es : List (Event K)) (hc : Ctl s) (hi : Planning ws s)
    (h : RunBefore env s es s') : Planning ws s' ∧ Ctl s' := by
  induction h with
  | nil => exact ⟨hi, hc⟩
  | snoc e _ hs hn ih =>
    refine ⟨?_, ctl_step env e _ _ ih.2 hs⟩
    rcases planning_step env ws hne e _ _ ih.2 ih.1 hs with h | h
    · exact h.1
    · exact absurd h.1 hn

theorem runWhile_run (ok : Planner K → Event K → Planner K → Prop) (env : Env K) (s s' : Planner K) (es : List (Event K))
    (h : RunWhile ok env s es s') : Run env s es s' := by
  induction h with
  | nil => exact .nil
  | snoc e _ hs _ ih => exact .snoc e ih hs

theorem runR_append (ok : Planner K → Event K → Planner K → Prop) (env : Env K) (s0 s1 s : Planner K) (es1 es2 : List (Event K))
    (g1 : Requests K) (h1 : RunR env s0 es1 g1 s1) (h2 : RunWhile ok env s1 es2 s) : ∃ g, RunR env s0 (es1 ++ es2) g s := by
  induction h2 with
  | nil => exact ⟨g1, by simpa using h1⟩
  | snoc e _ hs _ ih =>
    obtain ⟨g, hg⟩ := ih
    exact ⟨_, by rw [← List.append_assoc]; exact .snoc e hg hs⟩

theorem lastUpdate_append (a b : List (String × V3 K)) (n : String) (p : V3 K) (h : lastUpdate b n = some p) : lastUpdate (a ++ b) n = some p := by
  unfold lastUpdate at h ⊢
  rw [List.filter_append]
  cases hb : (b.filter fun u => u.1 = n).getLast? with
  | none => rw [hb] at h; cases h
  | some x =>
    rw [hb] at h
    rw [List.getLast?_append, hb]
    exact h

/-- Requests pending after a stretch of history without collecting, applying and `setWaypoints`. -/
theorem runR_stretch (env : Env K) (s0 s1 s : Planner K) (es1 es2 : List (Event K)) (g1 : Requests K) (h1 : RunR env s0 es1 g1 s1)
    (h2 : RunWhile (fun s e _ => ¬ Collects s e ∧ ¬ Applies s e ∧ ∀ ws, e ≠ .setWaypoints ws) env s1 es2 s) :
    ∃ g, RunR env s0 (es1 ++ es2) g s ∧ g.updates = g1.updates ++ updatesIn es2 ∧ (∀ w ∈ g1.appended, w ∈ g.appended) ∧ g.route = g1.route := by
  induction h2 with
  | nil => exact ⟨g1, by simpa using h1, by simp [updatesIn], fun _ h => h, rfl⟩
  | snoc e _ hs hok ih =>
    rename_i es' s' s'' _
    obtain ⟨g, hg, hu, ha, hrt⟩ := ih
    refine ⟨_, by rw [← List.append_assoc]; exact .snoc e hg hs, ?_⟩
    obtain ⟨hc, hap, hset⟩ := hok
    have hupd : updatesIn (es' ++ [e]) = updatesIn es' ++ updatesIn [e] := by simp [updatesIn]
    rw [hupd, ← List.append_assoc, ← hu]
    cases e with
    | setWaypoints ws => exact absurd rfl (hset ws)
    | appendWaypoint w =>
      exact ⟨by simp [Requests.after, updatesIn], fun x hx => by simp [Requests.after, ha x hx], hrt⟩
    | modifyWaypoint n p b => exact ⟨by simp [Requests.after, updatesIn], ha, hrt⟩
    | modifyWaypoints ms => exact ⟨by simp [Requests.after, updatesIn], ha, hrt⟩
    | worker =>
      have e1 : s'.pc ≠ .collect := fun h => hc ⟨rfl, h⟩
      have e2 : s'.pc ≠ .apply := fun h => hap ⟨rfl, h⟩
      simp only [Requests.after, if_neg e1, if_neg e2]
      exact ⟨by simp [updatesIn], ha, hrt⟩
    | _ => exact ⟨by simp [Requests.after, updatesIn], ha, hrt⟩

/-- With no request flagged and nothing in progress, the planner stays idle until the next request. -/
def Asleep (s : Planner K) : Prop := (s.pc = .top ∨ s.pc = .apply) ∧ s.computing = false ∧ s.generateNew = false

theorem asleep_micro (env : Env K) (e : Event K) (s s' : Planner K) (he : ¬ IsRequest e) (hi : Asleep s) (h : Micro env e s s') :
    Asleep s' ∧ s'.toAdd = s.toAdd ∧ s'.toSet = s.toSet := by
  obtain ⟨hp, hcomp, hg⟩ := hi
  cases h with
  | setWaypoints _ ws => exact absurd trivial he
  | append _ w => exact absurd trivial he
  | modify _ n p g => exact absurd trivial he
  | modifyMany _ ms => exact absurd trivial he
  | takeOver _ _ new off hcomp' hr he hfit => rw [hcomp] at hcomp'; cases hcomp'
  | goCollect _ _ hg' _ _ => rw [hg] at hg'; cases hg'
  | goApply _ _ _ _ _ => exact ⟨⟨Or.inr rfl, hcomp, hg⟩, rfl, rfl⟩
  | collect _ ws hp' _ => rcases hp with hp | hp <;> rw [hp] at hp' <;> cases hp'
  | nothingToPlan _ hp' _ => rcases hp with hp | hp <;> rw [hp] at hp' <;> cases hp'
  | snapshot _ hp' _ => rcases hp with hp | hp <;> rw [hp] at hp' <;> cases hp'
  | stitch _ ws hp' _ _ => rcases hp with hp | hp <;> rw [hp] at hp' <;> cases hp'
  | scratch _ ws hp' _ _ => rcases hp with hp | hp <;> rw [hp] at hp' <;> cases hp'
  | planned _ hp' => rcases hp with hp | hp <;> rw [hp] at hp' <;> cases hp'
  | launch _ hp' => rcases hp with hp | hp <;> rw [hp] at hp' <;> cases hp'
  | launched _ hp' => rcases hp with hp | hp <;> rw [hp] at hp' <;> cases hp'
  | apply _ s2 hp' ha =>
    obtain ⟨_, d, r, rfl, _⟩ := applyAll_rel (fun _ _ => True) (fun _ => trivial) (fun _ _ _ _ _ => trivial)
      (fun _ _ _ _ _ => trivial) _ s s2 ha
    exact ⟨⟨Or.inl rfl, hcomp, hg⟩, rfl, rfl⟩
  | asyncStart _ hf => exact ⟨⟨hp, hcomp, hg⟩, rfl, rfl⟩
  | asyncFinish _ _ sp tr ws hf hco => exact ⟨⟨hp, hcomp, hg⟩, rfl, rfl⟩
  | asyncFail _ _ sp hf hco => exact ⟨⟨hp, hcomp, hg⟩, rfl, rfl⟩
  | evalTime _ t o ht => exact ⟨⟨hp, hcomp, hg⟩, rfl, rfl⟩
  | setSpeed _ v => exact ⟨⟨hp, hcomp, hg⟩, rfl, rfl⟩
  | clearRegenerated _ => exact ⟨⟨hp, hcomp, hg⟩, rfl, rfl⟩
  | vehicle _ v => exact ⟨⟨hp, hcomp, hg⟩, rfl, rfl⟩

theorem asleep_step (env : Env K) (e : Event K) (s s' : Planner K) (he : ¬ IsRequest e) (hi : Asleep s)
    (h : s.step env e = .ok (some s')) : Asleep s' ∧ s'.toAdd = s.toAdd ∧ s'.toSet = s.toSet := by
  rcases step_micro env e s s' h with rfl | h | ⟨m, h1, h2⟩
  · exact ⟨hi, rfl, rfl⟩
  · exact asleep_micro env e s s' he hi h
  · obtain ⟨a, b, c⟩ := asleep_micro env e s m he hi h1
    obtain ⟨a', b', c'⟩ := asleep_micro env e m s' he a h2
    exact ⟨a', b'.trans b, c'.trans c⟩

/-- A request is flagged and will be collected. -/
def Flagged (s : Planner K) : Prop := (s.pc = .top ∨ s.pc = .apply ∨ s.pc = .collect) ∧ s.computing = false ∧ s.generateNew = true

theorem flagged_micro (env : Env K) (e : Event K) (s s' : Planner K) (hno : ∀ n p, e ≠ .modifyWaypoint n p false) (hcol : ¬ Collects s e)
    (hi : Flagged s) (h : Micro env e s s') : Flagged s' := by
  obtain ⟨hp, hcomp, hg⟩ := hi
  cases h with
  | setWaypoints _ ws => exact ⟨hp, hcomp, rfl⟩
  | append _ w => exact ⟨hp, hcomp, rfl⟩
  | modify _ n p g =>
    cases g with
    | true => exact ⟨hp, hcomp, rfl⟩
    | false => exact absurd rfl (hno n p)
  | modifyMany _ ms => exact ⟨hp, hcomp, rfl⟩
  | takeOver _ _ new off hcomp' hr he hfit => rw [hcomp] at hcomp'; cases hcomp'
  | goCollect _ _ hg' _ _ => exact ⟨Or.inr (Or.inr rfl), hcomp, hg⟩
  | goApply _ _ _ _ _ => exact ⟨Or.inr (Or.inl rfl), hcomp, hg⟩
  | collect _ ws hp' _ => exact absurd ⟨rfl, hp'⟩ hcol
  | nothingToPlan _ hp' _ => rcases hp with hp | hp | hp <;> rw [hp] at hp' <;> cases hp'
  | snapshot _ hp' _ => rcases hp with hp | hp | hp <;> rw [hp] at hp' <;> cases hp'
  | stitch _ ws hp' _ _ => rcases hp with hp | hp | hp <;> rw [hp] at hp' <;> cases hp'
  | scratch _ ws hp' _ _ => rcases hp with hp | hp | hp <;> rw [hp] at hp' <;> cases hp'
  | planned _ hp' => rcases hp with hp | hp | hp <;> rw [hp] at hp' <;> cases hp'
  | launch _ hp' => rcases hp with hp | hp | hp <;> rw [hp] at hp' <;> cases hp'
  | launched _ hp' => rcases hp with hp | hp | hp <;> rw [hp] at hp' <;> cases hp'
  | apply _ s2 hp' ha =>
    obtain ⟨_, d, r, rfl, _⟩ := applyAll_rel (fun _ _ => True) (fun _ => trivial) (fun _ _ _ _ _ => trivial)
      (fun _ _ _ _ _ => trivial) _ s s2 ha
    exact ⟨Or.inl rfl, hcomp, hg⟩
  | asyncStart _ hf => exact ⟨hp, hcomp, hg⟩
  | asyncFinish _ _ sp tr ws hf hco => exact ⟨hp, hcomp, hg⟩
  | asyncFail _ _ sp hf hco => exact ⟨hp, hcomp, hg⟩
  | evalTime _ t o ht => exact ⟨hp, hcomp, hg⟩
  | setSpeed _ v => exact ⟨hp, hcomp, hg⟩
  | clearRegenerated _ => exact ⟨hp, hcomp, hg⟩
  | vehicle _ v => exact ⟨hp, hcomp, hg⟩

theorem flagged_step (env : Env K) (e : Event K) (s s' : Planner K) (hno : ∀ n p, e ≠ .modifyWaypoint n p false) (hcol : ¬ Collects s e)
    (hi : Flagged s) (h : s.step env e = .ok (some s')) : Flagged s' := by
  rcases step_micro' env e s s' h with ⟨rfl, _⟩ | h | ⟨m, ⟨t, o, rfl⟩, h1, h2⟩
  · exact hi
  · exact flagged_micro env e s s' hno hcol hi h
  · exact flagged_micro env _ m s' hno (fun h => by cases h.1) (flagged_micro env _ s m hno hcol hi h1) h2

end Verif.Lemmas
