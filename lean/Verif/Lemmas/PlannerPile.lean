import Verif.Spec.PlannerPile
import Verif.Lemmas.PlannerStitch

/-! # Counting the points the planner made itself (lemmas for C147) -/

set_option linter.unusedSectionVars false

namespace Verif.Lemmas
open Verif Verif.Spec

variable {K : Type*} [Field K] [LinearOrder K] [IsStrictOrderedRing K] [FloorSemiring K]

theorem plannerPoints_names {ws ws' : List (Waypoint K)} (h : ws'.map (·.name) = ws.map (·.name)) : plannerPoints ws' = plannerPoints ws := by
  have e : ∀ l : List (Waypoint K), plannerPoints l = (l.map (·.name)).countP fun n => decide (PlannerName n) := by
    intro l; rw [List.countP_map]; rfl
  rw [e, e, h]

theorem plannerPoints_copy (ws : List (Waypoint K)) : plannerPoints (ws.map (·.copy)) = plannerPoints ws :=
  plannerPoints_names (by rw [List.map_map]; rfl)

theorem plannerPoints_none {ws : List (Waypoint K)} (h : ∀ w ∈ ws, ¬ PlannerName w.name) : plannerPoints ws = 0 := by
  unfold plannerPoints
  rw [List.countP_eq_zero]
  intro w hw
  simpa using h w hw

theorem plannerPoints_cons_le (w : Waypoint K) (ws : List (Waypoint K)) : plannerPoints (w :: ws) ≤ plannerPoints ws + 1 := by
  unfold plannerPoints
  rw [List.countP_cons]
  split <;> omega

theorem resetAll_names (ms : List (String × V3 K)) (ws ws' : List (Waypoint K)) (h : resetAll ms ws = .ok ws') :
    ws'.map (·.name) = ws.map (·.name) := by
  induction ms generalizing ws with
  | nil => rw [← Except.ok.inj h]
  | cons m ms ih =>
    obtain ⟨n, p⟩ := m
    simp only [resetAll, bind, Except.bind] at h
    cases hr : resetThrough n p ws with
    | error e => rw [hr] at h; cases h
    | ok ws1 =>
      rw [hr] at h
      rw [ih ws1 h]
      refine forall2_map_eq (fun a b hab => ?_) (resetThrough_rel n p ws ws1 hr)
      rcases hab with ⟨_, _, hab⟩ | ⟨_, rfl⟩
      · obtain ⟨v, _, rfl⟩ := reset_frame a b p hab; rfl
      · rfl

theorem plannerPoints_generate (s s' : Planner K) (ws : List (Waypoint K)) (h : s.generateWaypoints = .ok (ws, s'))
    (hset : ∀ w ∈ s.toSet, ¬ PlannerName w.name) (hadd : ∀ w ∈ s.toAdd, ¬ PlannerName w.name) : plannerPoints ws ≤ plannerPoints s.dyn := by
  have ha : plannerPoints (s.toAdd.map (·.copy)) = 0 := by rw [plannerPoints_copy]; exact plannerPoints_none hadd
  have tail : ∀ base : List (Waypoint K), plannerPoints base ≤ plannerPoints s.dyn → ∀ all, resetAll s.toModify (base ++ s.toAdd.map (·.copy)) = .ok all →
      plannerPoints all ≤ plannerPoints s.dyn := by
    intro base hb all hall
    rw [plannerPoints_names (resetAll_names _ _ _ hall)]
    have : plannerPoints (base ++ s.toAdd.map (·.copy)) = plannerPoints base + plannerPoints (s.toAdd.map (·.copy)) := List.countP_append
    omega
  unfold Planner.generateWaypoints at h
  simp only [bind, Except.bind, pure, Except.pure] at h
  split at h
  · cases hm : (s.filterPassed (s.dyn.map (·.copy))).mapM (·.resetWithCurrent) with
    | error e => rw [hm] at h; cases h
    | ok base =>
      rw [hm] at h
      simp only at h
      cases hr : resetAll s.toModify (base ++ s.toAdd.map (·.copy)) with
      | error e => rw [hr] at h; cases h
      | ok all =>
        rw [hr] at h
        obtain ⟨rfl, _⟩ := Prod.mk.inj (Except.ok.inj h)
        refine tail base ?_ _ hr
        have hn : base.map (·.name) = (s.filterPassed (s.dyn.map (·.copy))).map (·.name) :=
          forall2_map_eq (fun a b hab => by obtain ⟨v, _, rfl⟩ := resetCurrent_frame a b hab; rfl) (mapM_forall2 _ _ _ hm)
        rw [plannerPoints_names hn, ← plannerPoints_copy s.dyn]
        exact List.filter_sublist.countP_le
  · cases hr : resetAll s.toModify (s.toSet.map (·.copy) ++ s.toAdd.map (·.copy)) with
    | error e => rw [hr] at h; cases h
    | ok all =>
      rw [hr] at h
      obtain ⟨rfl, _⟩ := Prod.mk.inj (Except.ok.inj h)
      refine tail _ ?_ _ hr
      rw [plannerPoints_copy, plannerPoints_none hset]
      omega

/-- At most `b` points of the planner's own in the plan in force and in a plan ready to be taken over, at most `d` in one in preparation. -/
structure PileInv (b d : ℕ) (s : Planner K) : Prop where
  set : ∀ w ∈ s.toSet, ¬ PlannerName w.name
  add : ∀ w ∈ s.toAdd, ¬ PlannerName w.name
  dyn : plannerPoints s.dyn ≤ b
  collected : s.pc = .collected ∨ s.pc = .snapshotted → plannerPoints s.next ≤ b
  prepared : s.pc = .planned ∨ s.computing = true → plannerPoints s.next ≤ d
  ready : ∀ tr, s.future = .ready tr → plannerPoints s.next ≤ b

theorem pile_micro (env : Env K) (b d b' d' : ℕ) (e : Event K) (s s' : Planner K) (hc : Ctl s) (hn : NamedEvent e) (hi : PileInv b d s)
    (hb : b ≤ b') (hd : d ≤ d') (hfin : ∀ x, e = .asyncFinish x → d ≤ b') (hprep : s.pc = .snapshotted → s'.pc = .planned → plannerPoints s'.next ≤ d')
    (h : Micro env e s s') : PileInv b' d' s' := by
  have quiet : ∀ pc, s.pc = pc → pc ≠ .top → pc ≠ .launching → pc ≠ .launched → s.computing = false ∧ s.future = .invalid := by
    intro pc h1 h2 h3 h4
    have := hc.quiet (by rw [h1]; exact h2) (by rw [h1]; exact h3) (by rw [h1]; exact h4)
    exact ⟨this, hc.idle this⟩
  have hi' : PileInv b' d' s :=
    ⟨hi.1, hi.2, hi.3.trans hb, fun h => (hi.4 h).trans hb, fun h => (hi.5 h).trans hd, fun tr h => (hi.6 tr h).trans hb⟩
  clear hd
  cases h with
  | setWaypoints _ ws => exact ⟨map_copy_mem (fun _ h => h) hn, by simp [Planner.setWaypoints], hi'.3, hi'.4, hi'.5, hi'.6⟩
  | append _ w =>
    refine ⟨hi'.1, ?_, hi'.3, hi'.4, hi'.5, hi'.6⟩
    intro w' hw'
    rcases List.mem_append.mp hw' with h | h
    · exact hi'.2 w' h
    · rw [List.mem_singleton.mp h]; exact hn
  | takeOver _ _ new off hcomp hr he hfit =>
    refine ⟨hi'.1, hi'.2, ?_, ?_, ?_, by simp⟩
    · show plannerPoints (s.next.map (·.copy)) ≤ b'
      rw [plannerPoints_copy]; exact hi'.6 _ hr
    · exact hi'.4
    · rintro (h | h)
      · exact hi'.5 (Or.inl h)
      · cases h
  | collect _ ws hp hw =>
    obtain ⟨q1, q2⟩ := quiet _ hp (by decide) (by decide) (by decide)
    have := (plannerPoints_generate s _ ws hw hi.1 hi.2).trans (hi.3.trans hb)
    refine ⟨by simp, by simp, hi'.3, fun _ => this, ?_, ?_⟩
    · rintro (h | h)
      · cases h
      · rw [q1] at h; cases h
    · intro tr h; simp only [q2] at h; cases h
  | stitch _ ws hp hs hw =>
    obtain ⟨q1, q2⟩ := quiet _ hp (by decide) (by decide) (by decide)
    refine ⟨hi'.1, hi'.2, hi'.3, by simp, fun _ => hprep hp rfl, ?_⟩
    intro tr h; simp only [q2] at h; cases h
  | scratch _ ws hp hs hw =>
    obtain ⟨q1, q2⟩ := quiet _ hp (by decide) (by decide) (by decide)
    refine ⟨hi'.1, hi'.2, hi'.3, by simp, fun _ => hprep hp rfl, ?_⟩
    intro tr h; simp only [q2] at h; cases h
  | goCollect _ hp hg hz hcomp => exact ⟨hi'.1, hi'.2, hi'.3, by simp, fun h => hi'.5 (Or.inr (by simpa using h)), hi'.6⟩
  | goApply _ hp hm hcomp hno => exact ⟨hi'.1, hi'.2, hi'.3, by simp, fun h => hi'.5 (Or.inr (by simpa using h)), hi'.6⟩
  | nothingToPlan _ hp hn => exact ⟨hi'.1, hi'.2, hi'.3, by simp, fun h => hi'.5 (Or.inr (by simpa using h)), hi'.6⟩
  | snapshot _ hp hn =>
    exact ⟨hi'.1, hi'.2, hi'.3, fun _ => hi'.4 (Or.inl hp), fun h => hi'.5 (Or.inr (by simpa using h)), hi'.6⟩
  | planned _ hp => exact ⟨hi'.1, hi'.2, hi'.3, by simp, fun _ => hi'.5 (Or.inl hp), hi'.6⟩
  | launch _ hp => exact ⟨hi'.1, hi'.2, hi'.3, by simp, fun h => hi'.5 (Or.inr (by simpa using h)), by simp⟩
  | launched _ hp => exact ⟨hi'.1, hi'.2, hi'.3, by simp, fun h => hi'.5 (Or.inr (by simpa using h)), hi'.6⟩
  | asyncStart _ hf => exact ⟨hi'.1, hi'.2, hi'.3, hi'.4, hi'.5, by simp⟩
  | asyncFinish _ dt sp tr ws hf hco =>
    obtain ⟨vs, _, _, _, ha⟩ := computeTrajectory_form env s sp tr ws hco
    have hnm : plannerPoints ws = plannerPoints s.next :=
      plannerPoints_names (forall2_map_eq (fun _ _ h => h.1) (assignTimes_same _ _ _ _ _ ha))
    have hcomp : s.computing = true := by
      by_contra hh
      have := hc.idle (by simpa using hh)
      rw [hf] at this; cases this
    refine ⟨hi'.1, hi'.2, hi'.3, ?_, ?_, ?_⟩
    · intro h; simp only [hnm]; exact hi'.4 h
    · intro h; simp only [hnm]; exact hi'.5 h
    · intro _ _; simp only [hnm]; exact (hi.5 (Or.inr hcomp)).trans (hfin _ rfl)
  | asyncFail _ dt sp hf hco => exact ⟨hi'.1, hi'.2, hi'.3, hi'.4, hi'.5, by simp⟩
  | apply _ s2 hp ha =>
    obtain ⟨hf, d, r, rfl, _⟩ := applyAll_rel (fun w w' => w'.name = w.name) (fun _ => rfl) (fun _ _ _ h1 h2 => h2.trans h1)
      (fun a c p g hs => by
        unfold Waypoint.setCurrentPosition at hs
        simp only [bind, Except.bind] at hs
        split at hs
        · cases hs
        · rw [← Except.ok.inj hs]) _ s s2 ha
    refine ⟨hi'.1, hi'.2, ?_, by simp, ?_, hi'.6⟩
    · show plannerPoints d ≤ b'
      rw [plannerPoints_names (forall2_map_eq (fun _ _ h => h) hf)]; exact hi'.3
    · rintro (h | h)
      · cases h
      · exact hi'.5 (Or.inr h)
  | _ => exact ⟨hi'.1, hi'.2, hi'.3, hi'.4, hi'.5, hi'.6⟩

theorem pile_init (v : V3 K) (b d : ℕ) : PileInv b d (Planner.init v) := by
  refine ⟨?_, ?_, ?_, ?_, ?_, ?_⟩ <;> simp [Planner.init, plannerPoints]

/-- As `pile_micro`, for whole events. -/
theorem pile_step (env : Env K) (b d b' d' : ℕ) (e : Event K) (s s' : Planner K) (hc : Ctl s) (hn : NamedEvent e) (hi : PileInv b d s)
    (hb : b ≤ b') (hd : d ≤ d') (hfin : ∀ x, e = .asyncFinish x → d ≤ b') (hprep : s.pc = .snapshotted → s'.pc = .planned → plannerPoints s'.next ≤ d')
    (h : s.step env e = .ok (some s')) : PileInv b' d' s' := by
  rcases step_micro' env e s s' h with ⟨rfl, _⟩ | h | ⟨m, ⟨t, o, rfl⟩, h1, h2⟩
  · exact ⟨hi.1, hi.2, hi.3.trans hb, fun h => (hi.4 h).trans hb, fun h => (hi.5 h).trans hd, fun tr h => (hi.6 tr h).trans hb⟩
  · exact pile_micro env b d b' d' e s s' hc hn hi hb hd hfin hprep h
  · have np : ∀ a c : Planner K, Micro env (.evaluate t o false) a c → c.pc = a.pc := by
      intro a c hm
      cases hm <;> rfl
    have hpm := np _ _ h1
    have hps := np _ _ h2
    have hm := pile_micro env b d b' d' _ s m hc hn hi hb hd (by simp) (fun h3 h4 => by rw [hpm, h3] at h4; cases h4) h1
    exact pile_micro env b' d' b' d' _ m s' (ctl_micro env _ s m hc h1) hn hm le_rfl le_rfl (by simp)
      (fun h3 h4 => by rw [hps, h3] at h4; cases h4) h2

/-- Preparing a plan adds at most two points of the planner's own. -/
theorem pile_prepared (env : Env K) (e : Event K) (s s' : Planner K) (h : s.step env e = .ok (some s')) (hp : s.pc = .snapshotted)
    (hp' : s'.pc = .planned) : plannerPoints s'.next ≤ plannerPoints s.next + 2 := by
  rcases step_micro' env e s s' h with ⟨rfl, _⟩ | h | ⟨m, ⟨t, o, rfl⟩, h1, h2⟩
  · rw [hp] at hp'; cases hp'
  · cases h with
    | stitch _ ws _ hs hw =>
      obtain ⟨traj, w0, w1, _, _, _, rfl⟩ := stitch_form env s _ ws hw
      refine (plannerPoints_cons_le _ _).trans (Nat.succ_le_succ ((plannerPoints_cons_le _ _).trans (Nat.succ_le_succ ?_)))
      rw [plannerPoints_copy]
      exact List.filter_sublist.countP_le
    | scratch _ ws _ hs hw =>
      obtain ⟨w, rfl, _⟩ := appendDrone_spec s _ ws hw
      exact (plannerPoints_cons_le _ _).trans (by omega)
    | apply _ s2 hp2 ha => rw [hp] at hp2; cases hp2
    | _ => simp_all [Planner.setWaypoints, Planner.appendWaypoint, Planner.modifyWaypoint, Planner.setSpeed, Planner.updateVehiclePosition]
  · exfalso
    have np : ∀ a c : Planner K, Micro env (.evaluate t o false) a c → c.pc = a.pc := by
      intro a c hm
      cases hm <;> rfl
    rw [np _ _ h2, np _ _ h1, hp] at hp'
    cases hp'

/-- Preparing a plan leaves at most two points of the planner's own if the others lie before the end of the join. -/
theorem pile_prepared_two (env : Env K) (e : Event K) (s s' : Planner K) (h : s.step env e = .ok (some s')) (hp : s.pc = .snapshotted)
    (hp' : s'.pc = .planned) (hown : ∀ w ∈ s.next, PlannerName w.name → s.checkStitchTrajectory = true ∧ 0 < w.time ∧
      w.time < s.newParams.lastLocal + s.params.tOffset + 5 * s.computationTime + 5 * s.computationTime + s.params.gtlg) :
    plannerPoints s'.next ≤ 2 := by
  rcases step_micro' env e s s' h with ⟨rfl, _⟩ | h | ⟨m, ⟨t, o, rfl⟩, h1, h2⟩
  · rw [hp] at hp'; cases hp'
  · cases h with
    | stitch _ ws _ hs hw =>
      obtain ⟨traj, w0, w1, _, _, _, rfl⟩ := stitch_form env s _ ws hw
      refine (plannerPoints_cons_le _ _).trans (Nat.succ_le_succ ((plannerPoints_cons_le _ _).trans (Nat.succ_le_succ ?_)))
      rw [plannerPoints_copy, plannerPoints_none]
      intro w hw' hn
      obtain ⟨hm, hk⟩ := List.mem_filter.mp hw'
      obtain ⟨_, h0, h1⟩ := hown w hm hn
      simp [h0, h1] at hk
    | scratch _ ws _ hs hw =>
      obtain ⟨w, rfl, _⟩ := appendDrone_spec s _ ws hw
      refine (plannerPoints_cons_le _ _).trans ?_
      rw [plannerPoints_none]
      · omega
      intro w hw' hn
      rw [(hown w hw' hn).1] at hs; cases hs
    | apply _ s2 hp2 ha => rw [hp] at hp2; cases hp2
    | _ => simp_all [Planner.setWaypoints, Planner.appendWaypoint, Planner.modifyWaypoint, Planner.setSpeed, Planner.updateVehiclePosition]
  · exfalso
    have np : ∀ a c : Planner K, Micro env (.evaluate t o false) a c → c.pc = a.pc := by
      intro a c hm
      cases hm <;> rfl
    rw [np _ _ h2, np _ _ h1, hp] at hp'
    cases hp'

end Verif.Lemmas
