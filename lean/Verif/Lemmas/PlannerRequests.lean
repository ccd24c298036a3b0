import Verif.Spec.Requests
import Verif.Lemmas.PlannerFail

/-! # Pending requests -/

set_option linter.unusedSectionVars false
set_option linter.unusedSimpArgs false

namespace Verif.Lemmas
open Verif Verif.Spec

variable {K : Type*} [Field K] [LinearOrder K] [IsStrictOrderedRing K] [FloorSemiring K]

def lookupMod (n : String) : List (String × V3 K) → Option (V3 K)
  | [] => none
  | m :: ms => if m.1 = n then some m.2 else lookupMod n ms

theorem lookup_put (n name : String) (p : V3 K) (ms : List (String × V3 K)) :
    lookupMod n (Planner.putModification name p ms) = if name = n then some p else lookupMod n ms := by
  induction ms with
  | nil => simp [Planner.putModification, lookupMod]
  | cons m ms ih =>
    unfold Planner.putModification
    by_cases h : m.1 = name
    · rw [if_pos h]
      simp only [lookupMod]
      by_cases hn : name = n
      · simp [hn]
      · rw [if_neg hn, if_neg hn, if_neg (by rw [h]; exact hn)]
    · rw [if_neg h]
      simp only [lookupMod]
      rw [ih]
      by_cases hm : m.1 = n
      · have : name ≠ n := fun hh => h (hm.trans hh.symm)
        simp [hm, this]
      · simp [hm]

theorem put_keys (name : String) (p : V3 K) (ms : List (String × V3 K)) (x : String) :
    x ∈ (Planner.putModification name p ms).map Prod.fst ↔ x = name ∨ x ∈ ms.map Prod.fst := by
  induction ms with
  | nil => simp [Planner.putModification]
  | cons m ms ih =>
    unfold Planner.putModification
    split
    · rename_i h
      simp only [List.map_cons, List.mem_cons, h]
      tauto
    · simp only [List.map_cons, List.mem_cons, ih]
      tauto

theorem put_nodup (name : String) (p : V3 K) (ms : List (String × V3 K)) (h : (ms.map Prod.fst).Nodup) :
    ((Planner.putModification name p ms).map Prod.fst).Nodup := by
  induction ms with
  | nil => simp [Planner.putModification]
  | cons m ms ih =>
    simp only [List.map_cons, List.nodup_cons] at h
    unfold Planner.putModification
    split
    · rename_i hm
      simp only [List.map_cons, List.nodup_cons]
      rw [← hm]; exact h
    · rename_i hm
      simp only [List.map_cons, List.nodup_cons, put_keys]
      exact ⟨fun hx => hx.elim hm h.1, ih h.2⟩

theorem lookup_none (n : String) (ms : List (String × V3 K)) (h : n ∉ ms.map Prod.fst) : lookupMod n ms = none := by
  induction ms with
  | nil => rfl
  | cons m ms ih =>
    simp only [List.map_cons, List.mem_cons, not_or] at h
    simp only [lookupMod]
    rw [if_neg (fun hh => h.1 hh.symm), ih h.2]

theorem lastUpdate_snoc (us : List (String × V3 K)) (n name : String) (p : V3 K) :
    lastUpdate (us ++ [(name, p)]) n = if name = n then some p else lastUpdate us n := by
  unfold lastUpdate
  rw [List.filter_append]
  by_cases h : name = n
  · simp [h]
  · simp [h]

/-- The queues hold exactly what is pending. -/
structure Tracks (g : Requests K) (s : Planner K) : Prop where
  toSet : s.toSet = g.route.map (·.copy)
  toAdd : s.toAdd = g.appended.map (·.copy)
  nodup : (s.toModify.map Prod.fst).Nodup
  lookup : ∀ n, lookupMod n s.toModify = lastUpdate g.updates n

theorem tracks_put (g : Requests K) (s : Planner K) (h : Tracks g s) (ms : List (String × V3 K)) :
    ((ms.foldl (fun l m => Planner.putModification m.1 m.2 l) s.toModify).map Prod.fst).Nodup ∧
    ∀ n, lookupMod n (ms.foldl (fun l m => Planner.putModification m.1 m.2 l) s.toModify) = lastUpdate (g.updates ++ ms) n := by
  have key : ∀ (ms l us : List (String × V3 K)), (l.map Prod.fst).Nodup → (∀ n, lookupMod n l = lastUpdate us n) →
      ((ms.foldl (fun l m => Planner.putModification m.1 m.2 l) l).map Prod.fst).Nodup ∧
      ∀ n, lookupMod n (ms.foldl (fun l m => Planner.putModification m.1 m.2 l) l) = lastUpdate (us ++ ms) n := by
    intro ms
    induction ms with
    | nil => intro l us h1 h2; exact ⟨h1, by simpa using h2⟩
    | cons m ms ih =>
      intro l us h1 h2
      rw [List.foldl_cons]
      have := ih (Planner.putModification m.1 m.2 l) (us ++ [m]) (put_nodup _ _ _ h1)
        (fun n => by rw [lookup_put, h2 n, lastUpdate_snoc])
      rw [List.append_assoc] at this
      exact this
  exact key ms s.toModify g.updates h.nodup h.lookup

theorem tracks_step (env : Env K) (g : Requests K) (e : Event K) (s s' : Planner K) (h : Tracks g s)
    (hs : s.step env e = .ok (some s')) : Tracks (g.after s.pc e) s' := by
  have same : ∀ s' : Planner K, s'.toSet = s.toSet → s'.toAdd = s.toAdd → s'.toModify = s.toModify → Tracks g s' := by
    intro s' h1 h2 h3
    exact ⟨h1.trans h.1, h2.trans h.2, by rw [h3]; exact h.3, by rw [h3]; exact h.4⟩
  have takeOver : ∀ e, ((∃ t o f, e = .evaluate t o f) ∨ e = .getMaxTime ∨ e = .getMinTime ∨ e = .getDynamicWaypoints) →
      s.step env e = .ok (some s') → Tracks g s' := by
    intro e he hs
    have one : ∀ a b : Planner K, Micro env e a b → b.toSet = a.toSet ∧ b.toAdd = a.toAdd ∧ b.toModify = a.toModify := by
      intro a b hm
      rcases he with ⟨t, o, f, rfl⟩ | rfl | rfl | rfl <;> cases hm <;> exact ⟨rfl, rfl, rfl⟩
    rcases step_micro env e s s' hs with rfl | hm | ⟨m, h1, h2⟩
    · exact h
    · obtain ⟨a, b, c⟩ := one s s' hm
      exact same s' a b c
    · obtain ⟨a, b, c⟩ := one s m h1
      obtain ⟨a', b', c'⟩ := one m s' h2
      exact same s' (a'.trans a) (b'.trans b) (c'.trans c)
  cases e with
  | setWaypoints ws =>
    rw [← Option.some.inj (Except.ok.inj hs)]
    exact ⟨rfl, rfl, by simp [Planner.setWaypoints], fun n => rfl⟩
  | appendWaypoint w =>
    rw [← Option.some.inj (Except.ok.inj hs)]
    refine ⟨h.1, ?_, h.3, h.4⟩
    simp only [Planner.appendWaypoint, Requests.after, List.map_append, List.map_cons, List.map_nil, h.2]
  | modifyWaypoint n p b =>
    rw [← Option.some.inj (Except.ok.inj hs)]
    obtain ⟨h1, h2⟩ := tracks_put g s h [(n, p)]
    exact ⟨h.1, h.2, h1, h2⟩
  | modifyWaypoints ms =>
    rw [← Option.some.inj (Except.ok.inj hs), modifyWaypoints_eq]
    obtain ⟨h1, h2⟩ := tracks_put g s h ms
    exact ⟨h.1, h.2, h1, h2⟩
  | evaluate t o f => exact takeOver _ (Or.inl ⟨t, o, f, rfl⟩) hs
  | getMaxTime => exact takeOver _ (Or.inr (Or.inl rfl)) hs
  | getMinTime => exact takeOver _ (Or.inr (Or.inr (Or.inl rfl))) hs
  | getDynamicWaypoints => exact takeOver _ (Or.inr (Or.inr (Or.inr rfl))) hs
  | setSpeed v => rw [← Option.some.inj (Except.ok.inj hs)]; exact same _ rfl rfl rfl
  | getWasTrajectoryRegenerated => rw [← Option.some.inj (Except.ok.inj hs)]; exact same _ rfl rfl rfl
  | updateVehiclePosition p => rw [← Option.some.inj (Except.ok.inj hs)]; exact same _ rfl rfl rfl
  | worker =>
    simp only [Requests.after]
    rcases step_micro' env .worker s s' hs with ⟨rfl, hidle⟩ | hm | ⟨m, ⟨t, o, he⟩, _⟩
    · have hpc := (hidle rfl).1
      rw [if_neg (by rw [hpc]; decide), if_neg (by rw [hpc]; decide)]
      exact h
    · cases hm with
      | collect _ ws hp hg =>
        rw [if_pos hp]
        exact ⟨rfl, rfl, by simp, fun _ => rfl⟩
      | apply _ s2 hp ha =>
        rw [if_neg (by rw [hp]; decide), if_pos hp]
        obtain ⟨_, d, r, rfl, _⟩ := applyAll_rel (fun _ _ => True) (fun _ => trivial) (fun _ _ _ _ _ => trivial)
          (fun _ _ _ _ _ => trivial) _ s s2 ha
        exact ⟨h.1, h.2, by simp, fun _ => rfl⟩
      | goCollect _ hp => rw [if_neg (by rw [hp]; decide), if_neg (by rw [hp]; decide)]; exact same _ rfl rfl rfl
      | goApply _ hp => rw [if_neg (by rw [hp]; decide), if_neg (by rw [hp]; decide)]; exact same _ rfl rfl rfl
      | nothingToPlan _ hp => rw [if_neg (by rw [hp]; decide), if_neg (by rw [hp]; decide)]; exact same _ rfl rfl rfl
      | snapshot _ hp => rw [if_neg (by rw [hp]; decide), if_neg (by rw [hp]; decide)]; exact same _ rfl rfl rfl
      | stitch _ ws hp => rw [if_neg (by rw [hp]; decide), if_neg (by rw [hp]; decide)]; exact same _ rfl rfl rfl
      | scratch _ ws hp => rw [if_neg (by rw [hp]; decide), if_neg (by rw [hp]; decide)]; exact same _ rfl rfl rfl
      | planned _ hp => rw [if_neg (by rw [hp]; decide), if_neg (by rw [hp]; decide)]; exact same _ rfl rfl rfl
      | launch _ hp => rw [if_neg (by rw [hp]; decide), if_neg (by rw [hp]; decide)]; exact same _ rfl rfl rfl
      | launched _ hp => rw [if_neg (by rw [hp]; decide), if_neg (by rw [hp]; decide)]; exact same _ rfl rfl rfl
      | takeOver _ _ new off hc hr he => rcases he with ⟨t, o, f, he⟩ | he | he | he <;> cases he
    · cases he
  | asyncStart =>
    rcases step_micro' env .asyncStart s s' hs with ⟨rfl, _⟩ | hm | ⟨m, ⟨t, o, he⟩, _⟩
    · exact h
    · cases hm with
      | asyncStart _ hf => exact same _ rfl rfl rfl
      | takeOver _ _ new off hc hr he => rcases he with ⟨t, o, f, he⟩ | he | he | he <;> cases he
    · cases he
  | asyncFinish dt =>
    rcases step_micro' env (.asyncFinish dt) s s' hs with ⟨rfl, _⟩ | hm | ⟨m, ⟨t, o, he⟩, _⟩
    · exact h
    · cases hm with
      | asyncFinish _ _ sp tr ws hf hc => exact same _ rfl rfl rfl
      | asyncFail _ _ sp hf hc => exact same _ rfl rfl rfl
      | takeOver _ _ new off hc hr he => rcases he with ⟨t, o, f, he⟩ | he | he | he <;> cases he
    · cases he

theorem runR_tracks (env : Env K) (v : V3 K) (es : List (Event K)) (g : Requests K) (s : Planner K)
    (h : RunR env (Planner.init v) es g s) : Tracks g s := by
  induction h with
  | nil => exact ⟨rfl, rfl, by simp [Planner.init], fun _ => rfl⟩
  | snoc e _ hs ih => exact tracks_step env _ e _ _ ih hs

theorem runR_run (env : Env K) (s0 : Planner K) (es : List (Event K)) (g : Requests K) (s : Planner K)
    (h : RunR env s0 es g s) : Run env s0 es s := by
  induction h with
  | nil => exact .nil
  | snoc e _ hs ih => exact .snoc e ih hs

theorem run_runR (env : Env K) (s0 : Planner K) (es : List (Event K)) (s : Planner K)
    (h : Run env s0 es s) : ∃ g, RunR env s0 es g s := by
  induction h with
  | nil => exact ⟨_, .nil⟩
  | snoc e _ hs ih => obtain ⟨g, hg⟩ := ih; exact ⟨_, .snoc e hg hs⟩

/-- What all pending modifications together do to one waypoint when a plan is prepared. -/
def ResetAllRel (ms : List (String × V3 K)) (a b : Waypoint K) : Prop :=
  (a.name = "" ∧ b = a) ∨ (a.name ≠ "" ∧ ((lookupMod a.name ms = none ∧ b = a) ∨ ∃ p, lookupMod a.name ms = some p ∧ a.reset p = .ok b))

theorem resetAll_rel (ms : List (String × V3 K)) (hn : (ms.map Prod.fst).Nodup) (ws ws' : List (Waypoint K)) (h : resetAll ms ws = .ok ws') :
    List.Forall₂ (ResetAllRel ms) ws ws' := by
  induction ms generalizing ws with
  | nil =>
    rw [← Except.ok.inj h, List.forall₂_same]
    intro a _
    by_cases ha : a.name = ""
    · exact Or.inl ⟨ha, rfl⟩
    · exact Or.inr ⟨ha, Or.inl ⟨rfl, rfl⟩⟩
  | cons m ms ih =>
    obtain ⟨n, p⟩ := m
    simp only [List.map_cons, List.nodup_cons] at hn
    simp only [resetAll, bind, Except.bind] at h
    cases hr : resetThrough n p ws with
    | error e => rw [hr] at h; cases h
    | ok ws1 =>
      rw [hr] at h
      refine forall2_comp ?_ (resetThrough_rel n p ws ws1 hr) (ih hn.2 ws1 h)
      intro a b c hab hbc
      rcases hab with ⟨h1, h2, h3⟩ | ⟨h1, rfl⟩
      · obtain ⟨v, _, hb⟩ := reset_frame a b p h3
        have hbn : b.name = n := by rw [hb]; exact h1
        have hcb : c = b := by
          rcases hbc with ⟨_, h⟩ | ⟨_, ⟨_, h⟩ | ⟨q, hq, _⟩⟩
          · exact h
          · exact h
          · rw [hbn, lookup_none n ms hn.1] at hq; cases hq
        right
        refine ⟨by rw [h1]; exact h2, Or.inr ⟨p, ?_, by rw [hcb]; exact h3⟩⟩
        simp only [lookupMod]
        rw [if_pos h1.symm]
      · rcases hbc with h | ⟨hbn, h⟩
        · exact Or.inl h
        · right
          refine ⟨hbn, ?_⟩
          have : n ≠ b.name := fun hh => h1 ⟨hh.symm, by rw [hh]; exact hbn⟩
          simp only [lookupMod]
          rw [if_neg this]
          exact h

/-- What all pending modifications together do to one waypoint of the current plan. -/
def ApplyAllRel (g : K) (ms : List (String × V3 K)) (a b : Waypoint K) : Prop :=
  (a.name = "" ∧ b = a) ∨ (a.name ≠ "" ∧ ((lookupMod a.name ms = none ∧ b = a) ∨
    ∃ p, lookupMod a.name ms = some p ∧ a.setCurrentPosition p g = .ok b))

theorem applyAll_exact (ms : List (String × V3 K)) (hn : (ms.map Prod.fst).Nodup) (s s' : Planner K) (h : Planner.applyAll ms s = .ok s') :
    List.Forall₂ (ApplyAllRel s.params.lastGlobal ms) s.dyn s'.dyn ∧
    (s'.regenerated = true ↔ s.regenerated = true ∨ ∃ w ∈ s.dyn, w.name ≠ "" ∧ lookupMod w.name ms ≠ none) := by
  induction ms generalizing s with
  | nil =>
    rw [← Except.ok.inj h, List.forall₂_same]
    refine ⟨?_, by simp [lookupMod]⟩
    intro a _
    by_cases ha : a.name = ""
    · exact Or.inl ⟨ha, rfl⟩
    · exact Or.inr ⟨ha, Or.inl ⟨rfl, rfl⟩⟩
  | cons m ms ih =>
    obtain ⟨n, p⟩ := m
    simp only [List.map_cons, List.nodup_cons] at hn
    simp only [Planner.applyAll, bind, Except.bind] at h
    cases hm : s.applyWaypointModification n p with
    | error e => rw [hm] at h; cases h
    | ok s1 =>
      rw [hm] at h
      obtain ⟨i1, i2⟩ := ih hn.2 s1 h
      unfold Planner.applyWaypointModification at hm
      simp only [bind, Except.bind] at hm
      cases hl : Planner.applyLoop n p s.params.lastGlobal s.dyn with
      | error e => rw [hl] at hm; cases hm
      | ok q =>
        obtain ⟨b, ws⟩ := q
        rw [hl] at hm
        have hm := Except.ok.inj hm
        obtain ⟨j1, j2⟩ := applyLoop_rel n p _ _ _ _ hl
        have hnames : ∀ x, (∃ w ∈ ws, w.name = x) ↔ ∃ w ∈ s.dyn, w.name = x := by
          intro x
          have hf : List.Forall₂ (fun a c : Waypoint K => c.name = a.name) s.dyn ws := j1.imp (fun a c hac => by
            rcases hac with ⟨_, _, h3⟩ | ⟨_, rfl⟩
            · exact (setCurrentPosition_frame a c p _ h3).2.2.2.1
            · rfl)
          constructor
          · rintro ⟨w, hw, hx⟩
            obtain ⟨a, ha, hr⟩ := forall2_mem_right hf hw
            exact ⟨a, ha, hr ▸ hx⟩
          · rintro ⟨w, hw, hx⟩
            obtain ⟨i, hi⟩ := List.mem_iff_getElem?.mp hw
            obtain ⟨c, hc, hr⟩ := forall2_get hf i w hi
            exact ⟨c, List.mem_of_getElem? hc, hr.trans hx⟩
        subst hm
        refine ⟨?_, ?_⟩
        · refine forall2_comp ?_ j1 i1
          intro a b c hab hbc
          rcases hab with ⟨h1, h2, h3⟩ | ⟨h1, rfl⟩
          · have hbn : b.name = n := (setCurrentPosition_frame a b p _ h3).2.2.2.1.trans h1
            have hcb : c = b := by
              rcases hbc with ⟨_, h⟩ | ⟨_, ⟨_, h⟩ | ⟨q, hq, _⟩⟩
              · exact h
              · exact h
              · rw [hbn, lookup_none n ms hn.1] at hq; cases hq
            right
            refine ⟨h2, Or.inr ⟨p, ?_, by rw [hcb]; exact h3⟩⟩
            simp only [lookupMod]
            rw [if_pos h1.symm]
          · rcases hbc with h | ⟨hbn, h⟩
            · exact Or.inl h
            · right
              refine ⟨hbn, ?_⟩
              have : n ≠ b.name := fun hh => h1 ⟨hh.symm, hbn⟩
              simp only [lookupMod]
              rw [if_neg this]
              exact h
        · rw [i2]
          simp only [Bool.or_eq_true, j2]
          constructor
          · rintro ((h1 | ⟨w, hw, h1, h2⟩) | ⟨w, hw, h1, h2⟩)
            · exact Or.inl h1
            · exact Or.inr ⟨w, hw, h2, by simp only [lookupMod]; rw [if_pos h1.symm]; simp⟩
            · obtain ⟨u, hu, hun⟩ := (hnames w.name).mp ⟨w, hw, rfl⟩
              refine Or.inr ⟨u, hu, by rw [hun]; exact h1, ?_⟩
              rw [hun]
              simp only [lookupMod]
              split
              · simp
              · exact h2
          · rintro (h1 | ⟨w, hw, h1, h2⟩)
            · exact Or.inl (Or.inl h1)
            · simp only [lookupMod] at h2
              by_cases hh : n = w.name
              · exact Or.inl (Or.inr ⟨w, hw, hh.symm, h1⟩)
              · rw [if_neg hh] at h2
                obtain ⟨u, hu, hun⟩ := (hnames w.name).mpr ⟨w, hw, rfl⟩
                exact Or.inr ⟨u, hu, by rw [hun]; exact h1, by rw [hun]; exact h2⟩

end Verif.Lemmas
