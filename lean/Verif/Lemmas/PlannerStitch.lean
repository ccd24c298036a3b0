import Verif.Lemmas.PlannerClock

/-! # From the preparation of a plan to its take-over -/

set_option linter.unusedSectionVars false
set_option linter.unusedSimpArgs false

namespace Verif.Lemmas
open Verif Verif.Spec

variable {K : Type*} [Field K] [LinearOrder K] [IsStrictOrderedRing K] [FloorSemiring K]

/-- A plan is prepared or being computed, its waypoints satisfy `P`, it starts at `g`. -/
def Prepared (P : List (Waypoint K) → Prop) (g : K) (s : Planner K) : Prop :=
  (s.pc = .planned ∨ s.computing = true) ∧ P s.next ∧ s.newParams.gtlg = g

theorem prepared_micro (env : Env K) (P : List (Waypoint K) → Prop) (hP : ∀ ws ws', P ws → List.Forall₂ SameWaypoint ws ws' → P ws') (g : K)
    (e : Event K) (s s' : Planner K) (hc : Ctl s) (hi : Prepared P g s) (h : Micro env e s s') :
    (Prepared P g s' ∧ ¬ TakesOver s s') ∨
      (TakesOver s s' ∧ P s'.dyn ∧ s'.params.gtlg = g ∧ ∃ tr, s.future = .ready tr ∧ s'.traj = some tr) := by
  obtain ⟨hi, hn, hg⟩ := hi
  have quiet : ∀ {pc : WorkerPc}, s.pc = pc → pc ≠ .top → pc ≠ .launching → pc ≠ .launched → pc ≠ .planned → False := by
    intro pc hp h1 h2 h3 h4
    rcases hi with hi | hi
    · exact h4 (hp.symm.trans hi)
    · have := hc.quiet (by rw [hp]; exact h1) (by rw [hp]; exact h2) (by rw [hp]; exact h3)
      rw [hi] at this; cases this
  have notTake : s'.computing = s.computing ∨ s'.computing = true → ¬ TakesOver s s' := by
    rintro (h | h) ⟨h1, h2⟩
    · rw [h, h1] at h2; cases h2
    · rw [h] at h2; cases h2
  cases h with
  | takeOver _ _ new off hcomp hr he hfit =>
    exact Or.inr ⟨⟨hcomp, rfl⟩, hP _ _ hn (forall2_same_copy _), hg, new, hr, rfl⟩
  | collect _ ws' hp hw => exact (quiet hp (by decide) (by decide) (by decide) (by decide)).elim
  | goCollect _ hp hg hz hcomp =>
    rcases hi with hi | hi
    · rw [hp] at hi; cases hi
    · rw [hi] at hcomp; cases hcomp
  | goApply _ hp hm hcomp hno =>
    rcases hi with hi | hi
    · rw [hp] at hi; cases hi
    · rw [hi] at hcomp; cases hcomp
  | apply _ s2 hp ha => exact (quiet hp (by decide) (by decide) (by decide) (by decide)).elim
  | nothingToPlan _ hp hn => exact (quiet hp (by decide) (by decide) (by decide) (by decide)).elim
  | snapshot _ hp hn => exact (quiet hp (by decide) (by decide) (by decide) (by decide)).elim
  | stitch _ ws' hp hs hw => exact (quiet hp (by decide) (by decide) (by decide) (by decide)).elim
  | scratch _ ws' hp hs hw => exact (quiet hp (by decide) (by decide) (by decide) (by decide)).elim
  | planned _ hp => exact Or.inl ⟨⟨Or.inr rfl, hn, hg⟩, notTake (Or.inr rfl)⟩
  | launch _ hp => exact Or.inl ⟨⟨Or.inr (hc.launching hp).1, hn, hg⟩, notTake (Or.inl rfl)⟩
  | launched _ hp =>
    refine Or.inl ⟨⟨Or.inr ?_, hn, hg⟩, notTake (Or.inl rfl)⟩
    rcases hi with hi | hi
    · rw [hp] at hi; cases hi
    · exact hi
  | asyncFinish _ _ sp tr ws' hf hco =>
    refine Or.inl ⟨⟨hi, ?_, hg⟩, notTake (Or.inl rfl)⟩
    obtain ⟨vs, _, _, _, ha⟩ := computeTrajectory_form env s sp tr ws' hco
    exact hP _ _ hn (assignTimes_same _ _ _ _ _ ha)
  | _ => exact Or.inl ⟨⟨hi, hn, hg⟩, notTake (Or.inl rfl)⟩

theorem prepared_step (env : Env K) (P : List (Waypoint K) → Prop) (hP : ∀ ws ws', P ws → List.Forall₂ SameWaypoint ws ws' → P ws') (g : K)
    (e : Event K) (s s' : Planner K) (hc : Ctl s) (hi : Prepared P g s) (h : s.step env e = .ok (some s')) :
    (Prepared P g s' ∧ ¬ TakesOver s s') ∨
      (TakesOver s s' ∧ P s'.dyn ∧ s'.params.gtlg = g ∧ ∃ tr, s.future = .ready tr ∧ s'.traj = some tr) := by
  rcases step_micro' env e s s' h with ⟨rfl, _⟩ | h | ⟨m, ⟨t, o, rfl⟩, h1, h2⟩
  · exact Or.inl ⟨hi, fun ht => absurd (ht.1.symm.trans ht.2) (by decide)⟩
  · exact prepared_micro env P hP g e s s' hc hi h
  · rcases prepared_micro env P hP g _ s m hc hi h1 with ⟨hm, hn⟩ | ⟨⟨ha, hb⟩, h3, h4, tr, h5, h6⟩
    · -- the first half was not the take-over, so it set the time
      have hcm := ctl_micro env _ s m hc h1
      cases h1 with
      | takeOver _ _ new off hcomp hr he hfit => exact absurd ⟨hcomp, rfl⟩ hn
      | evalTime _ _ _ ht =>
        rcases prepared_micro env P hP g _ _ s' hcm hm h2 with ⟨h', hn'⟩ | ⟨⟨ha, hb⟩, h3, h4, tr, h5, h6⟩
        · exact Or.inl ⟨h', hn'⟩
        · exact Or.inr ⟨⟨ha, hb⟩, h3, h4, tr, h5, h6⟩
    · cases h2 with
      | takeOver _ _ new off hcomp hr he hfit => rw [hb] at hcomp; cases hcomp
      | evalTime _ _ _ ht => exact Or.inr ⟨⟨ha, hb⟩, h3, h4, tr, h5, h6⟩

theorem prepared_run (env : Env K) (P : List (Waypoint K) → Prop) (hP : ∀ ws ws', P ws → List.Forall₂ SameWaypoint ws ws' → P ws') (g : K)
    (s s' : Planner K) (es : List (Event K)) (hc : Ctl s) (hi : Prepared P g s) (h : RunBefore env s es s') : Prepared P g s' ∧ Ctl s' := by
  induction h with
  | nil => exact ⟨hi, hc⟩
  | snoc e _ hs hn ih =>
    refine ⟨?_, ctl_step env e _ _ ih.2 hs⟩
    rcases prepared_step env P hP g e _ _ ih.2 ih.1 hs with h | h
    · exact h.1
    · exact absurd h.1 hn

/-! ## Was the plan stitched? -/

/-- The first waypoint tells whether the plan was made from scratch. -/
def HeadInv (s : Planner K) : Prop :=
  (s.pc = .planned ∨ s.computing = true) → s.next.head?.map (·.name) = some (if s.fromScratch then "" else "stitching_point")

theorem head_names {ws ws' : List (Waypoint K)} (h : List.Forall₂ SameWaypoint ws ws') : ws'.head?.map (·.name) = ws.head?.map (·.name) := by
  cases h with
  | nil => rfl
  | cons hab _ => simp [hab.1]

theorem head_micro (env : Env K) (e : Event K) (s s' : Planner K) (hc : Ctl s) (hi : HeadInv s) (h : Micro env e s s') : HeadInv s' := by
  cases h with
  | takeOver _ _ new off hcomp hr he hfit =>
    rintro (h | h)
    · have := hc.quiet (by rw [show s.pc = _ from h]; decide) (by rw [show s.pc = _ from h]; decide) (by rw [show s.pc = _ from h]; decide)
      rw [hcomp] at this; cases this
    · cases h
  | stitch _ ws' hp hs hw =>
    intro _
    obtain ⟨traj, w0, w1, _, e0, e1, rfl⟩ := stitch_form env s _ ws' hw
    simp [stitchPoint_name env s traj _ _ _ e0]
  | scratch _ ws' hp hs hw =>
    intro _
    obtain ⟨w, rfl, _, _, hwname, _⟩ := appendDrone_spec s _ ws' hw
    simp [hwname]
  | planned _ hp => exact fun _ => hi (Or.inl hp)
  | launch _ hp => exact fun _ => hi (Or.inr (hc.launching hp).1)
  | launched _ hp =>
    rintro (h | h)
    · cases h
    · exact hi (Or.inr h)
  | asyncFinish _ _ sp tr ws' hf hco =>
    intro h
    obtain ⟨vs, _, _, _, ha⟩ := computeTrajectory_form env s sp tr ws' hco
    have := head_names (assignTimes_same _ _ _ _ _ ha)
    simp only [this]
    exact hi h
  | apply _ s2 hp ha =>
    have hcomp := hc.quiet (by rw [hp]; decide) (by rw [hp]; decide) (by rw [hp]; decide)
    obtain ⟨_, d, r, rfl, _⟩ := applyAll_rel (fun _ _ => True) (fun _ => trivial) (fun _ _ _ _ _ => trivial)
      (fun _ _ _ _ _ => trivial) _ s s2 ha
    rintro (h | h)
    · cases h
    · rw [show s.computing = true from h] at hcomp; cases hcomp
  | collect _ ws hp hw =>
    have hcomp := hc.quiet (by rw [hp]; decide) (by rw [hp]; decide) (by rw [hp]; decide)
    rintro (h | h)
    · cases h
    · rw [show s.computing = true from h] at hcomp; cases hcomp
  | goCollect _ hp hg hz hcomp =>
    rintro (h | h)
    · cases h
    · rw [show s.computing = true from h] at hcomp; cases hcomp
  | goApply _ hp hm hcomp hno =>
    rintro (h | h)
    · cases h
    · rw [show s.computing = true from h] at hcomp; cases hcomp
  | nothingToPlan _ hp hn =>
    have hcomp := hc.quiet (by rw [hp]; decide) (by rw [hp]; decide) (by rw [hp]; decide)
    rintro (h | h)
    · cases h
    · rw [show s.computing = true from h] at hcomp; cases hcomp
  | snapshot _ hp hn =>
    have hcomp := hc.quiet (by rw [hp]; decide) (by rw [hp]; decide) (by rw [hp]; decide)
    rintro (h | h)
    · cases h
    · rw [show s.computing = true from h] at hcomp; cases hcomp
  | _ => exact hi

theorem reachable_head (env : Env K) (s : Planner K) (h : Reachable env s) : HeadInv s := by
  have : Ctl s ∧ HeadInv s := reachable_induction env (fun s => Ctl s ∧ HeadInv s)
    (fun v => ⟨ctl_init v, by rintro (h | h) <;> cases h⟩)
    (fun e s s' _ hi hm => ⟨ctl_micro env e s s' hi.1 hm, head_micro env e s s' hi.1 hi.2 hm⟩) s h
  exact this.2

/-! ## The snapshot of the parameters -/

/-- While the worker is between the snapshot and the preparation of the plan: the snapshot's local and global times agree. -/
def SnapInv (s : Planner K) : Prop := s.pc = .snapshotted → s.newParams.lastLocal = s.newParams.gtlg - s.params.gtlg

theorem snap_micro (env : Env K) (t : K) (e : Event K) (s s' : Planner K) (hc : Ctl s) (hk : s.pc = .collected → ClockInv t s) (hi : SnapInv s)
    (h : Micro env e s s') : SnapInv s' := by
  cases h with
  | takeOver _ _ new off hcomp hr he hfit =>
    intro h
    have := hc.quiet (by rw [show s.pc = _ from h]; decide) (by rw [show s.pc = _ from h]; decide) (by rw [show s.pc = _ from h]; decide)
    rw [hcomp] at this; cases this
  | snapshot _ hp hn =>
    intro _
    have hk := hk hp
    change s.params.lastLocal = s.params.lastGlobal - s.params.gtlg
    rw [hk.loc, hk.global]
  | apply _ s2 hp ha => intro h; cases h
  | collect _ ws hp hw => intro h; cases h
  | goCollect _ hp hg hz hcomp => intro h; cases h
  | goApply _ hp hm hcomp hno => intro h; cases h
  | nothingToPlan _ hp hn => intro h; cases h
  | stitch _ ws' hp hs hw => intro h; cases h
  | scratch _ ws' hp hs hw => intro h; cases h
  | planned _ hp => intro h; cases h
  | launch _ hp => intro h; cases h
  | launched _ hp => intro h; cases h
  | _ => exact hi

theorem snap_run (env : Env K) (v : V3 K) (es : List (Event K)) (s : Planner K) (h : RunOnTime env (Planner.init v) es s) : SnapInv s := by
  have : SnapInv s ∧ Ctl s ∧ ClockInv (lastEval es) s := by
    induction h with
    | nil => exact ⟨fun h => (by cases h), ctl_init v, clock_init v⟩
    | snoc e hrun hs hok ih =>
      refine ⟨?_, ctl_step env e _ _ ih.2.1 hs, clock_step env _ e _ _ hs hok ih.2.2⟩
      rcases step_micro' env e _ _ hs with ⟨rfl, _⟩ | hm | ⟨m, ⟨t, o, rfl⟩, h1, h2⟩
      · exact ih.1
      · exact snap_micro env _ e _ _ ih.2.1 (fun _ => ih.2.2) ih.1 hm
      · have hm := snap_micro env _ _ _ m ih.2.1 (fun _ => ih.2.2) ih.1 h1
        cases h2 with
        | evalTime _ _ _ ht => exact hm
        | takeOver _ _ new off hcomp hr he hfit =>
          have hcm := ctl_micro env _ _ m ih.2.1 h1
          intro h
          have := hcm.quiet (by rw [show m.pc = _ from h]; decide) (by rw [show m.pc = _ from h]; decide) (by rw [show m.pc = _ from h]; decide)
          rw [hcomp] at this; cases this
  exact this.1

/-! ## The search of the time fitting -/

theorem fitLoop_spec (env : Env K) (s : Planner K) (tr : Trajectory K) (target : V3 K) (n i : ℕ) (d m d' m' : K)
    (h : s.fitLoop env tr target n i d m = .ok (d', m')) :
    ∃ p : ℕ → V3 K,
      (∀ j, i ≤ j → j < i + n → s.evaluateModified env tr ((j : K) * (1 / 10) + s.newParams.gtlg) ((j : K) * (1 / 10)) 0 = .ok (p j)) ∧
      ((m' = m ∧ d' = d ∧ ∀ j, i ≤ j → j < i + n → d < Planner.distSq (p j) target) ∨
       ∃ k, i ≤ k ∧ k < i + n ∧ m' = (k : K) * (1 / 10) ∧ d' = Planner.distSq (p k) target ∧ d' ≤ d ∧
         ∀ j, i ≤ j → j < i + n → d' ≤ Planner.distSq (p j) target ∧ (k < j → d' < Planner.distSq (p j) target)) := by
  induction n generalizing i d m with
  | zero =>
    obtain ⟨h1, h2⟩ := Prod.mk.inj (Except.ok.inj h)
    exact ⟨fun _ => target, fun j h1 h2 => (by omega), Or.inl ⟨h2.symm, h1.symm, fun j h1 h2 => (by omega)⟩⟩
  | succ n ih =>
    simp only [Planner.fitLoop, bind, Except.bind] at h
    cases hp : s.evaluateModified env tr ((i : K) * (1 / 10) + s.newParams.gtlg) ((i : K) * (1 / 10)) 0 with
    | error e => rw [hp] at h; cases h
    | ok q =>
      rw [hp] at h
      simp only at h
      have upd : ∀ p : ℕ → V3 K, (∀ j, i + 1 ≤ j → j < i + 1 + n →
          s.evaluateModified env tr ((j : K) * (1 / 10) + s.newParams.gtlg) ((j : K) * (1 / 10)) 0 = .ok (p j)) →
          ∀ j, i ≤ j → j < i + (n + 1) → s.evaluateModified env tr ((j : K) * (1 / 10) + s.newParams.gtlg) ((j : K) * (1 / 10)) 0 =
            .ok ((Function.update p i q) j) := by
        intro p hp' j h1 h2
        by_cases hj : j = i
        · subst hj; rw [Function.update_self]; exact hp
        · rw [Function.update_of_ne hj]; exact hp' j (by omega) (by omega)
      by_cases hle : Planner.distSq q target ≤ d
      · rw [if_pos hle] at h
        obtain ⟨p, hp', hcase⟩ := ih (i + 1) _ _ h
        refine ⟨Function.update p i q, upd p hp', Or.inr ?_⟩
        rcases hcase with ⟨h1, h2, h3⟩ | ⟨k, k1, k2, k3, k4, k5, k6⟩
        · refine ⟨i, le_rfl, by omega, h1, by rw [Function.update_self]; exact h2, by rw [h2]; exact hle, ?_⟩
          intro j j1 j2
          by_cases hj : j = i
          · subst hj; rw [Function.update_self, h2]; exact ⟨le_rfl, fun h => absurd h (lt_irrefl _)⟩
          · rw [Function.update_of_ne hj, h2]
            have := h3 j (by omega) (by omega)
            exact ⟨this.le, fun _ => this⟩
        · refine ⟨k, by omega, by omega, k3, by rw [Function.update_of_ne (by omega)]; exact k4, k5.trans hle, ?_⟩
          intro j j1 j2
          by_cases hj : j = i
          · subst hj; rw [Function.update_self]; exact ⟨k5, fun h => by omega⟩
          · rw [Function.update_of_ne hj]
            exact k6 j (by omega) (by omega)
      · rw [if_neg hle] at h
        obtain ⟨p, hp', hcase⟩ := ih (i + 1) _ _ h
        refine ⟨Function.update p i q, upd p hp', ?_⟩
        push Not at hle
        rcases hcase with ⟨h1, h2, h3⟩ | ⟨k, k1, k2, k3, k4, k5, k6⟩
        · left
          refine ⟨h1, h2, ?_⟩
          intro j j1 j2
          by_cases hj : j = i
          · subst hj; rw [Function.update_self]; exact hle
          · rw [Function.update_of_ne hj]; exact h3 j (by omega) (by omega)
        · right
          refine ⟨k, by omega, by omega, k3, by rw [Function.update_of_ne (by omega)]; exact k4, k5, ?_⟩
          intro j j1 j2
          by_cases hj : j = i
          · subst hj; rw [Function.update_self]; exact ⟨(k5.trans_lt hle).le, fun h => by omega⟩
          · rw [Function.update_of_ne hj]
            exact k6 j (by omega) (by omega)

end Verif.Lemmas
