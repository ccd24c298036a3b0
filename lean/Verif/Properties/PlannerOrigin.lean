import Verif.Lemmas.PlannerOrigin
import Verif.Lemmas.PlannerThreadsSample
import Verif.Properties.PlannerReplan

/-!
# Property C140: where the waypoints of a plan come from

In every interleaving of all threads the plan consists of what was asked for, starts where the vehicle was, and points at which a plan was attached to the previous one; and
once a new route has been taken over, nothing that was asked for before it comes back.
-/

set_option linter.unusedSectionVars false
set_option linter.unusedSimpArgs false

namespace Verif.Properties
open Verif Verif.Spec Verif.Lemmas

section
variable {K : Type*} [Field K] [LinearOrder K] [IsStrictOrderedRing K] [FloorSemiring K]

/-! ## What the planner does to a waypoint keeps its origin -/

theorem explained_becomes {g : Told K} {w w' : Waypoint K} {x : V3 K} (hb : Bookkept w) (he : Explained g w) (h : Becomes (some x) w w')
    (hx : x = w.current ∨ (w.name ≠ "" ∧ (w.name, x) ∈ g.updates)) : Explained g w' := by
  obtain ⟨h1, h2, h3, h4, h5⟩ := h
  simp only [Option.getD_some] at h3
  rcases he with ⟨y, hy, a1, a2, a3, a4⟩ | ⟨a1, y, hy, a2⟩ | a
  · refine .inl ⟨y, hy, h1.trans a1, fun k hk => (h5 k hk).trans (a2 k hk), h4, ?_⟩
    rcases hx with rfl | ⟨n1, n2⟩
    · rw [h3, h1]; exact a4
    · rw [h3, h1]; exact .inr ⟨n1, n2⟩
  · rcases hx with rfl | ⟨n1, _⟩
    · refine .inr (.inl ⟨h1.trans a1, y, hy, fun k => ?_⟩)
      by_cases hk : k = 0
      · subst hk
        rw [h4, h3, ← hb.2.2.1]
        exact a2 0
      · rw [h5 k hk]; exact a2 k
    · exact absurd a1 n1
  · exact .inr (.inr (h1.trans a))

theorem origin_reset (w w' : Waypoint K) (hb : Bookkept w) (p : V3 K) (h : w.reset p = .ok w') : Becomes (some p) w w' ∧ w'.modifiers = [] ∧ Bookkept w' := by
  have hb' := reset_bookkept' w w' p hb h
  obtain ⟨v', hv', rfl⟩ := reset_frame _ _ _ h
  obtain ⟨_, _, h3⟩ := addConstraint_bookkept w.vertex v' 0 p hb.1 hb.2.1 hv'
  exact ⟨⟨rfl, rfl, rfl, (h3 0).trans (if_pos rfl), fun k hk => (h3 k).trans (if_neg hk)⟩, rfl, hb'⟩

theorem origin_set (w w' : Waypoint K) (hb : Bookkept w) (p : V3 K) (a : K) (h : w.setCurrentPosition p a = .ok w') : Becomes (some p) w w' := by
  obtain ⟨v', m, hv', rfl, _⟩ := setCurrentPosition_spec w w' p a h
  obtain ⟨_, _, h3⟩ := addConstraint_bookkept w.vertex v' 0 p hb.1 hb.2.1 hv'
  exact ⟨rfl, rfl, rfl, (h3 0).trans (if_pos rfl), fun k hk => (h3 k).trans (if_neg hk)⟩

/-- Well kept and explained. -/
def Sound (g : Told K) (w : Waypoint K) : Prop := Bookkept w ∧ Explained g w

theorem explained_same {g : Told K} {w w' : Waypoint K} (he : Explained g w) (hv : w'.vertex = w.vertex) (hn : w'.name = w.name) (hc : w'.current = w.current) :
    Explained g w' := by
  unfold Explained AskedFor VehicleStart at he ⊢
  rw [hv, hn, hc]
  exact he

theorem drone_constraints (p : Planner K) (ws r : List (Waypoint K)) (h : p.appendDronePosition ws = .ok r) (w : Waypoint K) (hr : r = w :: ws) (k : Int)
    (h0 : k ≠ 0) (h1 : k ≠ 1) (h2 : k ≠ 2) : w.vertex.getConstraint k = none := by
  subst hr
  unfold Planner.appendDronePosition at h
  simp only [bind, Except.bind] at h
  split at h
  · cases h
  · rename_i w1 e1
    obtain ⟨v1, hv1, rfl⟩ := reset_frame _ _ _ e1
    obtain ⟨a1, a2, a3⟩ := addConstraint_bookkept _ _ _ _ rfl (wellFormed_mk' 3) hv1
    split at h
    · cases h
    · rename_i w2 e2
      rw [Waypoint.setConstraint, if_neg (by norm_num)] at e2
      simp only [bind, Except.bind] at e2
      split at e2
      · cases e2
      · rename_i v2 hv2
        obtain ⟨b1, b2, b3⟩ := addConstraint_bookkept _ _ _ _ a1 a2 hv2
        have e2 := Except.ok.inj e2
        subst e2
        split at h
        · cases h
        · rename_i w3 e3
          rw [Waypoint.setConstraint, if_neg (by norm_num)] at e3
          simp only [bind, Except.bind] at e3
          split at e3
          · cases e3
          · rename_i v3 hv3
            obtain ⟨_, _, c3⟩ := addConstraint_bookkept _ _ _ _ b1 b2 hv3
            have e3 := Except.ok.inj e3
            subst e3
            have := Except.ok.inj h
            rw [← (List.cons.inj this).1]
            simp only [Waypoint.copy]
            rw [c3 k, if_neg h2, b3 k, if_neg h1, a3 k, if_neg h0]
            rfl

theorem sound_closed (g : Told K) : Closed (Sound g) (· ∈ g.updates) (· ∈ g.positions) where
  copy w h := ⟨copy_bookkept h.1, explained_same h.2 rfl rfl rfl⟩
  setTime w t h := ⟨setTime_bookkept t h.1, explained_same h.2 rfl rfl rfl⟩
  setIndex w i h := ⟨setIndex_bookkept i h.1, explained_same h.2 rfl rfl rfl⟩
  renew w w' h hr := by
    have hr' : w.reset w.current = .ok w' := hr
    obtain ⟨h1, _, h3⟩ := origin_reset w w' h.1 w.current hr'
    exact ⟨h3, explained_becomes h.1 h.2 h1 (.inl rfl)⟩
  reset w w' x h hn hu hr := by
    obtain ⟨h1, _, h3⟩ := origin_reset w w' h.1 x hr
    exact ⟨h3, explained_becomes h.1 h.2 h1 (.inr ⟨hn, hu⟩)⟩
  move w w' x t h hn hu hr :=
    ⟨step_bookkept (.update x t) w w' hr h.1, explained_becomes h.1 h.2 (origin_set w w' h.1 x t hr) (.inr ⟨hn, hu⟩)⟩
  drone p ws r hv hr := by
    obtain ⟨w, e, b, _, hn, hc, h1, h2⟩ := appendDrone_spec p ws r hr
    refine ⟨w, e, b, .inr (.inl ⟨hn, p.vehicle, hv, fun k => ?_⟩)⟩
    split
    · rename_i hk; subst hk; rw [b.2.2.1, hc]
    · rename_i hk
      split
      · rename_i hk'
        rcases hk' with rfl | rfl
        · exact h1
        · exact h2
      · rename_i hk'
        push Not at hk'
        exact drone_constraints p ws r hr w e k hk hk'.1 hk'.2
  attach refs b w hw := by
    unfold attachPoint at hw
    simp only [bind, Except.bind] at hw
    split at hw
    · cases hw
    · rename_i v0 hv0
      obtain ⟨a1, a2, a3⟩ := addConstraint_bookkept _ _ _ _ rfl (wellFormed_mk' 3) hv0
      have fin : ∀ v : Vertex K, v.D = 3 → WellFormed v → v.getConstraint 0 = some refs.position.toList → Waypoint.ofVertex v "stitching_point" = .ok w → Sound g w := by
        intro v d1 d2 d3 hw
        refine ⟨ofVertex_bookkept v _ d1 d2 w hw, .inr (.inr ?_)⟩
        unfold Waypoint.ofVertex at hw
        rw [d3] at hw
        simp [bind, Except.bind, at?, V3.toList] at hw
        rw [← Except.ok.inj hw]
      split at hw
      · split at hw
        · cases hw
        · rename_i v1 hv1
          obtain ⟨b1, b2, b3⟩ := addConstraint_bookkept _ _ _ _ a1 a2 hv1
          split at hw
          · cases hw
          · rename_i v2 hv2
            obtain ⟨c1, c2, c3⟩ := addConstraint_bookkept _ _ _ _ b1 b2 hv2
            refine fin v2 c1 c2 ?_ hw
            rw [c3 0, if_neg (by norm_num), b3 0, if_neg (by norm_num), a3 0, if_pos rfl]
      · refine fin v0 a1 a2 ?_ hw
        rw [a3 0, if_pos rfl]

theorem hear_mono (g : Told K) (l : Label K) : (∀ w, Sound g w → Sound (g.hear l) w) ∧ (∀ m ∈ g.updates, m ∈ (g.hear l).updates) ∧
    ∀ x ∈ g.positions, x ∈ (g.hear l).positions := by
  have grow : ∀ h : Told K, (∀ w ∈ g.waypoints, w ∈ h.waypoints) → (∀ m ∈ g.updates, m ∈ h.updates) → (∀ x ∈ g.positions, x ∈ h.positions) →
      (∀ w, Sound g w → Sound h w) ∧ (∀ m ∈ g.updates, m ∈ h.updates) ∧ ∀ x ∈ g.positions, x ∈ h.positions := by
    intro h h1 h2 h3
    refine ⟨fun w hw => ⟨hw.1, ?_⟩, h2, h3⟩
    rcases hw.2 with ⟨y, hy, a1, a2, a3, a4⟩ | ⟨a1, y, hy, a2⟩ | a
    · exact .inl ⟨y, h1 y hy, a1, a2, a3, a4.imp id fun hh => ⟨hh.1, h2 _ hh.2⟩⟩
    · exact .inr (.inl ⟨a1, y, h3 y hy, a2⟩)
    · exact .inr (.inr a)
  apply grow
  all_goals
    intro y hy
    unfold Told.hear
    split <;> simp [hy]

theorem asked_sound {g : Told K} {w : Waypoint K} (hw : w ∈ g.waypoints) (hb : Bookkept w) : Sound g w :=
  ⟨hb, .inl ⟨w, hw, rfl, fun _ _ => rfl, hb.2.2.1, .inl rfl⟩⟩

/-- The calls of the users. -/
theorem user_carried {env : Env K} {g : Told K} {s : Whole K} {p' : Planner K} {e : Event K} (hu : ByUsers e) (hv : ValidEvent e)
    (h : s.p.step env e = .ok (some p')) (hc : Conveyed (Sound g) (· ∈ g.updates) (· ∈ g.positions) s) :
    Conveyed (Sound (g.hear (.user e))) (· ∈ (g.hear (.user e)).updates) (· ∈ (g.hear (.user e)).positions) ⟨p', s.c, s.w⟩ ∧ p'.dyn = s.p.dyn ∧
      p'.computing = s.p.computing ∧ p'.pc = s.p.pc ∧ p'.next = s.p.next := by
  obtain ⟨m1, m2, m3⟩ := hear_mono g (.user e)
  have hc' := hc.mono m1 m2 m3
  obtain ⟨c1, c2, c3, c4, c5, c6⟩ := hc'
  cases e with
  | setWaypoints ws =>
    rw [← Option.some.inj (Except.ok.inj h)]
    refine ⟨⟨?_, by simp [Planner.setWaypoints], by simp [Planner.setWaypoints], c4, c5, c6⟩, rfl, rfl, rfl, rfl⟩
    refine map_copy_mem (sound_closed _).copy fun w hw => asked_sound ?_ (hv w hw)
    simp [Told.hear, hw]
  | appendWaypoint w =>
    rw [← Option.some.inj (Except.ok.inj h)]
    refine ⟨⟨c1, ?_, c3, c4, c5, c6⟩, rfl, rfl, rfl, rfl⟩
    intro y hy
    rcases List.mem_append.mp hy with hy | hy
    · exact c2 y hy
    · rw [List.mem_singleton.mp hy]
      exact (sound_closed _).copy _ (asked_sound (by simp [Told.hear]) hv)
  | modifyWaypoint n x gen =>
    rw [← Option.some.inj (Except.ok.inj h)]
    refine ⟨⟨c1, c2, ?_, c4, c5, c6⟩, rfl, rfl, rfl, rfl⟩
    intro m hm
    rcases mem_putModification hm with rfl | hm
    · simp [Told.hear]
    · exact c3 m hm
  | setSpeed v => rw [← Option.some.inj (Except.ok.inj h)]; exact ⟨⟨c1, c2, c3, c4, c5, c6⟩, rfl, rfl, rfl, rfl⟩
  | getWasTrajectoryRegenerated => rw [← Option.some.inj (Except.ok.inj h)]; exact ⟨⟨c1, c2, c3, c4, c5, c6⟩, rfl, rfl, rfl, rfl⟩
  | updateVehiclePosition x =>
    rw [← Option.some.inj (Except.ok.inj h)]
    exact ⟨⟨c1, c2, c3, c4, by simp [Told.hear, Planner.updateVehiclePosition], c6⟩, rfl, rfl, rfl, rfl⟩
  | _ => exact hu.elim

/-- Everything is explained. -/
def AllExplained (g : Told K) (s : Whole K) : Prop := Conveyed (Sound g) (· ∈ g.updates) (· ∈ g.positions) s ∧ InForce (Sound g) s

theorem allExplained_step {env : Env K} {g : Told K} {l : Label K} {s s' : Whole K} (h : ThreadStep env l s s') (ha : AllExplained g s) :
    AllExplained (g.hear l) s' := by
  have hC := sound_closed g
  obtain ⟨hc, hi⟩ := ha
  cases h with
  | @evaluator p p' c c' w h =>
    obtain ⟨_, r1, r2, r3, r4, r5, _⟩ := own_requests h
    obtain ⟨c1, c2, c3, c4, c5, c6⟩ := hc
    refine ⟨⟨by rw [r1]; exact c1, by rw [r2]; exact c2, by rw [r3]; exact c3, by rw [r4]; exact c4, by rw [r5]; exact c5, c6⟩, ?_⟩
    rcases own_inForce h with ⟨⟨k, rfl, rfl⟩, e, _⟩ | ⟨⟨k, rfl, rfl⟩, e⟩ | ⟨_, e, _, e'⟩
    · exact ⟨by rw [e]; exact carried_copies hC c4, by simp⟩
    · exact ⟨by rw [e]; exact hi.1, by simp⟩
    · refine ⟨by rw [e]; exact hi.1, fun ws hw => ?_⟩
      rw [e' ws hw]
      exact carried_copies hC hi.1
  | worker h =>
    obtain ⟨h1, h2, h3⟩ := work_carried hC h hc (fun _ => hi.1)
    exact ⟨h1, h3 hi.1, by rw [h2]; exact hi.2⟩
  | @user s p' e hu hv hq h =>
    obtain ⟨h1, h2, _⟩ := user_carried hu hv h hc
    have := hi.mono (hear_mono g (.user e)).1
    exact ⟨h1, by rw [h2]; exact this.1, this.2⟩
  | request => exact ⟨⟨hc.toSet, hc.toAdd, hc.toModify, hc.next, hc.vehicle, hc.worker⟩, hi⟩
  | @task s p' e ht hv h =>
    obtain ⟨h1, h2, _⟩ := task_carried hC ht h hc
    exact ⟨h1, by rw [h2]; exact hi.1, hi.2⟩

theorem allExplained_hears {env : Env K} {g0 g : Told K} {s0 s : Whole K} (h : Hears env g0 s0 g s) (h0 : AllExplained g0 s0) : AllExplained g s := by
  induction h with
  | start => exact h0
  | call k _ hf ih =>
    obtain ⟨c, i1, i2⟩ := ih
    exact ⟨⟨c.toSet, c.toAdd, c.toModify, c.next, c.vehicle, c.worker⟩, i1, by simp⟩
  | step _ hs ih => exact allExplained_step hs ih

/-- C140: in every interleaving of all threads, every waypoint of the plan, and every one `getDynamicWaypoints` returned, is one that was handed over, with its name and its
constraints, at the position handed over or at one given for its name later; or a start at rest at a position the vehicle was known to be at; or a point at which a plan was
attached to the one before. -/
theorem C140_waypoints (env : Env K) (x : V3 K) (g : Told K) (s : Whole K) (h : Hears env ⟨[], [], [x]⟩ ⟨Planner.init x, .free, .begin⟩ g s) :
    (∀ w ∈ s.p.dyn, Explained g w) ∧ ∀ ws, s.c = .copied ws → ∀ w ∈ ws, Explained g w := by
  have h0 : AllExplained (⟨[], [], [x]⟩ : Told K) ⟨Planner.init x, .free, .begin⟩ :=
    ⟨⟨by simp [Planner.init], by simp [Planner.init], by simp [Planner.init], by simp [Planner.init], by simp [Planner.init], trivial⟩, by simp [Planner.init], by simp⟩
  obtain ⟨_, h1, h2⟩ := allExplained_hears h h0
  exact ⟨fun w hw => (h1 w hw).2, fun ws hc w hw => (h2 ws hc w hw).2⟩

/-! ## A replaced route does not come back -/

/-- A plan made of explained waypoints is under way; the plan in force may still be an old one. -/
structure Coming (g : Told K) (s : Whole K) : Prop where
  carried : Conveyed (Sound g) (· ∈ g.updates) (· ∈ g.positions) s
  before : ∀ k, s.c ≠ .clearComputing k
  phase : (s.p.pc = .collected ∧ s.p.next ≠ []) ∨ s.p.pc = .snapshotted ∨ s.p.pc = .planned ∨
    (s.p.computing = true ∧ (s.p.pc = .launching ∨ s.p.pc = .launched ∨ s.p.pc = .top))

theorem coming_pc {g : Told K} {s : Whole K} (h : Coming g s) : ¬ (s.p.pc = .collect ∨ s.p.pc = .apply) := by
  rcases h.phase with h | h | h | ⟨_, h | h | h⟩
  · rw [h.1]; decide
  all_goals (rw [h]; decide)

/-- The worker, while a plan is under way. -/
theorem work_coming {env : Env K} {s s' : Whole K} (h : s.work env = .ok s')
    (hp : (s.p.pc = .collected ∧ s.p.next ≠ []) ∨ s.p.pc = .snapshotted ∨ s.p.pc = .planned ∨
      (s.p.computing = true ∧ (s.p.pc = .launching ∨ s.p.pc = .launched ∨ s.p.pc = .top))) :
    ((s'.p.pc = .collected ∧ s'.p.next ≠ []) ∨ s'.p.pc = .snapshotted ∨ s'.p.pc = .planned ∨
      (s'.p.computing = true ∧ (s'.p.pc = .launching ∨ s'.p.pc = .launched ∨ s'.p.pc = .top))) ∧ (s.p.computing = true → s'.p.computing = true) := by
  obtain ⟨p, c, w⟩ := s
  have snap : ∀ {q : Whole K}, (Except.ok q : Res (Whole K)) = .ok s' → (q.p.pc = .snapshotted ∨ q.p.pc = .planned) → q.p.computing = p.computing →
      ((s'.p.pc = .collected ∧ s'.p.next ≠ []) ∨ s'.p.pc = .snapshotted ∨ s'.p.pc = .planned ∨
      (s'.p.computing = true ∧ (s'.p.pc = .launching ∨ s'.p.pc = .launched ∨ s'.p.pc = .top))) ∧ (p.computing = true → s'.p.computing = true) := by
    intro q h h1 h2
    rw [← Except.ok.inj h, h2]
    exact ⟨.inr (h1.imp id .inl), id⟩
  have busy : ∀ {q : Whole K}, (Except.ok q : Res (Whole K)) = .ok s' → (q.p.pc = .launching ∨ q.p.pc = .launched ∨ q.p.pc = .top) → q.p.computing = true →
      ((s'.p.pc = .collected ∧ s'.p.next ≠ []) ∨ s'.p.pc = .snapshotted ∨ s'.p.pc = .planned ∨
      (s'.p.computing = true ∧ (s'.p.pc = .launching ∨ s'.p.pc = .launched ∨ s'.p.pc = .top))) ∧ (p.computing = true → s'.p.computing = true) := by
    intro q h h1 h2
    rw [← Except.ok.inj h]
    exact ⟨.inr (.inr (.inr ⟨h2, h1⟩)), fun _ => h2⟩
  rcases hp with ⟨hpc, hn⟩ | hpc | hpc | ⟨hb, hpc | hpc | hpc⟩
  · change p.pc = .collected at hpc
    change p.next ≠ [] at hn
    cases w with
    | begin =>
      simp only [Whole.work, hpc, bind, Except.bind, Planner.workerStep] at h
      rw [if_neg (by simpa using hn)] at h
      exact snap h (.inl rfl) rfl
    | _ => simp [Whole.work, hpc] at h
  · change p.pc = .snapshotted at hpc
    cases w with
    | begin => simp only [Whole.work, hpc] at h; exact snap h (.inl hpc) rfl
    | stitchParams => simp only [Whole.work, hpc] at h; exact snap h (.inl hpc) rfl
    | stitchTime clock start =>
      simp only [Whole.work, hpc] at h
      split at h
      · cases h
      · exact snap h (.inl hpc) rfl
    | attach => simp only [Whole.work, hpc] at h; exact snap h (.inl rfl) rfl
    | point0 => simp only [Whole.work, hpc] at h; exact snap h (.inl hpc) rfl
    | convert t points => simp only [Whole.work, hpc] at h; exact snap h (.inl hpc) rfl
    | plain g t points done =>
      simp only [Whole.work, hpc] at h
      split at h
      · cases h
      · simp only [bind, Except.bind] at h
        split at h
        · cases h
        · split at h
          · cases h
          · exact snap h (.inl hpc) rfl
    | compensate g t points done base =>
      simp only [Whole.work, hpc, bind, Except.bind] at h
      split at h
      · split at h
        · cases h
        · split at h
          · exact snap h (.inl hpc) rfl
          · split at h
            · cases h
            · split at h <;> exact snap h (.inl hpc) rfl
      · simp only [pure, Except.pure] at h
        split at h
        · exact snap h (.inl hpc) rfl
        · split at h
          · cases h
          · split at h <;> exact snap h (.inl hpc) rfl
    | rest t points => simp only [Whole.work, hpc] at h; exact snap h (.inr rfl) rfl
    | drone => simp only [Whole.work, hpc] at h; exact snap h (.inl rfl) rfl
    | vehicle =>
      simp only [Whole.work, hpc, bind, Except.bind] at h
      split at h
      · cases h
      · exact snap h (.inr rfl) rfl
    | _ => simp [Whole.work, hpc] at h
  · change p.pc = .planned at hpc
    cases w with
    | begin =>
      simp only [Whole.work, hpc, bind, Except.bind, Planner.workerStep] at h
      exact busy h (.inl rfl) rfl
    | _ => simp [Whole.work, hpc] at h
  · change p.pc = .launching at hpc
    cases w with
    | begin =>
      simp only [Whole.work, hpc, bind, Except.bind, Planner.workerStep] at h
      exact busy h (.inr (.inl rfl)) hb
    | _ => simp [Whole.work, hpc] at h
  · change p.pc = .launched at hpc
    cases w with
    | begin =>
      simp only [Whole.work, hpc, bind, Except.bind, Planner.workerStep] at h
      exact busy h (.inr (.inr rfl)) hb
    | _ => simp [Whole.work, hpc] at h
  · change p.pc = .top at hpc
    change p.computing = true at hb
    cases w with
    | status z =>
      simp only [Whole.work, hpc, hb, Bool.not_true, Bool.and_false, Bool.false_eq_true, if_false] at h
      exact busy h (.inr (.inr hpc)) hb
    | queueStatus =>
      simp only [Whole.work, hpc, hb, Bool.not_true, Bool.false_eq_true, if_false] at h
      exact busy h (.inr (.inr hpc)) hb
    | begin => simp only [Whole.work, hpc] at h; exact busy h (.inr (.inr hpc)) hb
    | zone => simp only [Whole.work, hpc] at h; exact busy h (.inr (.inr hpc)) hb
    | zoneRead => simp only [Whole.work, hpc] at h; exact busy h (.inr (.inr hpc)) hb
    | zoneLoop ws clock => simp only [Whole.work, hpc] at h; exact busy h (.inr (.inr hpc)) hb
    | queue => simp only [Whole.work, hpc] at h; exact busy h (.inr (.inr hpc)) hb
    | _ => simp [Whole.work, hpc] at h

theorem coming_step {env : Env K} {g : Told K} {l : Label K} {s s' : Whole K} (h : ThreadStep env l s s') (ha : Coming g s) :
    (Coming (g.hear l) s' ∨ AllExplained (g.hear l) s') ∧ (s.p.computing = true → s'.p.computing = true) := by
  have hC := sound_closed g
  have hpc := coming_pc ha
  obtain ⟨hc, hk, hp⟩ := ha
  cases h with
  | @evaluator p p' c c' w h =>
    obtain ⟨_, r1, r2, r3, r4, r5, _⟩ := own_requests h
    have hpc' := own_pc h
    obtain ⟨c1, c2, c3, c4, c5, c6⟩ := hc
    have hc' : Conveyed (Sound g) (· ∈ g.updates) (· ∈ g.positions) ⟨p', c', w⟩ :=
      ⟨by rw [r1]; exact c1, by rw [r2]; exact c2, by rw [r3]; exact c3, by rw [r4]; exact c4, by rw [r5]; exact c5, c6⟩
    rcases own_inForce h with ⟨⟨k, rfl, rfl⟩, e, e'⟩ | ⟨⟨k, rfl, rfl⟩, e⟩ | ⟨e0, e, e', _⟩
    · exact ⟨.inr ⟨hc', by rw [e]; exact carried_copies hC c4, by simp⟩, fun hb => by rw [e']; exact hb⟩
    · exact absurd rfl (hk k)
    · refine ⟨.inl ⟨hc', e0, ?_⟩, fun hb => by rw [e']; exact hb⟩
      simp only [hpc', r4, e']
      exact hp
  | worker h =>
    obtain ⟨h1, h2, _⟩ := work_carried hC h hc (fun hh => absurd hh hpc)
    obtain ⟨k1, k2⟩ := work_coming h hp
    exact ⟨.inl ⟨h1, by rw [h2]; exact hk, k1⟩, k2⟩
  | @user s p' e hu hv hq h =>
    obtain ⟨h1, _, h3, h4, h5⟩ := user_carried hu hv h hc
    refine ⟨.inl ⟨h1, hk, ?_⟩, fun hb => by rw [h3]; exact hb⟩
    simp only [h3, h4, h5]
    exact hp
  | request => exact ⟨.inl ⟨⟨hc.toSet, hc.toAdd, hc.toModify, hc.next, hc.vehicle, hc.worker⟩, hk, hp⟩, id⟩
  | @task s p' e ht hv h =>
    obtain ⟨h1, _, h3, h4⟩ := task_carried hC ht h hc
    refine ⟨.inl ⟨h1, hk, ?_⟩, fun hb => by rw [h3]; exact hb⟩
    have hn : p'.next ≠ [] ↔ s.p.next ≠ [] := by rw [← List.length_pos_iff, ← List.length_pos_iff, h4]
    simp only [h3, hn, (task_pc ht h).1]
    exact hp

theorem coming_hears {env : Env K} {g0 g : Told K} {s0 s : Whole K} (h : Hears env g0 s0 g s) (h0 : Coming g0 s0) : Coming g s ∨ AllExplained g s := by
  induction h with
  | start => exact .inl h0
  | call k _ hf ih =>
    rcases ih with ⟨c, b, p⟩ | ⟨c, i1, i2⟩
    · exact .inl ⟨⟨c.toSet, c.toAdd, c.toModify, c.next, c.vehicle, c.worker⟩, by simp, p⟩
    · exact .inr ⟨⟨c.toSet, c.toAdd, c.toModify, c.next, c.vehicle, c.worker⟩, i1, by simp⟩
  | step _ hs ih =>
    rcases ih with ih | ih
    · exact (coming_step hs ih).1
    · exact .inr (allExplained_step hs ih)

theorem coming_taken {env : Env K} {r : Requests K} {s0 s1 : Whole K} {l : Label K} (hr : r.route ≠ []) (hp : Pending env r s0) (hs : ThreadStep env l s0 s1)
    (ht : TakesRequests s0 l s1) : Coming ⟨r.route ++ r.appended, r.updates, [s1.p.vehicle]⟩ s1 := by
  obtain ⟨hth, htr⟩ := pending_tracks hp
  obtain ⟨_, h1, h2⟩ := ht
  obtain ⟨base, all, e1, e2, e3⟩ := collect_ends hs hth h1 h2
  have hloc := (threads_inv hth).2
  unfold Local at hloc
  rw [h1, e1] at hloc
  obtain ⟨clock, hB⟩ := hloc
  obtain ⟨q, hq⟩ := base_generate hB e2
  have hwp := serialised_wp (threads_phase hth (by simp [h1])).1
  have hcont := generated_contents { s0.p with params := { s0.p.params with lastGlobal := clock } } q r ⟨htr.toSet, htr.toAdd, htr.nodup, htr.lookup⟩
    ⟨hwp.dyn, hwp.next, hwp.toAdd, hwp.toSet⟩ all hq
  have hne : r.route.isEmpty = false := by
    cases hh : r.route with
    | nil => exact absurd hh hr
    | cons a l => rfl
  rw [hne] at hcont
  simp only [Bool.false_eq_true, if_false] at hcont
  have hw1 : s1.w = .begin := by
    cases hs with
    | @evaluator p p' c c' w h => rw [own_pc h] at h2; rw [h1] at h2; cases h2
    | worker h =>
      obtain ⟨p, c, w⟩ := s0
      change p.pc = .collect at h1
      change w = .merge base at e1
      subst e1
      simp only [Whole.work, h1, bind, Except.bind] at h
      split at h
      · cases h
      · rw [← Except.ok.inj h]
    | @user s p' e hu hv hq h => rw [(user_beside hu hq h).pc, h1] at h2; cases h2
    | request => rw [h1] at h2; cases h2
    | @task s p' e ht hv h => rw [(task_pc ht h).1, h1] at h2; cases h2
  have hth1 : Threads env s1 := .step hth hs
  have hph := threads_phase hth1 (by simp [h2])
  have hwp1 := serialised_wp hph.1
  refine ⟨⟨by rw [e3]; simp, by rw [e3]; simp, by rw [e3]; simp, ?_, by simp, by rw [hw1]; trivial⟩, ?_, .inl ⟨h2, ?_⟩⟩
  · intro w hw
    refine ⟨hwp1.next w hw, .inl ?_⟩
    rw [e3] at hw
    obtain ⟨a, ha, b1, b2, b3, b4, b5⟩ := forall2_mem_right hcont hw
    refine ⟨a, ha, b1, b5, b4, ?_⟩
    unfold updateFor at b3
    split at b3
    · exact .inl b3
    · rename_i hn
      unfold lastUpdate at b3
      cases hl : (r.updates.filter fun u => decide (u.1 = a.name)).getLast? with
      | none => rw [hl] at b3; exact .inl b3
      | some u =>
        rw [hl] at b3
        have hm := List.mem_of_getLast? hl
        obtain ⟨m1, m2⟩ := List.mem_filter.mp hm
        refine .inr ⟨by rw [b1]; exact hn, ?_⟩
        have : u = (w.name, w.current) := by
          rw [b3, b1, ← of_decide_eq_true m2]
          rfl
        rw [← this]
        exact m1
  · intro k hk
    have := hph.2.2.2
    rw [hk] at this
    exact this trivial
  · rw [e3]
    intro he
    change all = [] at he
    rw [he] at hcont
    have := hcont.length_eq
    simp only [List.length_append, List.length_nil] at this
    have : 0 < r.route.length := List.length_pos_iff.mpr hr
    omega

/-- C140: a replaced route does not come back. A route is pending when the worker takes the requests for a plan (from `s0` to `s1`), and later this plan is taken over (from `s2` to
`s3`), in any interleaving of all threads. From then on every waypoint of the plan in force, and every one `getDynamicWaypoints` returns, is explained by that route and
by what was requested with it or later: nothing of an earlier route, no earlier update, no earlier start. -/
theorem C140_replaced (env : Env K) (r : Requests K) (hr : r.route ≠ []) (s0 s1 s2 s3 s : Whole K) (l l' : Label K) (g2 g : Told K) (hp : Pending env r s0)
    (h1 : ThreadStep env l s0 s1) (ht : TakesRequests s0 l s1) (h2 : Hears env ⟨r.route ++ r.appended, r.updates, [s1.p.vehicle]⟩ s1 g2 s2)
    (h3 : ThreadStep env l' s2 s3) (ho : TakesOver s2.p s3.p) (h4 : Hears env g2 s3 g s) :
    (∀ w ∈ s.p.dyn, Explained g w) ∧ ∀ ws, s.c = .copied ws → ∀ w ∈ ws, Explained g w := by
  have e2 : AllExplained g2 s2 := by
    rcases coming_hears h2 (coming_taken hr hp h1 ht) with h | h
    · have := (coming_step h3 h).2 ho.1
      rw [ho.2] at this
      cases this
    · exact h
  have e3 : AllExplained g2 s3 := by
    have := allExplained_step h3 e2
    cases h3 with
    | evaluator w h => exact this
    | worker h => exact this
    | request => exact this
    | task e ht hv h => exact this
    | user e hu hv hq h =>
      have := (user_carried hu hv h e2.1).2.2.1
      have h2 : _ = false := ho.2
      rw [this, ho.1] at h2
      cases h2
  obtain ⟨_, k1, k2⟩ := allExplained_hears h4 e3
  exact ⟨fun w hw => (k1 w hw).2, fun ws hc w hw => (k2 ws hc w hw).2⟩

end

section
/-! ## Concrete interleavings -/

/-- Execute, keeping track of what the planner is told. -/
def hearAll (x : Told ℚ × Whole ℚ) : List Move → Option (Told ℚ × Whole ℚ)
  | [] => some x
  | m :: ms => match move x.2 m with
    | none => none
    | some s' => hearAll (x.1.hear m.label, s') ms

theorem hearAll_hears (g0 : Told ℚ) (s0 : Whole ℚ) (ms : List Move) (hm : ∀ m ∈ ms, MoveOk m) (x y : Told ℚ × Whole ℚ) (h : hearAll x ms = some y)
    (hx : Hears hermiteEnv g0 s0 x.1 x.2) : Hears hermiteEnv g0 s0 y.1 y.2 := by
  induction ms generalizing x with
  | nil => rw [← Option.some.inj h]; exact hx
  | cons m ms ih =>
    simp only [hearAll] at h
    split at h
    · cases h
    · rename_i s' hs
      have hrest := fun m' hm' => hm m' (List.mem_cons_of_mem _ hm')
      by_cases hc : NotCall m
      · exact ih hrest _ h (.step hx (move_step _ _ m hc (hm m List.mem_cons_self) hs))
      · cases m with
        | call k =>
          simp only [move] at hs
          split at hs
          · rename_i hf
            rw [← Option.some.inj hs] at h
            exact ih hrest _ h (.call k hx hf)
          · cases hs
        | _ => exact absurd trivial hc

/-- A route `a`, `b` is flown; then the route `c` is given and the worker is about to take it. -/
def givenAgain : List Move := flying2 ++ [.user (.setWaypoints [wp "c" 3 3 3])] ++ times 6 .work

/-- It is planned and evaluated, up to the taking over. -/
def plannedAgain : List Move :=
  times 24 .work ++ [.task .asyncStart, .task (.asyncFinish (1 / 100)), .call (.evaluate (1 / 10) false false)] ++ times 16 .own

/-- `c` is moved, `d` is appended, planned and flown. -/
def flownOn : List Move :=
  times 10 .own ++ [.user (.modifyWaypoint "c" ⟨4, 4, 4⟩ true), .user (.appendWaypoint (wp "d" 5 5 5))] ++ times 45 .work ++
    [.task .asyncStart, .task (.asyncFinish (1 / 100)), .call (.evaluate (1 / 5) false false)] ++ times 26 .own

theorem givenAgain_ok : ∀ m ∈ givenAgain, MoveOk m := by
  unfold givenAgain
  refine append_ok (append_ok flying2_ok ?_) (times_ok _ _ trivial)
  simp [MoveOk, ByUsers, ValidEvent, wp_bookkept]

theorem plannedAgain_ok : ∀ m ∈ plannedAgain, MoveOk m := by
  unfold plannedAgain
  refine append_ok (append_ok (times_ok _ _ trivial) ?_) (times_ok _ _ trivial)
  simp [MoveOk, ByTask, ValidEvent]

theorem flownOn_ok : ∀ m ∈ flownOn, MoveOk m := by
  unfold flownOn
  refine append_ok (append_ok (append_ok (append_ok (times_ok _ _ trivial) ?_) (times_ok _ _ trivial)) ?_) (times_ok _ _ trivial)
  · simp [MoveOk, ByUsers, ValidEvent, wp_bookkept]
  · simp [MoveOk, ByTask, ValidEvent]

/-- The hypotheses of `C140_waypoints` are met by a long flight with a replaced route, an update, an appended waypoint; the plan it speaks of has five waypoints. -/
example : ∃ (g : Told ℚ) (s : Whole ℚ), Hears hermiteEnv ⟨[], [], [⟨0, 0, 0⟩]⟩ ⟨Planner.init ⟨0, 0, 0⟩, .free, .begin⟩ g s ∧
    g.waypoints.map (·.name) = ["a", "b", "c", "d"] ∧ g.updates = [("c", ⟨4, 4, 4⟩)] ∧
    s.p.dyn.map (·.name) = ["stitching_point", "stitching_point", "stitching_point", "c", "d"] := by
  have h : (hearAll (⟨[], [], [⟨0, 0, 0⟩]⟩, start.s) (givenAgain ++ [.work] ++ plannedAgain ++ [.own] ++ flownOn)).map
      (fun y => (y.1.waypoints.map (·.name), y.1.updates, y.2.p.dyn.map (·.name))) =
      some (["a", "b", "c", "d"], [("c", ⟨4, 4, 4⟩)], ["stitching_point", "stitching_point", "stitching_point", "c", "d"]) := by decide +kernel
  obtain ⟨y, hy, hq⟩ := Option.map_eq_some_iff.mp h
  obtain ⟨q1, hq⟩ := Prod.mk.inj hq
  obtain ⟨q2, q3⟩ := Prod.mk.inj hq
  refine ⟨y.1, y.2, hearAll_hears _ _ _ ?_ _ y hy .start, q1, q2, q3⟩
  refine append_ok (append_ok (append_ok (append_ok givenAgain_ok ?_) plannedAgain_ok) ?_) flownOn_ok <;> simp [MoveOk]

/-- A route is taken, planned, taken over, and the flight goes on. -/
def replacing (as bs cs : List Move) : Option (Trace × Whole ℚ × (Told ℚ × Whole ℚ) × Whole ℚ × (Told ℚ × Whole ℚ)) :=
  match moveAll start as with
  | none => none
  | some t => match move t.s .work with
    | none => none
    | some s1 => match hearAll (⟨t.g.route ++ t.g.appended, t.g.updates, [s1.p.vehicle]⟩, s1) bs with
      | none => none
      | some x => match move x.2 .own with
        | none => none
        | some s3 => match hearAll (x.1, s3) cs with
          | none => none
          | some y => some (t, s1, x, s3, y)

/-- The hypotheses of `C140_replaced` are met: of the first route, `a` and `b`, nothing is left, and its conclusion speaks of the later update and the later waypoint. -/
example : ∃ (r : Requests ℚ) (s0 s1 s2 s3 s : Whole ℚ) (g2 g : Told ℚ), r.route ≠ [] ∧ Pending hermiteEnv r s0 ∧ ThreadStep hermiteEnv .worker s0 s1 ∧
    TakesRequests s0 .worker s1 ∧ Hears hermiteEnv ⟨r.route ++ r.appended, r.updates, [s1.p.vehicle]⟩ s1 g2 s2 ∧ ThreadStep hermiteEnv .evaluator s2 s3 ∧
    TakesOver s2.p s3.p ∧ Hears hermiteEnv g2 s3 g s ∧ g.waypoints.map (·.name) = ["c", "d"] ∧ s0.p.dyn.map (·.name) = ["", "a", "b"] ∧
    s.p.dyn.map (·.name) = ["stitching_point", "stitching_point", "stitching_point", "c", "d"] := by
  have h : (replacing givenAgain plannedAgain flownOn).map (fun z => ([z.1.s.p.pc, z.2.1.p.pc], [z.2.2.1.2.p.computing, z.2.2.2.1.p.computing],
      [z.1.g.route.map (·.name), z.2.2.2.2.1.waypoints.map (·.name), z.1.s.p.dyn.map (·.name), z.2.2.2.2.2.p.dyn.map (·.name)])) =
      some ([.collect, .collected], [true, false], [["c"], ["c", "d"], ["", "a", "b"], ["stitching_point", "stitching_point", "stitching_point", "c", "d"]]) := by
    decide +kernel
  obtain ⟨z, hz, hq⟩ := Option.map_eq_some_iff.mp h
  unfold replacing at hz
  split at hz
  · cases hz
  · rename_i t e1
    split at hz
    · cases hz
    · rename_i s1 e2
      split at hz
      · cases hz
      · rename_i x e3
        split at hz
        · cases hz
        · rename_i s3 e4
          split at hz
          · cases hz
          · rename_i y e5
            rw [← Option.some.inj hz] at hq
            simp only [Prod.mk.injEq, List.cons.injEq, and_true] at hq
            obtain ⟨⟨q2, q3⟩, ⟨q4, q5⟩, q1, q6, q7, q8⟩ := hq
            refine ⟨t.g, t.s, s1, x.2, s3, y.2, x.1, y.1, ?_, moveAll_pending _ start t givenAgain_ok e1 (.init _), move_step _ _ .work trivial trivial e2, ⟨rfl, q2, q3⟩,
              hearAll_hears _ _ _ plannedAgain_ok _ x e3 .start, move_step _ _ .own trivial trivial e4, ⟨q4, q5⟩, hearAll_hears _ _ _ flownOn_ok _ y e5 .start, q6, q7, q8⟩
            intro hn
            rw [hn] at q1
            cases q1

end

end Verif.Properties
