import Verif.Lemmas.Planner
import Verif.Lemmas.Trajectory

/-! # Invariants of the planner -/

set_option linter.unusedSectionVars false
set_option linter.unusedSimpArgs false

namespace Verif.Lemmas
open Verif Verif.Spec

section Lists
variable {α β : Type*}

theorem mapM_forall2 (f : α → Res β) (l : List α) (l' : List β) (h : l.mapM f = .ok l') :
    List.Forall₂ (fun a b => f a = .ok b) l l' := by
  induction l generalizing l' with
  | nil =>
    simp [pure, Except.pure] at h
    subst h; exact .nil
  | cons a l ih =>
    simp only [List.mapM_cons, bind, Except.bind] at h
    cases hf : f a with
    | error e => rw [hf] at h; cases h
    | ok b =>
      rw [hf] at h
      simp only at h
      cases hl : l.mapM f with
      | error e => rw [hl] at h; cases h
      | ok bs =>
        rw [hl] at h
        rw [← Except.ok.inj h]
        exact .cons hf (ih bs hl)

theorem mapM_total (f : α → Res β) (l : List α) (h : ∀ a ∈ l, ∃ b, f a = .ok b) : ∃ l', l.mapM f = .ok l' := by
  induction l with
  | nil => exact ⟨[], rfl⟩
  | cons a l ih =>
    obtain ⟨b, hb⟩ := h a (by simp)
    obtain ⟨l', hl'⟩ := ih (fun x hx => h x (by simp [hx]))
    refine ⟨b :: l', ?_⟩
    simp only [List.mapM_cons, bind, Except.bind, hb, hl']
    rfl

theorem forall2_mem_right {R : α → β → Prop} {l : List α} {l' : List β} (h : List.Forall₂ R l l') {b : β} (hb : b ∈ l') :
    ∃ a ∈ l, R a b := by
  induction h with
  | nil => cases hb
  | cons hab _ ih =>
    rcases List.mem_cons.mp hb with rfl | hb
    · exact ⟨_, by simp, hab⟩
    · obtain ⟨a, ha, hr⟩ := ih hb
      exact ⟨a, by simp [ha], hr⟩

theorem forall2_mem_left {R : α → β → Prop} {l : List α} {l' : List β} (h : List.Forall₂ R l l') {a : α} (ha : a ∈ l) :
    ∃ b ∈ l', R a b := by
  induction h with
  | nil => cases ha
  | cons hab _ ih =>
    rcases List.mem_cons.mp ha with rfl | ha
    · exact ⟨_, by simp, hab⟩
    · obtain ⟨b, hb, hr⟩ := ih ha
      exact ⟨b, by simp [hb], hr⟩

theorem forall2_get {R : α → β → Prop} {l : List α} {l' : List β} (h : List.Forall₂ R l l') (i : ℕ) (a : α) (ha : l[i]? = some a) :
    ∃ b, l'[i]? = some b ∧ R a b := by
  induction h generalizing i with
  | nil => simp at ha
  | cons hab _ ih =>
    cases i with
    | zero => simp at ha; subst ha; exact ⟨_, by simp, hab⟩
    | succ i => simp at ha; obtain ⟨b, hb, hr⟩ := ih i ha; exact ⟨b, by simpa using hb, hr⟩

theorem forall2_get' {R : α → β → Prop} {l : List α} {l' : List β} (h : List.Forall₂ R l l') (i : ℕ) (b : β) (hb : l'[i]? = some b) :
    ∃ a, l[i]? = some a ∧ R a b := by
  induction h generalizing i with
  | nil => simp at hb
  | cons hab _ ih =>
    cases i with
    | zero => simp at hb; subst hb; exact ⟨_, by simp, hab⟩
    | succ i => simp at hb; obtain ⟨b, hb, hr⟩ := ih i hb; exact ⟨b, by simpa using hb, hr⟩

theorem forall2_trans {R : α → α → Prop} (ht : ∀ a b c, R a b → R b c → R a c) {l m n : List α} (h1 : List.Forall₂ R l m)
    (h2 : List.Forall₂ R m n) : List.Forall₂ R l n := by
  induction h1 generalizing n with
  | nil => cases h2; exact .nil
  | cons hab _ ih =>
    cases h2 with
    | cons hbc h2 => exact .cons (ht _ _ _ hab hbc) (ih h2)

theorem forall2_split {R : α → β → Prop} {l1 l2 : List α} {m : List β} (h : List.Forall₂ R (l1 ++ l2) m) :
    ∃ m1 m2, List.Forall₂ R l1 m1 ∧ List.Forall₂ R l2 m2 ∧ m = m1 ++ m2 := by
  induction l1 generalizing m with
  | nil => exact ⟨[], m, .nil, h, rfl⟩
  | cons a l1 ih =>
    cases h with
    | cons hab h =>
      obtain ⟨m1, m2, h1, h2, rfl⟩ := ih h
      exact ⟨_ :: m1, m2, .cons hab h1, h2, rfl⟩

theorem forall2_map_eq {γ : Type*} {R : α → β → Prop} {l : List α} {l' : List β} {f : α → γ} {f' : β → γ} (hf : ∀ a b, R a b → f' b = f a)
    (h : List.Forall₂ R l l') : l'.map f' = l.map f := by
  induction h with
  | nil => rfl
  | cons hab _ ih => simp only [List.map_cons, ih, hf _ _ hab]

end Lists

variable {K : Type*} [Field K] [LinearOrder K] [IsStrictOrderedRing K] [FloorSemiring K]

/-! ## Effects of the list loops -/

/-- What one pending modification does to one waypoint when a plan is prepared. -/
def ResetRel (name : String) (p : V3 K) (a b : Waypoint K) : Prop :=
  (a.name = name ∧ name ≠ "" ∧ a.reset p = .ok b) ∨ (¬ (a.name = name ∧ name ≠ "") ∧ b = a)

theorem resetThrough_rel (n : String) (p : V3 K) (ws ws' : List (Waypoint K)) (h : resetThrough n p ws = .ok ws') :
    List.Forall₂ (ResetRel n p) ws ws' := by
  unfold resetThrough at h
  split at h
  · rename_i hn
    rw [← Except.ok.inj h]
    rw [List.forall₂_same]
    intro a _
    exact Or.inr ⟨fun h => h.2 hn, rfl⟩
  · rename_i hn
    refine (mapM_forall2 _ _ _ h).imp ?_
    intro a b hab
    split at hab
    · rename_i han
      exact Or.inl ⟨han, hn, hab⟩
    · rename_i han
      exact Or.inr ⟨fun h => han h.1, (Except.ok.inj hab).symm⟩

theorem reset_frame (w w' : Waypoint K) (p : V3 K) (h : w.reset p = .ok w') :
    ∃ v, w.vertex.addConstraint 0 p.toList = .ok v ∧ w' = { w with vertex := v, current := p, original := p, modifiers := [] } := by
  unfold Waypoint.reset Waypoint.resetWithCurrent at h
  simp only [bind, Except.bind] at h
  cases hv : w.vertex.addConstraint 0 p.toList with
  | error e => rw [hv] at h; cases h
  | ok v => rw [hv] at h; exact ⟨v, rfl, (Except.ok.inj h).symm⟩

theorem resetAll_length (ms : List (String × V3 K)) (ws ws' : List (Waypoint K)) (h : resetAll ms ws = .ok ws') :
    ws'.length = ws.length := by
  induction ms generalizing ws with
  | nil => rw [← Except.ok.inj h]
  | cons m ms ih =>
    obtain ⟨n, p⟩ := m
    simp only [resetAll, bind, Except.bind] at h
    cases hr : resetThrough n p ws with
    | error e => rw [hr] at h; cases h
    | ok ws1 =>
      rw [hr] at h
      rw [ih ws1 h]
      exact (resetThrough_rel n p ws ws1 hr).length_eq.symm

theorem reset_bookkept' (w w' : Waypoint K) (p : V3 K) (hw : Bookkept w) (h : w.reset p = .ok w') : Bookkept w' :=
  step_bookkept (.reset p) w w' h hw

theorem resetAll_pred (P : Waypoint K → Prop) (hP : ∀ w w' p, P w → w.reset p = .ok w' → P w') (ms : List (String × V3 K))
    (ws ws' : List (Waypoint K)) (h : resetAll ms ws = .ok ws') (hws : ∀ w ∈ ws, P w) : ∀ w ∈ ws', P w := by
  induction ms generalizing ws with
  | nil => rw [← Except.ok.inj h]; exact hws
  | cons m ms ih =>
    obtain ⟨n, p⟩ := m
    simp only [resetAll, bind, Except.bind] at h
    cases hr : resetThrough n p ws with
    | error e => rw [hr] at h; cases h
    | ok ws1 =>
      rw [hr] at h
      apply ih ws1 h
      intro w hw
      obtain ⟨a, ha, hrel⟩ := forall2_mem_right (resetThrough_rel n p ws ws1 hr) hw
      rcases hrel with ⟨_, _, hre⟩ | ⟨_, rfl⟩
      · exact hP a w p (hws a ha) hre
      · exact hws _ ha

theorem assignTimes_rel (segs : List (Segment K)) (g : K) (ws ws' : List (Waypoint K)) (i : ℕ)
    (h : assignTimes segs g ws i = .ok ws') : ws'.length = ws.length ∧
      ∀ (j : ℕ) (w : Waypoint K), ws[j]? = some w → ∃ t, getCummulativeTime segs ((i + j : ℕ) : Int) = .ok t ∧
        ws'[j]? = some ((w.setIndex ((i + j : ℕ) : Int)).setTime (t + g)) := by
  induction ws generalizing i ws' with
  | nil => rw [← Except.ok.inj h]; simp
  | cons w ws ih =>
    simp only [assignTimes, bind, Except.bind] at h
    cases ht : getCummulativeTime segs (i : Int) with
    | error e => rw [ht] at h; cases h
    | ok t =>
      rw [ht] at h
      simp only at h
      cases hr : assignTimes segs g ws (i + 1) with
      | error e => rw [hr] at h; cases h
      | ok ws1 =>
        rw [hr] at h
        rw [← Except.ok.inj h]
        obtain ⟨h1, h2⟩ := ih ws1 (i + 1) hr
        refine ⟨by simp [h1], ?_⟩
        intro j w' hj
        cases j with
        | zero => simp at hj; subst hj; exact ⟨t, by simpa using ht, by simp⟩
        | succ j =>
          simp at hj
          obtain ⟨t', ht', hw'⟩ := h2 j w' hj
          refine ⟨t', ?_, ?_⟩
          · rw [show i + (j + 1) = i + 1 + j by omega]; exact ht'
          · rw [show i + (j + 1) = i + 1 + j by omega]; simpa using hw'

theorem applyLoop_rel (n : String) (p : V3 K) (g : K) (ws : List (Waypoint K)) (b : Bool) (ws' : List (Waypoint K))
    (h : Planner.applyLoop n p g ws = .ok (b, ws')) :
    List.Forall₂ (fun a c => (a.name = n ∧ a.name ≠ "" ∧ a.setCurrentPosition p g = .ok c) ∨ (¬ (a.name = n ∧ a.name ≠ "") ∧ c = a)) ws ws' ∧
    (b = true ↔ ∃ w ∈ ws, w.name = n ∧ w.name ≠ "") := by
  induction ws generalizing b ws' with
  | nil =>
    have h := Prod.mk.inj (Except.ok.inj h)
    rw [← h.2, ← h.1]
    exact ⟨.nil, by simp⟩
  | cons w ws ih =>
    simp only [Planner.applyLoop, bind, Except.bind] at h
    cases hr : Planner.applyLoop n p g ws with
    | error e => rw [hr] at h; cases h
    | ok r =>
      obtain ⟨b1, ws1⟩ := r
      rw [hr] at h
      obtain ⟨i1, i2⟩ := ih b1 ws1 hr
      simp only at h
      split at h
      · rename_i hc
        cases hs : w.setCurrentPosition p g with
        | error e => rw [hs] at h; cases h
        | ok w' =>
          rw [hs] at h
          have h := Prod.mk.inj (Except.ok.inj h)
          rw [← h.2, ← h.1]
          exact ⟨.cons (Or.inl ⟨hc.1, hc.2, hs⟩) i1, by simp only [true_iff]; exact ⟨w, by simp, hc⟩⟩
      · rename_i hc
        have h := Prod.mk.inj (Except.ok.inj h)
        rw [← h.2, ← h.1]
        refine ⟨.cons (Or.inr ⟨hc, rfl⟩) i1, ?_⟩
        rw [i2]
        constructor
        · rintro ⟨x, hx, hx'⟩; exact ⟨x, by simp [hx], hx'⟩
        · rintro ⟨x, hx, hx'⟩
          rcases List.mem_cons.mp hx with rfl | hx
          · exact absurd hx' hc
          · exact ⟨x, hx, hx'⟩

/-- Everything but `dyn` and `regenerated` is untouched by applying modifications; the waypoints change one by one, by a relation that
every single modification respects. -/
theorem applyAll_rel (R : Waypoint K → Waypoint K → Prop) (hrefl : ∀ w, R w w) (htrans : ∀ a b c, R a b → R b c → R a c)
    (hset : ∀ a c p g, a.setCurrentPosition p g = .ok c → R a c) (ms : List (String × V3 K)) (s s' : Planner K)
    (h : Planner.applyAll ms s = .ok s') :
    List.Forall₂ R s.dyn s'.dyn ∧ ∃ d r, s' = { s with dyn := d, regenerated := r } ∧ (s.regenerated = true → r = true) := by
  induction ms generalizing s with
  | nil =>
    rw [← Except.ok.inj h]
    exact ⟨List.forall₂_same.mpr (fun w _ => hrefl w), s.dyn, s.regenerated, rfl, id⟩
  | cons m ms ih =>
    obtain ⟨n, p⟩ := m
    simp only [Planner.applyAll, bind, Except.bind] at h
    cases hm : s.applyWaypointModification n p with
    | error e => rw [hm] at h; cases h
    | ok s1 =>
      rw [hm] at h
      obtain ⟨i1, d, r, i2, i3⟩ := ih s1 h
      unfold Planner.applyWaypointModification at hm
      simp only [bind, Except.bind] at hm
      cases hl : Planner.applyLoop n p s.params.lastGlobal s.dyn with
      | error e => rw [hl] at hm; cases hm
      | ok q =>
        obtain ⟨b, ws⟩ := q
        rw [hl] at hm
        have hm := Except.ok.inj hm
        obtain ⟨j1, _⟩ := applyLoop_rel n p _ _ _ _ hl
        subst hm
        refine ⟨?_, d, r, i2, ?_⟩
        · have j2 : List.Forall₂ R s.dyn ws := j1.imp (fun a c hac => by
            rcases hac with ⟨_, _, hs⟩ | ⟨_, rfl⟩
            · exact hset a c p _ hs
            · exact hrefl _)
          exact forall2_trans htrans j2 i1
        · intro hs; apply i3; simp [hs]

/-! ## Control invariant -/

structure Ctl (s : Planner K) : Prop where
  idle : s.computing = false → s.future = .invalid
  busy : s.computing = true → s.pc ≠ .launching → s.future ≠ .invalid
  launching : s.pc = .launching → s.computing = true ∧ s.future = .invalid
  quiet : s.pc ≠ .top → s.pc ≠ .launching → s.pc ≠ .launched → s.computing = false
  next2 : (s.pc = .planned ∨ s.computing = true) → 2 ≤ s.next.length
  next1 : s.pc = .snapshotted → s.next ≠ []
  scratch : s.fromScratch = false → s.traj ≠ none

theorem stitch_form (env : Env K) (s : Planner K) (ws r : List (Waypoint K)) (h : s.stitch env ws = .ok r) :
    ∃ traj w0 w1, s.traj = some traj ∧
      s.stitchPoint env traj (s.newParams.lastLocal + s.params.tOffset) true = .ok w0 ∧
      s.stitchPoint env traj (s.newParams.lastLocal + s.params.tOffset + 5 * s.computationTime) false = .ok w1 ∧
      r = w0 :: w1 :: (ws.filter fun w => !decide (w.time < s.newParams.lastLocal + s.params.tOffset + 5 * s.computationTime
        + 5 * s.computationTime + s.params.gtlg ∧ w.time > 0)).map (·.copy) := by
  unfold Planner.stitch at h
  split at h
  · cases h
  · rename_i traj htr
    simp only [bind, Except.bind] at h
    split at h
    · cases h
    · rename_i w0 h0
      split at h
      · cases h
      · rename_i w1 h1
        exact ⟨traj, w0, w1, htr, h0, h1, (Except.ok.inj h).symm⟩

theorem appendDrone_form (s : Planner K) (ws r : List (Waypoint K)) (h : s.appendDronePosition ws = .ok r) :
    ∃ w, r = w :: ws ∧ (∃ ops : List (WaypointOp K), runOps ops (Waypoint.default V3.zero V3.zero) = .ok w ∧
      ops = [.reset s.vehicle, .constrain 1 V3.zero, .constrain 2 V3.zero, .copy]) := by
  unfold Planner.appendDronePosition at h
  simp only [bind, Except.bind] at h
  split at h
  · cases h
  · rename_i w1 h1
    split at h
    · cases h
    · rename_i w2 h2
      split at h
      · cases h
      · rename_i w3 h3
        refine ⟨w3.copy, (Except.ok.inj h).symm, _, ?_, rfl⟩
        simp only [runOps, WaypointOp.run, bind, Except.bind, h1, h2, h3]

theorem ctl_of_idle (s : Planner K) (hc : s.computing = false) (hf : s.future = .invalid) (hl : s.pc ≠ .launching)
    (h2 : s.pc = .planned → 2 ≤ s.next.length) (h1 : s.pc = .snapshotted → s.next ≠ []) (ht : s.fromScratch = false → s.traj ≠ none) :
    Ctl s where
  idle := fun _ => hf
  busy := fun h => (by rw [hc] at h; cases h)
  launching := fun h => absurd h hl
  quiet := fun _ _ _ => hc
  next2 := fun h => h.elim h2 (fun h => (by rw [hc] at h; cases h))
  next1 := h1
  scratch := ht

theorem ctl_init (v : V3 K) : Ctl (Planner.init v) :=
  ctl_of_idle _ rfl rfl (by simp [Planner.init]) (by simp [Planner.init]) (by simp [Planner.init]) (by simp [Planner.init])

theorem computeTrajectory_form (env : Env K) (s : Planner K) (speed : K) (traj : Trajectory K) (ws : List (Waypoint K))
    (h : s.computeTrajectory env speed = .ok (traj, ws)) : ∃ vs, extractVertices s.next = .ok vs ∧ 2 ≤ vs.length ∧
      env.optimize vs speed = .ok traj ∧ assignTimes traj.segments s.newParams.gtlg s.next 0 = .ok ws := by
  unfold Planner.computeTrajectory at h
  simp only [bind, Except.bind] at h
  cases hv : extractVertices s.next with
  | error e => rw [hv] at h; cases h
  | ok vs =>
    rw [hv] at h
    simp only at h
    split at h
    · cases h
    · rename_i hl
      cases ho : env.optimize vs speed with
      | error e => rw [ho] at h; cases h
      | ok tr =>
        rw [ho] at h
        simp only at h
        split at h
        · cases h
        · rename_i ws1 hws
          obtain ⟨h1, h2⟩ := Prod.mk.inj (Except.ok.inj h)
          subst h1; subst h2
          exact ⟨vs, rfl, not_lt.mp hl, ho, hws⟩

theorem ctl_micro (env : Env K) (e : Event K) (s s' : Planner K) (hi : Ctl s) (h : Micro env e s s') : Ctl s' := by
  cases h with
  | setWaypoints _ ws => exact ⟨hi.1, hi.2, hi.3, hi.4, hi.5, hi.6, hi.7⟩
  | append _ w => exact ⟨hi.1, hi.2, hi.3, hi.4, hi.5, hi.6, hi.7⟩
  | modify _ n p g => exact ⟨hi.1, hi.2, hi.3, hi.4, hi.5, hi.6, hi.7⟩
  | modifyMany _ ms => exact ⟨hi.1, hi.2, hi.3, hi.4, hi.5, hi.6, hi.7⟩
  | takeOver _ _ new off hc hr _ _ =>
    refine ctl_of_idle _ rfl rfl (fun h => ?_) (fun h => ?_) (fun h => ?_) (fun _ => by simp)
    · have := (hi.launching h).2
      rw [hr] at this; cases this
    · exact hi.next2 (Or.inr hc)
    · exact hi.next1 h
  | evalTime _ t o ht => exact ⟨hi.1, hi.2, hi.3, hi.4, hi.5, hi.6, hi.7⟩
  | setSpeed _ v => exact ⟨hi.1, hi.2, hi.3, hi.4, hi.5, hi.6, hi.7⟩
  | clearRegenerated _ => exact ⟨hi.1, hi.2, hi.3, hi.4, hi.5, hi.6, hi.7⟩
  | vehicle _ p => exact ⟨hi.1, hi.2, hi.3, hi.4, hi.5, hi.6, hi.7⟩
  | goCollect _ hp hg hz hc => exact ctl_of_idle _ hc (hi.idle hc) (by simp) (by simp) (by simp) hi.scratch
  | goApply _ hp hm hc _ => exact ctl_of_idle _ hc (hi.idle hc) (by simp) (by simp) (by simp) hi.scratch
  | collect _ ws hp hw =>
    have hc := hi.quiet (by rw [hp]; decide) (by rw [hp]; decide) (by rw [hp]; decide)
    exact ctl_of_idle _ hc (hi.idle hc) (by simp) (by simp) (by simp) hi.scratch
  | nothingToPlan _ hp hn =>
    have hc := hi.quiet (by rw [hp]; decide) (by rw [hp]; decide) (by rw [hp]; decide)
    exact ctl_of_idle _ hc (hi.idle hc) (by simp) (by simp) (by simp) hi.scratch
  | snapshot _ hp hn =>
    have hc := hi.quiet (by rw [hp]; decide) (by rw [hp]; decide) (by rw [hp]; decide)
    exact ctl_of_idle _ hc (hi.idle hc) (by simp) (by simp) (fun _ => hn) hi.scratch
  | stitch _ ws hp hs hw =>
    have hc := hi.quiet (by rw [hp]; decide) (by rw [hp]; decide) (by rw [hp]; decide)
    obtain ⟨traj, w0, w1, htr, _, _, hr⟩ := stitch_form env s s.next ws hw
    exact ctl_of_idle _ hc (hi.idle hc) (by simp) (fun _ => by rw [hr]; simp) (by simp) (fun _ => by simp [htr])
  | scratch _ ws hp hs hw =>
    have hc := hi.quiet (by rw [hp]; decide) (by rw [hp]; decide) (by rw [hp]; decide)
    obtain ⟨w, hr, _⟩ := appendDrone_form s s.next ws hw
    have hne := List.length_pos_iff.mpr (hi.next1 hp)
    refine ctl_of_idle _ hc (hi.idle hc) (by simp) (fun _ => ?_) (by simp) (by simp)
    rw [hr]
    simp only [List.length_cons]
    omega
  | planned _ hp =>
    have hc := hi.quiet (by rw [hp]; decide) (by rw [hp]; decide) (by rw [hp]; decide)
    exact { idle := by simp, busy := by simp, launching := fun _ => ⟨rfl, hi.idle hc⟩, quiet := by simp,
            next2 := fun _ => hi.next2 (Or.inl hp), next1 := by simp, scratch := hi.scratch }
  | launch _ hp =>
    have hc := (hi.launching hp).1
    exact { idle := by simp [hc], busy := by simp, launching := by simp, quiet := by simp,
            next2 := fun _ => hi.next2 (Or.inr hc), next1 := by simp, scratch := hi.scratch }
  | launched _ hp =>
    exact { idle := hi.idle, busy := fun h _ => hi.busy h (by rw [hp]; decide), launching := by simp, quiet := by simp,
            next2 := fun h => hi.next2 (Or.inr (h.elim (fun h => by cases h) id)), next1 := by simp, scratch := hi.scratch }
  | apply _ s2 hp ha =>
    have hc := hi.quiet (by rw [hp]; decide) (by rw [hp]; decide) (by rw [hp]; decide)
    obtain ⟨_, d, r, rfl, _⟩ := applyAll_rel (fun _ _ => True) (fun _ => trivial) (fun _ _ _ _ _ => trivial) (fun _ _ _ _ _ => trivial)
      _ s s2 ha
    exact ctl_of_idle _ hc (hi.idle hc) (by simp) (by simp) (by simp) hi.scratch
  | asyncStart _ hf =>
    exact { idle := fun h => by have := hi.idle h; rw [hf] at this; cases this
            busy := by simp
            launching := fun h => by have := (hi.launching h).2; rw [hf] at this; cases this
            quiet := hi.4, next2 := hi.5, next1 := hi.6, scratch := hi.7 }
  | asyncFinish _ dt sp traj ws hf hc =>
    have hcomp : s.computing = true := by
      cases h : s.computing with
      | true => rfl
      | false => have := hi.idle h; rw [hf] at this; cases this
    obtain ⟨vs, _, _, _, hws⟩ := computeTrajectory_form env s sp traj ws hc
    have hlen := (assignTimes_rel _ _ _ _ _ hws).1
    exact { idle := by simp [hcomp]
            busy := by simp
            launching := fun h => by have := (hi.launching h).2; rw [hf] at this; cases this
            quiet := hi.4
            next2 := fun h => by simp only [hlen]; exact hi.next2 h
            next1 := fun h => by
              have := hi.quiet (by rw [h]; decide) (by rw [h]; decide) (by rw [h]; decide)
              rw [hcomp] at this; cases this
            scratch := hi.7 }
  | asyncFail _ dt sp hf hc =>
    exact { idle := fun h => by have := hi.idle h; rw [hf] at this; cases this
            busy := by simp
            launching := fun h => by have := (hi.launching h).2; rw [hf] at this; cases this
            quiet := hi.4, next2 := hi.5, next1 := hi.6, scratch := hi.7 }

theorem reachable_ctl (env : Env K) (s : Planner K) (h : Reachable env s) : Ctl s :=
  reachable_induction env Ctl ctl_init (fun e s s' _ hi hm => ctl_micro env e s s' hi hm) s h

end Verif.Lemmas
