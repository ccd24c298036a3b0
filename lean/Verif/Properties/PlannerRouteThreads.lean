import Verif.Spec.PlannerRouteThreads
import Verif.Lemmas.PlannerOnePlan
import Verif.Properties.PlannerRoute
import Verif.Properties.PlannerThreads
import Verif.Lemmas.PlannerThreadsSample
import Verif.Properties.PlannerOptimiser

/-!
# Property C138: the first route is flown as it was given, whatever the threads do

C126 is about histories in which every call and every phase of the worker is executed at once. Here all threads are interleaved access by access. As long
as one route is the only request, every interleaving leads to a plan some such history leads to.
-/

set_option linter.unusedSectionVars false
set_option linter.unusedSimpArgs false

namespace Verif.Properties
open Verif Verif.Spec Verif.Lemmas

section
variable {K : Type*} [Field K] [LinearOrder K] [IsStrictOrderedRing K] [FloorRing K]

/-! ## Waiting for the first plan -/

/-- The evaluating thread has found no plan yet. -/
def Waits : Consumer K → Prop
  | .free => True
  | .start _ => True
  | .wait _ => True
  | .valid _ => True
  | .busy _ _ => True
  | .ready _ => True
  | .get _ => True
  | _ => False

theorem waits_not {c : Consumer K} (h : Waits c) : ¬ TakingOver c := by
  cases c <;> first | exact h.elim | exact id

theorem own_waiting {env : Env K} {p p' : Planner K} {c c' : Consumer K} (h : Fine.consume env ⟨p, c⟩ = .ok (some ⟨p', c'⟩))
    (hp : PhaseInv env ⟨p, c⟩) (ht : p.traj = none) (hf : p.future.isReady = true → p.computing = true) (hc : Waits c) :
    (p' = p ∧ Waits c') ∨ ∃ k new, p.future = .ready new ∧ p' = { p with future := .invalid } ∧ c' = .target k new := by
  have simple : ∀ {q : Planner K} {d : Consumer K}, (Except.ok (some (⟨q, d⟩ : Fine K)) : Res (Option (Fine K))) = .ok (some ⟨p', c'⟩) → p' = q ∧ c' = d :=
    fun h => by
      have := Option.some.inj (Except.ok.inj h)
      injection this with h1 h2
      exact ⟨h1.symm, h2.symm⟩
  cases c with
  | free => cases h
  | start k =>
    left
    cases k with
    | maxTime =>
      obtain ⟨h1, h2⟩ := simple h
      simp only [ht, Option.isSome_none, Bool.false_eq_true, if_false] at h2
      exact ⟨h1, by rw [h2]; trivial⟩
    | minTime =>
      obtain ⟨h1, h2⟩ := simple h
      simp only [ht, Option.isSome_none, Bool.false_eq_true, if_false] at h2
      exact ⟨h1, by rw [h2]; trivial⟩
    | evaluate t o f => exact ⟨(simple h).1, by rw [(simple h).2]; trivial⟩
    | waypoints => exact ⟨(simple h).1, by rw [(simple h).2]; trivial⟩
  | wait k =>
    left
    simp only [Fine.consume] at h
    split at h
    · exact ⟨(simple h).1, by rw [(simple h).2]; trivial⟩
    · cases h
  | valid k => exact .inl ⟨(simple h).1, by rw [(simple h).2]; trivial⟩
  | busy k v =>
    left
    obtain ⟨h1, h2⟩ := simple h
    rcases hp.2 with hn | ⟨hr, rfl⟩
    · exact absurd ht hn
    · simp only [hf hr, Bool.and_self, if_true] at h2
      exact ⟨h1, by rw [h2]; trivial⟩
  | ready k =>
    left
    obtain ⟨hv, _, hn⟩ := hp
    have hr := hn.resolve_left (fun h => h ht)
    simp only at hv hr
    simp only [Fine.consume, hv, hr, if_true] at h
    exact ⟨(simple h).1, by rw [(simple h).2]; trivial⟩
  | get k =>
    right
    simp only [Fine.consume] at h
    split at h
    · rename_i new hf'
      exact ⟨k, new, hf', (simple h).1, (simple h).2⟩
    · cases h
    · cases h
    · cases h
  | _ => exact hc.elim

/-- Where the worker is when it sees nothing to do. -/
def Idling (s : Whole K) : Prop := s.p.pc = .top ∧ s.p.generateNew = false ∧ (s.w = .begin ∨ s.w = .queue)

/-- Where the worker is once the computation has been started. -/
def Started (s : Whole K) : Prop := (s.p.pc = .launched ∧ s.w = .begin) ∨ Idling s

/-- The evaluating thread has fetched the first plan and not yet fitted it in time; the reference is the vehicle's position. -/
inductive Fetched (PS : V3 K → Prop) (new : Trajectory K) : Consumer K → Prop
  | target (k : Purpose K) : Fetched PS new (.target k new)
  | fit0 (k : Purpose K) (x : V3 K) : PS x → Fetched PS new (.fit0 k new true x)
  | fit (k : Purpose K) (x : V3 K) (n i : ℕ) (d m : K) : PS x → Fetched PS new (.fit k new true x n i d m)
  | offset (k : Purpose K) (x : V3 K) (m : K) : PS x → Fetched PS new (.offset k new true x m)

/-- The evaluating thread is past that point. -/
def Fitted : Consumer K → Prop
  | .target _ _ => False
  | .old _ _ _ _ => False
  | .fit0 _ _ _ _ => False
  | .fit _ _ _ _ _ _ _ _ => False
  | .offset _ _ _ _ _ => False
  | _ => True

/-- How far the only route is, and which state of a history of complete calls and phases it corresponds to. -/
inductive Sim (PS : V3 K → Prop) (route : List (Waypoint K)) (s : Whole K) (q : Planner K) : Prop
  | looking (hq : q = s.p) (ht : s.p.traj = none) (hc : s.p.computing = false) (hn : Waits s.c) (hs : s.p.toSet = route.map (·.copy))
      (hg : s.p.generateNew = true) (hp : s.p.pc = .top) (hw : s.w = .begin ∨ s.w = .zone ∨ s.w = .status false ∨ s.w = .queue)
  | collecting (hq : q = s.p) (ht : s.p.traj = none) (hc : s.p.computing = false) (hn : Waits s.c) (hs : s.p.toSet = route.map (·.copy))
      (hp : s.p.pc = .collect) (hw : s.w = .begin ∨ s.w = .merge (s.p.toSet.map (·.copy)))
  | preparing (hq : q = s.p) (ht : s.p.traj = none) (hc : s.p.computing = false) (hn : Waits s.c)
      (hp : (s.p.pc = .collected ∧ s.w = .begin) ∨ (s.p.pc = .snapshotted ∧ (s.w = .begin ∨ s.w = .drone ∨ s.w = .vehicle)) ∨
        (s.p.pc = .planned ∧ s.w = .begin))
  | computing (hq : q = s.p) (ht : s.p.traj = none) (hc : s.p.computing = true) (hn : Waits s.c)
      (hp : (s.p.pc = .launching ∧ s.w = .begin) ∨ Started s)
  | fetched (new : Trajectory K) (hq : q = { s.p with future := .ready new }) (ht : s.p.traj = none) (hc : s.p.computing = true)
      (hf : Fetched PS new s.c) (hp : Started s)
  | flown (hq : q = { settled ⟨s.p, s.c⟩ with generateNew := false }) (ht : q.traj ≠ none) (hc : q.computing = false)
      (hf : Fitted s.c) (hp : Started s) (hw : ∀ ws, s.c = .copied ws → ws = q.dyn.map (·.copy))

/-! ## Histories of complete calls and phases -/

/-- The route is the only request; all positions reported satisfy `PS`. -/
def Hist (env : Env K) (PS : V3 K → Prop) (vehicle : V3 K) (route : List (Waypoint K)) (q : Planner K) : Prop :=
  ∃ before after, (∀ e ∈ before ++ after, ¬ IsRequest e ∧ ValidEvent e ∧ ∀ x, e = .updateVehiclePosition x → PS x) ∧
    Run env (Planner.init vehicle) (before ++ .setWaypoints route :: after) q

theorem hist_event {env : Env K} {PS : V3 K → Prop} {vehicle : V3 K} {route : List (Waypoint K)} {q q' : Planner K} (e : Event K)
    (h : Hist env PS vehicle route q) (hr : ¬ IsRequest e) (hv : ValidEvent e) (hx : ∀ x, e = .updateVehiclePosition x → PS x)
    (hs : q.step env e = .ok (some q')) : Hist env PS vehicle route q' := by
  obtain ⟨before, after, h1, h2⟩ := h
  refine ⟨before, after ++ [e], ?_, ?_⟩
  · intro e' he
    rw [← List.append_assoc] at he
    rcases List.mem_append.mp he with he | he
    · exact h1 e' he
    · rw [List.mem_singleton.mp he]; exact ⟨hr, hv, hx⟩
  · have := Run.snoc e h2 hs
    simpa using this

theorem hist_on {env : Env K} {PS : V3 K → Prop} {vehicle : V3 K} {route : List (Waypoint K)} {q : Planner K} (hne : route ≠ [])
    (hm : ∀ w ∈ route, w.modifiers = []) (h : Hist env PS vehicle route q) : ∃ ps, OnRoute route ps q := by
  obtain ⟨before, after, h1, h2⟩ := h
  exact ⟨_, onRoute_run env vehicle before after route hne hm (fun e he => (h1 e he).1) q h2⟩

theorem hist_reachable {env : Env K} {PS : V3 K → Prop} {vehicle : V3 K} {route : List (Waypoint K)} {q : Planner K}
    (hm : ∀ w ∈ route, Bookkept w) (h : Hist env PS vehicle route q) : Reachable env q := by
  obtain ⟨before, after, h1, h2⟩ := h
  refine ⟨vehicle, _, ?_, h2⟩
  intro e he
  rcases List.mem_append.mp he with he | he
  · exact (h1 e (List.mem_append_left _ he)).2.1
  · rcases List.mem_cons.mp he with rfl | he
    · exact hm
    · exact (h1 e (List.mem_append_right _ he)).2.1

/-- The same plan. -/
def KeptPlan (p q : Planner K) : Prop :=
  q.traj = p.traj ∧ q.dyn = p.dyn ∧ q.params.gtlg = p.params.gtlg ∧ q.params.tOffset = p.params.tOffset

theorem KeptPlan.refl (p : Planner K) : KeptPlan p p := ⟨rfl, rfl, rfl, rfl⟩

theorem KeptPlan.trans {p q r : Planner K} (h : KeptPlan p q) (h' : KeptPlan q r) : KeptPlan p r :=
  ⟨h'.1.trans h.1, h'.2.1.trans h.2.1, h'.2.2.1.trans h.2.2.1, h'.2.2.2.trans h.2.2.2⟩

/-- The calls of other threads that request nothing. -/
theorem user_quiet {env : Env K} {p p' : Planner K} {e : Event K} (hu : ByUsers e) (hr : ¬ IsRequest e) (h : p.step env e = .ok (some p')) :
    (∃ v, e = .setSpeed v ∧ p' = p.setSpeed v) ∨ (e = .getWasTrajectoryRegenerated ∧ p' = { p with regenerated := false }) ∨
      ∃ x, e = .updateVehiclePosition x ∧ p' = p.updateVehiclePosition x := by
  cases e with
  | setWaypoints ws => exact absurd trivial hr
  | appendWaypoint w => exact absurd trivial hr
  | modifyWaypoint n x g => exact absurd trivial hr
  | setSpeed v => exact .inl ⟨v, rfl, (Option.some.inj (Except.ok.inj h)).symm⟩
  | getWasTrajectoryRegenerated => exact .inr (.inl ⟨rfl, (Option.some.inj (Except.ok.inj h)).symm⟩)
  | updateVehiclePosition x => exact .inr (.inr ⟨x, rfl, (Option.some.inj (Except.ok.inj h)).symm⟩)
  | _ => exact hu.elim

/-- The worker's last step of a pass, and its looking when nothing is requested. -/
theorem started_work {env : Env K} {s s' : Whole K} (h : s.work env = .ok s') (hs : Started s) (hm : s.p.toModify = []) :
    s'.c = s.c ∧ Started s' ∧ ((s.p.pc = .launched ∧ s'.p = { s.p with generateNew := false, pc := .top }) ∨ s'.p = s.p) := by
  obtain ⟨p, c, w⟩ := s
  rcases hs with ⟨hpc, hw⟩ | ⟨hpc, hg, hw⟩
  · change p.pc = _ at hpc
    change w = _ at hw
    subst hw
    simp only [Whole.work, hpc, Planner.workerStep, bind, Except.bind, pure, Except.pure] at h
    rw [← Except.ok.inj h]
    exact ⟨rfl, .inr ⟨rfl, rfl, .inl rfl⟩, .inl ⟨hpc, rfl⟩⟩
  · change p.pc = _ at hpc
    change p.generateNew = _ at hg
    change p.toModify = _ at hm
    rcases hw with hw | hw <;> change w = _ at hw <;> subst hw
    · simp only [Whole.work, hpc, hg, Bool.false_eq_true, if_false] at h
      rw [← Except.ok.inj h]
      exact ⟨rfl, .inr ⟨hpc, hg, .inr rfl⟩, .inr rfl⟩
    · simp only [Whole.work, hpc, hm, List.isEmpty_nil, if_true] at h
      rw [← Except.ok.inj h]
      exact ⟨rfl, .inr ⟨hpc, hg, .inl rfl⟩, .inr rfl⟩

theorem started_beside {s : Whole K} {p' : Planner K} (c' : Consumer K) (h : Started s) (h1 : p'.pc = s.p.pc) (h2 : p'.generateNew = s.p.generateNew) :
    Started ⟨p', c', s.w⟩ := by
  rcases h with ⟨a, b⟩ | ⟨a, b, c⟩
  · exact .inl ⟨h1.trans a, b⟩
  · exact .inr ⟨h1.trans a, h2.trans b, c⟩

/-! ## Steps of the other threads -/

section
variable {env : Env K} {PS : V3 K → Prop} {vehicle : V3 K} {route : List (Waypoint K)}

/-- The state corresponding to the next one: the history goes on, and once there is a plan it stays. -/
def Next (env : Env K) (PS : V3 K → Prop) (vehicle : V3 K) (route : List (Waypoint K)) (q : Planner K) (s' : Whole K) : Prop :=
  ∃ q', Hist env PS vehicle route q' ∧ Sim PS route s' q' ∧ (q.traj ≠ none → KeptPlan q q')

theorem settled_fields (f : Fine K) (h : Fitted f.c) : (settled f).future = f.p.future ∧ (settled f).toModify = f.p.toModify ∧
    (settled f).pc = f.p.pc := by
  obtain ⟨p, c⟩ := f
  cases c <;> first | exact h.elim | exact ⟨rfl, rfl, rfl⟩

theorem sim_idle {s : Whole K} {q : Planner K} (hs : Sim PS route s q) (hq : Ctl q) (h : s.p.computing = false) : s.p.future = .invalid := by
  cases hs with
  | looking h0 => rw [h0] at hq; exact hq.idle h
  | collecting h0 => rw [h0] at hq; exact hq.idle h
  | preparing h0 => rw [h0] at hq; exact hq.idle h
  | computing h0 h1 h2 => rw [h] at h2; cases h2
  | fetched new h0 h1 h2 => rw [h] at h2; cases h2
  | flown h0 h1 h2 h3 =>
    have := hq.idle h2
    rw [h0] at this
    exact (settled_fields _ h3).1.symm.trans this

theorem sim_task {s : Whole K} {p' : Planner K} {q : Planner K} {e : Event K} (ht : ByTask e) (hv : ValidEvent e) (h : s.p.step env e = .ok (some p'))
    (hs : Sim PS route s q) (hq : Ctl q) (hi : PhaseInv env ⟨s.p, s.c⟩) (hh : Hist env PS vehicle route q) :
    Next env PS vehicle route q ⟨p', s.c, s.w⟩ := by
  have hne := (task_pc ht h).2
  have idle : s.p.computing = false → False := fun hc => hne (sim_idle hs hq hc)
  cases hs with
  | looking h0 h1 h2 => exact (idle h2).elim
  | collecting h0 h1 h2 => exact (idle h2).elim
  | preparing h0 h1 h2 => exact (idle h2).elim
  | computing h0 h1 h2 h3 h4 =>
    subst h0
    refine ⟨p', hist_event e hh (by cases e <;> first | exact ht.elim | exact id) hv (by rintro x rfl; exact ht.elim) h, ?_, fun hn => absurd h1 hn⟩
    have keep : p'.traj = s.p.traj ∧ p'.computing = s.p.computing ∧ p'.pc = s.p.pc ∧ p'.generateNew = s.p.generateNew := by
      cases e with
      | asyncStart =>
        simp only [Planner.step, Planner.asyncStart] at h
        split at h
        · rw [← Option.some.inj (Except.ok.inj h)]; exact ⟨rfl, rfl, rfl, rfl⟩
        · cases h
      | asyncFinish dt =>
        simp only [Planner.step, Planner.asyncFinish] at h
        split at h
        · split at h
          · rw [← Option.some.inj (Except.ok.inj h)]; exact ⟨rfl, rfl, rfl, rfl⟩
          · rw [← Option.some.inj (Except.ok.inj h)]; exact ⟨rfl, rfl, rfl, rfl⟩
          · cases h
        · cases h
      | _ => exact ht.elim
    obtain ⟨k1, k2, k3, k4⟩ := keep
    refine .computing rfl (k1.trans h1) (k2.trans h2) h3 ?_
    rcases h4 with ⟨a, b⟩ | h4
    · exact .inl ⟨k3.trans a, b⟩
    · exact .inr (started_beside _ h4 k3 k4)
  | fetched new h0 h1 h2 h3 h4 =>
    obtain ⟨p, c, w⟩ := s
    cases h3 with
    | target k => exact (hne hi.1).elim
    | fit0 k x => exact (hne hi.1.1).elim
    | fit k x n i d m => exact (hne hi.1.1).elim
    | offset k x m => exact (hne hi.1.1).elim
  | flown h0 h1 h2 h3 h4 h5 =>
    have := hq.idle h2
    rw [h0] at this
    exact (hne ((settled_fields _ h3).1.symm.trans this)).elim

theorem sim_user {s : Whole K} {p' : Planner K} {q : Planner K} {e : Event K} (hu : ByUsers e) (hr : ¬ IsRequest e) (hv : ValidEvent e)
    (h : s.p.step env e = .ok (some p')) (hs : Sim PS route s q) (hx : PS p'.vehicle) (hh : Hist env PS vehicle route q) :
    Next env PS vehicle route q ⟨p', s.c, s.w⟩ := by
  have hpos : ∀ x, e = .updateVehiclePosition x → PS x := by
    rintro x rfl
    rw [← Option.some.inj (Except.ok.inj h)] at hx
    exact hx
  have hq := user_quiet hu hr h
  have early : q = s.p → s.p.traj = none → (∀ {q' : Planner K}, (q'.traj = s.p.traj ∧ q'.computing = s.p.computing ∧ q'.toSet = s.p.toSet ∧
      q'.generateNew = s.p.generateNew ∧ q'.pc = s.p.pc) → Sim PS route ⟨q', s.c, s.w⟩ q') → Next env PS vehicle route q ⟨p', s.c, s.w⟩ := by
    intro h0 h1 h2
    subst h0
    refine ⟨p', hist_event e hh hr hv hpos h, h2 ?_, fun hn => absurd h1 hn⟩
    rcases hq with ⟨v, _, rfl⟩ | ⟨_, rfl⟩ | ⟨x, _, rfl⟩ <;> exact ⟨rfl, rfl, rfl, rfl, rfl⟩
  cases hs with
  | looking h0 h1 h2 h3 h4 h5 h6 h7 =>
    exact early h0 h1 fun ⟨k1, k2, k3, k4, k5⟩ => .looking rfl (k1.trans h1) (k2.trans h2) h3 (k3.trans h4) (k4.trans h5) (k5.trans h6) h7
  | collecting h0 h1 h2 h3 h4 h5 h6 =>
    exact early h0 h1 fun ⟨k1, k2, k3, k4, k5⟩ => .collecting rfl (k1.trans h1) (k2.trans h2) h3 (k3.trans h4) (k5.trans h5) (by
      simp only [k3]; exact h6)
  | preparing h0 h1 h2 h3 h4 =>
    exact early h0 h1 fun ⟨k1, k2, k3, k4, k5⟩ => .preparing rfl (k1.trans h1) (k2.trans h2) h3 (by simp only [k5]; exact h4)
  | computing h0 h1 h2 h3 h4 =>
    exact early h0 h1 fun ⟨k1, k2, k3, k4, k5⟩ => .computing rfl (k1.trans h1) (k2.trans h2) h3 (by
      rcases h4 with ⟨a, b⟩ | h4
      · exact .inl ⟨k5.trans a, b⟩
      · exact .inr (started_beside _ h4 k5 k4))
  | fetched new h0 h1 h2 h3 h4 =>
    subst h0
    rcases hq with ⟨v, rfl, rfl⟩ | ⟨rfl, rfl⟩ | ⟨x, rfl, rfl⟩
    · exact ⟨_, hist_event _ hh hr hv hpos rfl, .fetched new rfl h1 h2 h3 (started_beside _ h4 rfl rfl), fun hn => absurd h1 hn⟩
    · exact ⟨_, hist_event _ hh hr hv hpos rfl, .fetched new rfl h1 h2 h3 (started_beside _ h4 rfl rfl), fun hn => absurd h1 hn⟩
    · exact ⟨_, hist_event _ hh hr hv hpos rfl, .fetched new rfl h1 h2 h3 (started_beside _ h4 rfl rfl), fun hn => absurd h1 hn⟩
  | flown h0 h1 h2 h3 h4 h5 =>
    obtain ⟨p, c, w⟩ := s
    rcases hq with ⟨v, rfl, rfl⟩ | ⟨rfl, rfl⟩ | ⟨x, rfl, rfl⟩
    · refine ⟨q.setSpeed v, hist_event _ hh hr hv hpos rfl, .flown ?_ h1 h2 h3 (started_beside _ h4 rfl rfl) h5, fun _ => ⟨rfl, rfl, rfl, rfl⟩⟩
      rw [h0]
      cases c <;> first | exact h3.elim | rfl
    · by_cases hm : ({ settled ⟨{ p with regenerated := false }, c⟩ with generateNew := false } : Planner K) = q
      · exact ⟨q, hh, .flown hm.symm h1 h2 h3 (started_beside _ h4 rfl rfl) h5, fun _ => .refl q⟩
      · refine ⟨{ q with regenerated := false }, hist_event _ hh hr hv hpos rfl, .flown ?_ h1 h2 h3 (started_beside _ h4 rfl rfl) h5, fun _ => ⟨rfl, rfl, rfl, rfl⟩⟩
        rw [h0] at hm ⊢
        cases c <;> first | exact h3.elim | rfl | exact absurd rfl hm
    · refine ⟨q.updateVehiclePosition x, hist_event _ hh hr hv hpos rfl, .flown ?_ h1 h2 h3 (started_beside _ h4 rfl rfl) h5, fun _ => ⟨rfl, rfl, rfl, rfl⟩⟩
      rw [h0]
      cases c <;> first | exact h3.elim | rfl

theorem worker_step {p p' : Planner K} (h : p.workerStep env = .ok p') : p.step env .worker = .ok (some p') := by
  simp only [Planner.step, h, bind, Except.bind, pure, Except.pure]

theorem sim_worker {s s' : Whole K} {q : Planner K} (hne : route ≠ []) (hm : ∀ w ∈ route, w.modifiers = []) (h : s.work env = .ok s')
    (hs : Sim PS route s q) (hq : Ctl q) (hh : Hist env PS vehicle route q) : Next env PS vehicle route q s' := by
  obtain ⟨ps, hon⟩ := hist_on hne hm hh
  have go : ∀ {p' : Planner K}, q.workerStep env = .ok p' → Hist env PS vehicle route p' := fun h =>
    hist_event .worker hh id trivial (fun x hx => by cases hx) (worker_step h)
  obtain ⟨p, c, w⟩ := s
  cases hs with
  | looking h0 h1 h2 h3 h4 h5 h6 h7 =>
    subst h0
    simp only at h1 h2 h3 h4 h5 h6 h7
    have stay : ∀ {w' : WorkerAt K}, (w' = .begin ∨ w' = .zone ∨ w' = .status false ∨ w' = .queue) →
        Next env PS vehicle route q ⟨q, c, w'⟩ := fun h7 => ⟨q, hh, .looking rfl h1 h2 h3 h4 h5 h6 h7, fun _ => .refl q⟩
    rcases h7 with rfl | rfl | rfl | rfl
    · simp only [Whole.work, h6, h5, if_true] at h
      rw [← Except.ok.inj h]
      exact stay (by simp)
    · simp only [Whole.work, h6, h1, Option.isSome_none, Bool.false_eq_true, if_false] at h
      rw [← Except.ok.inj h]
      exact stay (by simp)
    · have h2' : (!q.computing) = true := by rw [h2]; rfl
      simp only [Whole.work, h6, h2', Bool.not_false, Bool.and_self, if_true] at h
      rw [← Except.ok.inj h]
      refine ⟨{ q with pc := .collect }, go ?_, .collecting rfl h1 h2 h3 h4 rfl (.inl rfl), fun hn => absurd h1 hn⟩
      simp [Planner.workerStep, h6, h5, h2, h1, Planner.checkIfTrajectoryCanBeGenerated, Planner.checkInSecurityZone]
    · simp only [Whole.work, h6, hon.toModify, List.isEmpty_nil, if_true] at h
      rw [← Except.ok.inj h]
      exact stay (by simp)
  | collecting h0 h1 h2 h3 h4 h5 h6 =>
    subst h0
    simp only at h1 h2 h3 h4 h5 h6
    have hlen : ¬ q.toSet.length = 0 := by
      rw [h4, List.length_map]
      exact fun h => hne (List.length_eq_zero_iff.mp h)
    rcases h6 with rfl | rfl
    · simp only [Whole.work, h5, if_neg hlen] at h
      rw [← Except.ok.inj h]
      exact ⟨q, hh, .collecting rfl h1 h2 h3 h4 h5 (.inr rfl), fun _ => .refl q⟩
    · simp only [Whole.work, h5, hon.toModify, resetAll, bind, Except.bind, pure, Except.pure] at h
      rw [← Except.ok.inj h]
      refine ⟨_, go ?_, .preparing rfl h1 h2 h3 (.inl ⟨rfl, rfl⟩), fun hn => absurd h1 hn⟩
      simp only [Planner.workerStep, h5, Planner.generateWaypoints, if_neg hlen, hon.toModify, resetAll, bind, Except.bind, pure, Except.pure]
  | preparing h0 h1 h2 h3 h4 =>
    subst h0
    simp only at h1 h2 h3 h4
    have hscr : q.fromScratch = true := by
      by_contra hf
      exact hq.scratch (by simpa using hf) h1
    rcases h4 with ⟨h4, rfl⟩ | ⟨h4, h5⟩ | ⟨h4, rfl⟩
    · have hnext : ¬ q.next.length = 0 := by
        have : q.next = route.map (·.copy) := by
          cases hon.stage with
          | queued a b c d => rcases d with d | d <;> rw [h4] at d <;> cases d
          | collected a b c d f => exact f
          | planned a b c d =>
            rcases c with c | c
            · rw [h4] at c; cases c
            · rw [h2] at c; cases c
          | flown a => exact absurd h1 a
        rw [this, List.length_map]
        exact fun h => hne (List.length_eq_zero_iff.mp h)
      simp only [Whole.work, h4, Planner.workerStep, if_neg hnext, bind, Except.bind, pure, Except.pure] at h
      rw [← Except.ok.inj h]
      refine ⟨_, go ?_, .preparing rfl h1 h2 h3 (.inr (.inl ⟨rfl, .inl rfl⟩)), fun hn => absurd h1 hn⟩
      simp only [Planner.workerStep, h4, if_neg hnext]
    · rcases h5 with rfl | rfl | rfl
      · simp only [Whole.work, h4, h1, Option.isSome_none, Bool.false_eq_true, if_false] at h
        rw [← Except.ok.inj h]
        exact ⟨q, hh, .preparing rfl h1 h2 h3 (.inr (.inl ⟨h4, .inr (.inl rfl)⟩)), fun _ => .refl q⟩
      · simp only [Whole.work, h4] at h
        have hs : s' = ⟨q, c, .vehicle⟩ := by
          rw [← Except.ok.inj h, ← h4, ← hscr]
        rw [hs]
        exact ⟨q, hh, .preparing rfl h1 h2 h3 (.inr (.inl ⟨h4, .inr (.inr rfl)⟩)), fun _ => .refl q⟩
      · simp only [Whole.work, h4, bind, Except.bind, pure, Except.pure] at h
        split at h
        · cases h
        · rename_i ws hws
          rw [← Except.ok.inj h]
          refine ⟨_, go ?_, .preparing rfl h1 h2 h3 (.inr (.inr ⟨rfl, rfl⟩)), fun hn => absurd h1 hn⟩
          have hstitch : q.checkStitchTrajectory = false := by unfold Planner.checkStitchTrajectory; rw [h1]
          simp only [Planner.workerStep, h4, hstitch, Bool.false_eq_true, if_false, hws, bind, Except.bind, pure, Except.pure]
          rw [← hscr]
    · simp only [Whole.work, h4, Planner.workerStep, bind, Except.bind, pure, Except.pure] at h
      rw [← Except.ok.inj h]
      refine ⟨_, go ?_, .computing rfl h1 rfl h3 (.inl ⟨rfl, rfl⟩), fun hn => absurd h1 hn⟩
      simp only [Planner.workerStep, h4]
  | computing h0 h1 h2 h3 h4 =>
    subst h0
    simp only at h1 h2 h3
    rcases h4 with ⟨h4, h5⟩ | h4
    · change q.pc = _ at h4
      change w = _ at h5
      subst h5
      simp only [Whole.work, h4, Planner.workerStep, bind, Except.bind, pure, Except.pure] at h
      rw [← Except.ok.inj h]
      refine ⟨_, go ?_, .computing rfl h1 h2 h3 (.inr (.inl ⟨rfl, rfl⟩)), fun hn => absurd h1 hn⟩
      simp only [Planner.workerStep, h4]
    · obtain ⟨k1, k2, k3⟩ := started_work h h4 hon.toModify
      obtain ⟨p', c', w'⟩ := s'
      simp only at k1 k3
      subst k1
      rcases k3 with ⟨hl, rfl⟩ | rfl
      · refine ⟨_, go ?_, .computing rfl h1 h2 h3 (.inr k2), fun hn => absurd h1 hn⟩
        simp only [Planner.workerStep, hl]
      · exact ⟨_, hh, .computing rfl h1 h2 h3 (.inr k2), fun _ => .refl _⟩
  | fetched new h0 h1 h2 h3 h4 =>
    subst h0
    simp only at h1 h2 h3
    obtain ⟨k1, k2, k3⟩ := started_work h h4 hon.toModify
    obtain ⟨p', c', w'⟩ := s'
    simp only at k1 k3
    subst k1
    rcases k3 with ⟨hl, rfl⟩ | rfl
    · refine ⟨{ p with future := .ready new, generateNew := false, pc := .top }, go ?_, .fetched new rfl h1 h2 h3 k2, fun hn => absurd h1 hn⟩
      simp only [Planner.workerStep, hl]
    · exact ⟨_, hh, .fetched new rfl h1 h2 h3 k2, fun _ => .refl _⟩
  | flown h0 h1 h2 h3 h4 h5 =>
    have ht := hon.toModify
    rw [h0] at ht
    obtain ⟨k1, k2, k3⟩ := started_work h h4 ((settled_fields _ h3).2.1.symm.trans ht)
    obtain ⟨p', c', w'⟩ := s'
    simp only at k1 k3 h3 h5
    subst k1
    rcases k3 with ⟨hl, rfl⟩ | rfl
    · have hpc : q.pc = .launched := by rw [h0]; exact (settled_fields _ h3).2.2.trans hl
      refine ⟨{ q with generateNew := false, pc := .top }, go ?_, .flown ?_ h1 h2 h3 k2 h5, fun _ => ⟨rfl, rfl, rfl, rfl⟩⟩
      · simp only [Planner.workerStep, hpc]
      · rw [h0]
        cases c' <;> first | exact h3.elim | rfl
    · exact ⟨_, hh, .flown h0 h1 h2 h3 k2 h5, fun _ => .refl _⟩

/-! ## Steps of the evaluating thread -/

/-- Recording the time of an evaluation is part of a complete evaluation. -/
theorem hist_record (henv : Segmentwise env) {q : Planner K} (hne : route ≠ []) (hb : ∀ w ∈ route, Bookkept w) (hm : ∀ w ∈ route, w.modifiers = [])
    (hh : Hist env PS vehicle route q) (ht : q.traj ≠ none) (t : K) :
    Hist env PS vehicle route { q with params := { q.params with lastGlobal := t, lastLocal := t - q.params.gtlg } } := by
  obtain ⟨ps, hon⟩ := hist_on hne hm hh
  have hre := hist_reachable hb hh
  obtain ⟨hcomp, hstart⟩ : q.computing = false ∧ StartsRoute route ps q.dyn := by
    cases hon.stage with
    | queued a => exact absurd a ht
    | collected a => exact absurd a ht
    | planned a => exact absurd a ht
    | flown a b c d f g => exact ⟨c, g⟩
  have hwait : ¬ PlanWaiting q := by
    have := (reachable_ctl env q hre).idle hcomp
    rintro (h | ⟨tr, h⟩) <;> rw [this] at h <;> cases h
  have hmod : ∀ w ∈ q.dyn, w.modifiers = [] := by
    obtain ⟨_, _, _, _, _, _, _, _, hm⟩ := hstart
    exact hm
  obtain ⟨tr, htr⟩ : ∃ tr, q.traj = some tr := Option.ne_none_iff_exists'.mp ht
  have hz : NoZeroWidth q.dyn := fun w hx m hmm => by rw [hmod w hx] at hmm; cases hmm
  obtain ⟨r, s', hev⟩ := C40_returns env henv q hre tr htr hwait hz t false false
  have hs' : s' = { q with params := { q.params with lastGlobal := t, lastLocal := t - q.params.gtlg } } := by
    unfold Planner.evaluateTrajectory at hev
    rw [check_idle env q hwait ht] at hev
    simp only [bind, Except.bind] at hev
    rw [evaluateNow_eq env q tr htr] at hev
    split at hev
    · cases hev
    · rename_i v hv
      split at hv
      · cases hv
      · rw [← Except.ok.inj hv] at hev
        exact (congrArg Prod.snd (Option.some.inj (Except.ok.inj hev))).symm
  rw [← hs']
  refine hist_event (.evaluate t false false) hh id trivial (fun x hx => by cases hx) ?_
  simp only [Planner.step, hev, bind, Except.bind, pure, Except.pure, Option.map_some]

theorem sim_evaluator (henv : Segmentwise env) {p p' : Planner K} {c c' : Consumer K} {w : WorkerAt K} {q : Planner K} (hne : route ≠ [])
    (hb : ∀ w ∈ route, Bookkept w) (hm : ∀ w ∈ route, w.modifiers = [])
    (h : Fine.consume env ⟨p, c⟩ = .ok (some ⟨p', c'⟩)) (hs : Sim PS route ⟨p, c, w⟩ q) (hq : Ctl q) (hi : PhaseInv env ⟨p, c⟩) (hx : PS p.vehicle)
    (hh : Hist env PS vehicle route q) : Next env PS vehicle route q ⟨p', c', w⟩ := by
  have simple : ∀ {a : Planner K} {d : Consumer K}, (Except.ok (some (⟨a, d⟩ : Fine K)) : Res (Option (Fine K))) = .ok (some ⟨p', c'⟩) → p' = a ∧ c' = d :=
    fun h => by
      have := Option.some.inj (Except.ok.inj h)
      injection this with h1 h2
      exact ⟨h1.symm, h2.symm⟩
  have waiting : q = p → p.traj = none → p.computing = false → Waits c → p' = p ∧ Waits c' := by
    intro h0 h1 h2 h3
    subst h0
    have hf := hq.idle h2
    rcases own_waiting h hi h1 (fun hr => by rw [hf] at hr; cases hr) h3 with hk | ⟨_, _, hk, _⟩
    · exact hk
    · rw [hf] at hk; cases hk
  cases hs with
  | looking h0 h1 h2 h3 h4 h5 h6 h7 =>
    obtain ⟨rfl, k⟩ := waiting h0 h1 h2 h3
    exact ⟨q, hh, .looking h0 h1 h2 k h4 h5 h6 h7, fun _ => .refl q⟩
  | collecting h0 h1 h2 h3 h4 h5 h6 =>
    obtain ⟨rfl, k⟩ := waiting h0 h1 h2 h3
    exact ⟨q, hh, .collecting h0 h1 h2 k h4 h5 h6, fun _ => .refl q⟩
  | preparing h0 h1 h2 h3 h4 =>
    obtain ⟨rfl, k⟩ := waiting h0 h1 h2 h3
    exact ⟨q, hh, .preparing h0 h1 h2 k h4, fun _ => .refl q⟩
  | computing h0 h1 h2 h3 h4 =>
    simp only at h0 h1 h2 h3
    rcases own_waiting h hi h1 (fun _ => h2) h3 with ⟨rfl, k⟩ | ⟨k, new, hf, rfl, rfl⟩
    · exact ⟨q, hh, .computing h0 h1 h2 k h4, fun _ => .refl q⟩
    · refine ⟨q, hh, .fetched new ?_ h1 h2 (.target k) ?_, fun _ => .refl q⟩
      · rw [h0, ← hf]
      · rcases h4 with ⟨h4, _⟩ | h4
        · rw [h0] at hq
          rw [(hq.launching h4).2] at hf
          cases hf
        · exact started_beside _ h4 rfl rfl
  | fetched new h0 h1 h2 h3 h4 =>
    simp only at h0 h1 h2 h3
    have hscr : p.fromScratch = true := by
      by_contra hf
      rw [h0] at hq
      exact hq.scratch (by simpa using hf) h1
    have stay : ∀ {d : Consumer K}, Fetched PS new d → p' = p ∧ c' = d → Next env PS vehicle route q ⟨p', c', w⟩ := by
      rintro d hd ⟨rfl, rfl⟩
      exact ⟨q, hh, .fetched new h0 h1 h2 hd h4, fun _ => .refl q⟩
    cases h3 with
    | target k =>
      simp only [Fine.consume, hscr, if_true] at h
      exact stay (.fit0 k p.vehicle hx) (simple h)
    | fit0 k x hps =>
      simp only [Fine.consume, bind, Except.bind, pure, Except.pure] at h
      split at h
      · cases h
      · exact stay (.fit k x _ _ _ _ hps) (simple h)
    | fit k x n i d m hps =>
      cases n with
      | zero =>
        simp only [Fine.consume] at h
        exact stay (.offset k x m hps) (simple h)
      | succ n =>
        simp only [Fine.consume, bind, Except.bind, pure, Except.pure] at h
        split at h
        · cases h
        · split at h
          · exact stay (.fit k x _ _ _ _ hps) (simple h)
          · exact stay (.fit k x _ _ _ _ hps) (simple h)
    | offset k x m hps =>
      obtain ⟨rfl, rfl⟩ := simple h
      obtain ⟨hheld, hbr, y, d, e1, e2⟩ := hi
      simp only at hheld e1 e2
      have hh1 : Hist env PS vehicle route { q with vehicle := x } :=
        hist_event (.updateVehiclePosition x) hh id trivial (fun z hz => by injection hz with hz; rw [← hz]; exact hps) rfl
      subst h0
      have hstep := takeOver_step env { p with future := .ready new, vehicle := x } new x y d m h2 rfl (.inl ⟨hscr, rfl⟩) e1
        ((fitLoop_congr (p := p) (p' := { p with future := .ready new, vehicle := x }) rfl rfl _ _ _ _ _ _).trans e2)
      have hh2 := hist_event .getDynamicWaypoints hh1 id trivial (fun z hz => by cases hz) hstep
      have hh3 := hist_event (.updateVehiclePosition p.vehicle) hh2 id trivial (fun z hz => by injection hz with hz; rw [← hz]; exact hx) rfl
      refine ⟨_, hh3, .flown ?_ (by simp [Planner.updateVehiclePosition]) rfl trivial (started_beside _ h4 rfl rfl) (fun ws hws => by cases hws),
        fun hn => absurd h1 hn⟩
      simp only [settled, Planner.updateVehiclePosition, hheld.1]
  | flown h0 h1 h2 h3 h4 h5 =>
    simp only at h0 h3 h5
    have same : ∀ {a : Planner K} {d : Consumer K}, p' = a ∧ c' = d → ({ settled ⟨a, d⟩ with generateNew := false } : Planner K) =
        { settled ⟨p, c⟩ with generateNew := false } → a.pc = p.pc → (a.generateNew = p.generateNew ∨ a.generateNew = false) → Fitted d →
        (∀ ws, d = .copied ws → ws = p.dyn.map (·.copy) ∧ ¬ TakingOver c) → Next env PS vehicle route q ⟨p', c', w⟩ := by
      rintro a d ⟨rfl, rfl⟩ ha hpc hg hf hw
      refine ⟨q, hh, .flown (h0.trans ha.symm) h1 h2 hf ?_ ?_, fun _ => .refl q⟩
      · rcases h4 with ⟨x, y⟩ | ⟨x, y, z⟩
        · exact .inl ⟨hpc.trans x, y⟩
        · refine .inr ⟨hpc.trans x, ?_, z⟩
          rcases hg with hg | hg
          · exact hg.trans y
          · exact hg
      · intro ws hws
        obtain ⟨w1, w2⟩ := hw ws hws
        rw [w1, h0, settled_eq (f := ⟨p, c⟩) w2]
    have after : ∀ k : Purpose K, Fitted k.after ∧ ¬ TakingOver k.after ∧ ∀ ws, k.after ≠ .copied ws := by
      intro k
      cases k <;> exact ⟨trivial, id, fun ws h => by cases h⟩
    have idle : ¬ TakingOver c → p.computing = false := fun hn => by rw [h0, settled_eq (f := ⟨p, c⟩) hn] at h2; exact h2
    cases c with
    | free => cases h
    | evaluated r => cases h
    | copied ws => cases h
    | time x => cases h
    | start k =>
      cases k with
      | maxTime =>
        have := simple h
        split at this
        · exact same this rfl rfl (.inl rfl) trivial (fun ws h => by cases h)
        · exact same this rfl rfl (.inl rfl) trivial (fun ws h => by cases h)
      | minTime =>
        have := simple h
        split at this
        · exact same this rfl rfl (.inl rfl) trivial (fun ws h => by cases h)
        · exact same this rfl rfl (.inl rfl) trivial (fun ws h => by cases h)
      | evaluate t o f => exact same (simple h) rfl rfl (.inl rfl) trivial (fun ws h => by cases h)
      | waypoints => exact same (simple h) rfl rfl (.inl rfl) trivial (fun ws h => by cases h)
    | wait k =>
      simp only [Fine.consume] at h
      split at h
      · exact same (simple h) rfl rfl (.inl rfl) trivial (fun ws h => by cases h)
      · cases h
    | valid k => exact same (simple h) rfl rfl (.inl rfl) trivial (fun ws h => by cases h)
    | busy k v =>
      have := simple h
      rw [idle id] at this
      simp only [Bool.false_and, Bool.false_eq_true, if_false] at this
      exact same this (by rw [settled_eq (f := ⟨p, k.after⟩) (after k).2.1]; rfl) rfl (.inl rfl) (after k).1 (fun ws h => absurd h ((after k).2.2 ws))
    | ready k => have := idle id; rw [hi.2.1] at this; cases this
    | get k => have := idle id; rw [hi.1] at this; cases this
    | target k new => exact h3.elim
    | old k new g l => exact h3.elim
    | fit0 k new sc x => exact h3.elim
    | fit k new sc x n i d m => exact h3.elim
    | offset k new sc x m => exact h3.elim
    | fitted k new sc =>
      have := simple h
      cases sc with
      | true => exact same this rfl rfl (.inl rfl) trivial (fun ws h => by cases h)
      | false => exact same this rfl rfl (.inl rfl) trivial (fun ws h => by cases h)
    | params k new =>
      refine same (simple h) ?_ rfl (.inl rfl) trivial (fun ws h => by cases h)
      have := hi.2
      simp only at this
      simp only [settled, this]
    | traj k new => exact same (simple h) rfl rfl (.inl rfl) trivial (fun ws h => by cases h)
    | mark k => exact same (simple h) rfl rfl (.inl rfl) trivial (fun ws h => by cases h)
    | swap k => exact same (simple h) rfl rfl (.inl rfl) trivial (fun ws h => by cases h)
    | clearComputing k => exact same (simple h) rfl rfl (.inl rfl) trivial (fun ws h => by cases h)
    | clearRequest k =>
      refine same (simple h) ?_ rfl (.inr rfl) (after k).1 (fun ws h => absurd h ((after k).2.2 ws))
      rw [settled_eq (f := ⟨_, k.after⟩) (after k).2.1]
      rfl
    | localTime t o f => exact same (simple h) rfl rfl (.inl rfl) trivial (fun ws h => by cases h)
    | note t o f l =>
      have hsim := simple h
      cases f with
      | true => exact same hsim rfl rfl (.inl rfl) trivial (fun ws h => by cases h)
      | false =>
        simp only [Bool.false_eq_true, if_false] at hsim
        obtain ⟨rfl, rfl⟩ := hsim
        have hl : l = t - p.params.gtlg := hi.2
        subst h0
        refine ⟨_, hist_record henv hne hb hm hh h1 t, .flown ?_ h1 h2 trivial (started_beside _ h4 rfl rfl) (fun ws hws => by cases hws),
          fun _ => ⟨rfl, rfl, rfl, rfl⟩⟩
        rw [hl]
        rfl
    | shift t o l => exact same (simple h) rfl rfl (.inl rfl) trivial (fun ws h => by cases h)
    | plain o g l done =>
      simp only [Fine.consume, bind, Except.bind, pure, Except.pure] at h
      split at h
      · cases h
      · split at h
        · cases h
        · split at h
          · cases h
          · exact same (simple h) rfl rfl (.inl rfl) trivial (fun ws h => by cases h)
    | compensate o g l done base =>
      simp only [Fine.consume, bind, Except.bind, pure, Except.pure] at h
      have nx : ∀ done' : List (V3 K), Fitted (nextOrder o g l done') ∧ ¬ TakingOver (nextOrder o g l done') ∧ ∀ ws, nextOrder o g l done' ≠ .copied ws := by
        intro done'
        unfold nextOrder
        split <;> exact ⟨trivial, id, fun ws h => by cases h⟩
      split at h
      · split at h
        · cases h
        · exact same (simple h) (by rw [settled_eq (f := ⟨p, nextOrder o g l _⟩) (nx _).2.1]; rfl) rfl (.inl rfl) (nx _).1
            (fun ws h => absurd h ((nx _).2.2 ws))
      · exact same (simple h) (by rw [settled_eq (f := ⟨p, nextOrder o g l _⟩) (nx _).2.1]; rfl) rfl (.inl rfl) (nx _).1
          (fun ws h => absurd h ((nx _).2.2 ws))
    | copy =>
      refine same (simple h) rfl rfl (.inl rfl) trivial (fun ws h => ?_)
      injection h with h
      exact ⟨h.symm, id⟩
    | length m =>
      simp only [Fine.consume] at h
      split at h
      · cases h
      · exact same (simple h) rfl rfl (.inl rfl) trivial (fun ws h => by cases h)
    | globalTime x => exact same (simple h) rfl rfl (.inl rfl) trivial (fun ws h => by cases h)

theorem sim_step (henv : Segmentwise env) {l : Label K} {s s' : Whole K} {q : Planner K} (hne : route ≠ []) (hb : ∀ w ∈ route, Bookkept w)
    (hm : ∀ w ∈ route, w.modifiers = []) (ht : Threads env s) (h : ThreadStep env l s s') (hr : ¬ Requesting l) (hx : PS s.p.vehicle) (hx' : PS s'.p.vehicle)
    (hs : Sim PS route s q) (hh : Hist env PS vehicle route q) : Next env PS vehicle route q s' := by
  have hq := reachable_ctl env q (hist_reachable hb hh)
  have hi := (interleaved_inv (threads_inv ht).1).2
  cases h with
  | evaluator w h => exact sim_evaluator henv hne hb hm h hs hq hi hx hh
  | worker h => exact sim_worker hne hm h hs hq hh
  | user e hu hv _ h => exact sim_user hu hr hv h hs hx' hh
  | request s => exact absurd trivial hr
  | task e hb' hv h => exact sim_task hb' hv h hs hq hi hh

theorem sim_call {s : Whole K} {q : Planner K} (k : Purpose K) (hf : s.c.isFree = true) (hs : Sim PS route s q) :
    Sim PS route ⟨s.p, .start k, s.w⟩ q := by
  obtain ⟨p, c, w⟩ := s
  cases hs with
  | looking h0 h1 h2 h3 h4 h5 h6 h7 => exact .looking h0 h1 h2 trivial h4 h5 h6 h7
  | collecting h0 h1 h2 h3 h4 h5 h6 => exact .collecting h0 h1 h2 trivial h4 h5 h6
  | preparing h0 h1 h2 h3 h4 => exact .preparing h0 h1 h2 trivial h4
  | computing h0 h1 h2 h3 h4 => exact .computing h0 h1 h2 trivial h4
  | fetched new h0 h1 h2 h3 h4 => cases h3 <;> cases hf
  | flown h0 h1 h2 h3 h4 h5 =>
    refine .flown (h0.trans ?_) h1 h2 trivial h4 (fun ws h => by cases h)
    cases c <;> first | rfl | cases hf

/-! ## Before the request -/

/-- Nothing was requested yet, and everything that happened is a history of complete calls. -/
structure Unbegun (env : Env K) (PS : V3 K → Prop) (vehicle : V3 K) (s : Whole K) : Prop where
  run : ∃ es, (∀ e ∈ es, ¬ IsRequest e ∧ ValidEvent e ∧ ∀ x, e = .updateVehiclePosition x → PS x) ∧ Run env (Planner.init vehicle) es s.p
  traj : s.p.traj = none
  computing : s.p.computing = false
  idling : Idling s
  toModify : s.p.toModify = []
  waits : Waits s.c

theorem unbegun_step {l : Label K} {s s' : Whole K} (ht : Threads env s) (h : ThreadStep env l s s') (hr : ¬ Requesting l) (hx : PS s'.p.vehicle)
    (he : Unbegun env PS vehicle s) : Unbegun env PS vehicle s' := by
  obtain ⟨hser, hi⟩ := interleaved_inv (threads_inv ht).1
  have hctl := serialised_ctl hser
  rw [settled_eq (f := ⟨s.p, s.c⟩) (waits_not he.waits)] at hctl
  have hf := hctl.idle he.computing
  obtain ⟨⟨es, h1, h2⟩, e1, e2, e3, e4, e5⟩ := he
  simp only at hf
  cases h with
  | evaluator w h =>
    rcases own_waiting h hi e1 (fun hr => by rw [hf] at hr; cases hr) e5 with ⟨rfl, k⟩ | ⟨_, _, hk, _⟩
    · exact ⟨⟨es, h1, h2⟩, e1, e2, e3, e4, k⟩
    · rw [hf] at hk; cases hk
  | worker h =>
    obtain ⟨k1, k2, k3⟩ := started_work h (.inr e3) e4
    have hp : s'.p = s.p := by
      rcases k3 with ⟨k3, _⟩ | k3
      · rw [e3.1] at k3; cases k3
      · exact k3
    obtain ⟨p', c', w'⟩ := s'
    simp only at k1 hp
    subst hp k1
    refine ⟨⟨es, h1, h2⟩, e1, e2, ?_, e4, e5⟩
    rcases k2 with ⟨k2, _⟩ | k2
    · change s.p.pc = _ at k2
      rw [e3.1] at k2; cases k2
    · exact k2
  | user e hu hv _ h =>
    have hq := user_quiet hu hr h
    refine ⟨⟨es ++ [e], ?_, .snoc e h2 h⟩, ?_, ?_, ?_, ?_, ?_⟩
    · intro e' he'
      rcases List.mem_append.mp he' with he' | he'
      · exact h1 e' he'
      · rw [List.mem_singleton.mp he']
        refine ⟨hr, hv, ?_⟩
        rintro x rfl
        rw [← Option.some.inj (Except.ok.inj h)] at hx
        exact hx
    · rcases hq with ⟨v, _, rfl⟩ | ⟨_, rfl⟩ | ⟨x, _, rfl⟩ <;> exact e1
    · rcases hq with ⟨v, _, rfl⟩ | ⟨_, rfl⟩ | ⟨x, _, rfl⟩ <;> exact e2
    · rcases hq with ⟨v, _, rfl⟩ | ⟨_, rfl⟩ | ⟨x, _, rfl⟩ <;> exact e3
    · rcases hq with ⟨v, _, rfl⟩ | ⟨_, rfl⟩ | ⟨x, _, rfl⟩ <;> exact e4
    · exact e5
  | request s => exact absurd trivial hr
  | task e hb' hv h => exact absurd hf (task_pc hb' h).2

theorem unbegun_stretch {s : Whole K} {ss : List (Whole K)} (h : Stretch env (fun _ l _ => ¬ Requesting l) ⟨Planner.init vehicle, .free, .begin⟩ ss s)
    (hx : ∀ m ∈ ss, PS m.p.vehicle) : Unbegun env PS vehicle s := by
  induction h with
  | start => exact ⟨⟨[], by simp, .nil⟩, rfl, rfl, ⟨rfl, rfl, .inl rfl⟩, rfl, trivial⟩
  | call k h hf ih =>
    obtain ⟨e0, e1, e2, e3, e4, e5⟩ := ih (fun m hm => hx m (List.mem_append_left _ hm))
    exact ⟨e0, e1, e2, e3, e4, trivial⟩
  | step h hst hok ih =>
    exact unbegun_step (stretch_threads (.init vehicle) h) hst hok (hx _ (List.mem_append_right _ List.mem_cons_self))
      (ih (fun m hm => hx m (List.mem_append_left _ hm)))

/-- The request. -/
theorem unbegun_request {s s' : Whole K} (he : Unbegun env PS vehicle s) (h : ThreadStep env (.user (.setWaypoints route)) s s') :
    (∀ w ∈ route, Bookkept w) ∧ Hist env PS vehicle route s'.p ∧ Sim PS route s' s'.p := by
  obtain ⟨⟨es, h1, h2⟩, e1, e2, ⟨e3, e4, e5⟩, e6, e7⟩ := he
  cases h with
  | user e hu hv _ h =>
    refine ⟨hv, ⟨es, [], by simpa using h1, .snoc _ h2 h⟩, ?_⟩
    rw [← Option.some.inj (Except.ok.inj h)]
    refine .looking rfl e1 e2 e7 rfl rfl e3 ?_
    rcases e5 with e5 | e5
    · exact .inl e5
    · exact .inr (.inr (.inr e5))

/-! ## After the request -/

/-- What was seen in the states `ss` is the plan of `q`. -/
def Seen (ss : List (Whole K)) (q : Planner K) : Prop :=
  ∀ m ∈ ss, (¬ TakingOver m.c → m.p.traj ≠ none → KeptPlan m.p q) ∧ ∀ ws, m.c = .copied ws → q.traj ≠ none ∧ ws = q.dyn.map (·.copy)

theorem sim_seen {s : Whole K} {q : Planner K} (h : Sim PS route s q) : Seen [s] q := by
  intro m hm
  rw [List.mem_singleton.mp hm]
  have no : s.p.traj = none → Waits s.c → (¬ TakingOver s.c → s.p.traj ≠ none → KeptPlan s.p q) ∧
      ∀ ws, s.c = .copied ws → q.traj ≠ none ∧ ws = q.dyn.map (·.copy) := by
    intro h1 h2
    refine ⟨fun _ h => absurd h1 h, fun ws h => ?_⟩
    rw [h] at h2
    exact h2.elim
  cases h with
  | looking h0 h1 h2 h3 => exact no h1 h3
  | collecting h0 h1 h2 h3 => exact no h1 h3
  | preparing h0 h1 h2 h3 => exact no h1 h3
  | computing h0 h1 h2 h3 => exact no h1 h3
  | fetched new h0 h1 h2 h3 => exact ⟨fun _ h => absurd h1 h, fun ws h => by rw [h] at h3; cases h3⟩
  | flown h0 h1 h2 h3 h4 h5 =>
    refine ⟨fun hn _ => ?_, fun ws h => ⟨h1, h5 ws h⟩⟩
    rw [settled_eq (f := ⟨s.p, s.c⟩) hn] at h0
    rw [h0]
    exact ⟨rfl, rfl, rfl, rfl⟩

theorem seen_next {ss : List (Whole K)} {q q' : Planner K} (h : Seen ss q) (hn : q.traj ≠ none → KeptPlan q q') : Seen ss q' := by
  intro m hm
  obtain ⟨h1, h2⟩ := h m hm
  refine ⟨fun a b => ?_, fun ws hw => ?_⟩
  · have := h1 a b
    exact this.trans (hn (by rw [this.1]; exact b))
  · obtain ⟨k1, k2⟩ := h2 ws hw
    have := hn k1
    exact ⟨by rw [this.1]; exact k1, by rw [this.2.1]; exact k2⟩

theorem seen_append {ss ss' : List (Whole K)} {q : Planner K} (h : Seen ss q) (h' : Seen ss' q) : Seen (ss ++ ss') q := by
  intro m hm
  rcases List.mem_append.mp hm with hm | hm
  · exact h m hm
  · exact h' m hm

theorem late_stretch (henv : Segmentwise env) {s2 s : Whole K} {q2 : Planner K} {ss : List (Whole K)} (hne : route ≠ []) (hb : ∀ w ∈ route, Bookkept w)
    (hm : ∀ w ∈ route, w.modifiers = []) (ht : Threads env s2) (hs : Sim PS route s2 q2) (hh : Hist env PS vehicle route q2)
    (h : Stretch env (fun _ l _ => ¬ Requesting l) s2 ss s) (hx : ∀ m ∈ ss, PS m.p.vehicle) :
    ∃ q, Hist env PS vehicle route q ∧ Sim PS route s q ∧ Seen ss q ∧ s ∈ ss := by
  induction h with
  | start => exact ⟨q2, hh, hs, sim_seen hs, List.mem_singleton_self _⟩
  | call k h hf ih =>
    obtain ⟨q, i1, i2, i3, i4⟩ := ih (fun m hm => hx m (List.mem_append_left _ hm))
    have := sim_call k hf i2
    exact ⟨q, i1, this, seen_append i3 (sim_seen this), by simp⟩
  | step h hst hok ih =>
    have hx0 := fun (m : Whole K) hm => hx m (List.mem_append_left _ hm)
    obtain ⟨q, i1, i2, i3, i4⟩ := ih hx0
    obtain ⟨q', j1, j2, j3⟩ := sim_step henv hne hb hm (stretch_threads ht h) hst hok (hx0 _ i4) (hx _ (List.mem_append_right _ List.mem_cons_self)) i2 i1
    exact ⟨q', j1, j2, seen_append (seen_next i3 j3) (sim_seen j2), by simp⟩

/-- The evaluating thread takes nothing over while nothing is being computed. -/
theorem own_calm {p p' : Planner K} {c c' : Consumer K} (h : Fine.consume env ⟨p, c⟩ = .ok (some ⟨p', c'⟩)) (hi : PhaseInv env ⟨p, c⟩)
    (hc : p.computing = false) (hn : ¬ TakingOver c) : ¬ TakingOver c' := by
  have simple : ∀ {a : Planner K} {d : Consumer K}, (Except.ok (some (⟨a, d⟩ : Fine K)) : Res (Option (Fine K))) = .ok (some ⟨p', c'⟩) → c' = d :=
    fun h => by
      have := Option.some.inj (Except.ok.inj h)
      injection this with h1 h2
      exact h2.symm
  have after : ∀ k : Purpose K, ¬ TakingOver k.after := by
    intro k
    cases k <;> exact id
  cases c with
  | free => cases h
  | evaluated r => cases h
  | copied ws => cases h
  | time x => cases h
  | start k =>
    cases k with
    | maxTime =>
      have := simple h
      split at this <;> rw [this] <;> exact id
    | minTime =>
      have := simple h
      split at this <;> rw [this] <;> exact id
    | evaluate t o f => rw [simple h]; exact id
    | waypoints => rw [simple h]; exact id
  | wait k =>
    simp only [Fine.consume] at h
    split at h
    · rw [simple h]; exact id
    · cases h
  | busy k v =>
    have := simple h
    rw [hc] at this
    rw [this]
    exact after k
  | ready k => have := hi.2.1; simp only at this; rw [hc] at this; cases this
  | get k => have := hi.1; simp only at this; rw [hc] at this; cases this
  | clearRequest k => rw [simple h]; exact after k
  | note t o f l => rw [simple h]; exact id
  | plain o g l done =>
    simp only [Fine.consume, bind, Except.bind, pure, Except.pure] at h
    split at h
    · cases h
    · split at h
      · cases h
      · split at h
        · cases h
        · rw [simple h]; exact id
  | compensate o g l done base =>
    simp only [Fine.consume, bind, Except.bind, pure, Except.pure] at h
    have nx : ∀ done' : List (V3 K), ¬ TakingOver (nextOrder o g l done') := by
      intro done'
      unfold nextOrder
      split <;> exact id
    split at h
    · split at h
      · cases h
      · rw [simple h]; exact nx _
    · rw [simple h]; exact nx _
  | length m =>
    simp only [Fine.consume] at h
    split at h
    · cases h
    · rw [simple h]; exact id
  | valid k => rw [simple h]; exact id
  | localTime t o f => rw [simple h]; exact id
  | shift t o l => rw [simple h]; exact id
  | copy => rw [simple h]; exact id
  | globalTime x => rw [simple h]; exact id
  | _ => exact absurd trivial hn

/-- A plan is in place, and nothing is being taken over. -/
def InPlace (s : Whole K) : Prop := ¬ TakingOver s.c ∧ s.p.traj ≠ none

theorem sim_inPlace {s : Whole K} {q : Planner K} (h : Sim PS route s q) (hp : InPlace s) : s.p.computing = false ∧ q = { s.p with generateNew := false } := by
  cases h with
  | looking h0 h1 h2 h3 => exact absurd h1 hp.2
  | collecting h0 h1 h2 h3 => exact absurd h1 hp.2
  | preparing h0 h1 h2 h3 => exact absurd h1 hp.2
  | computing h0 h1 h2 h3 => exact absurd h1 hp.2
  | fetched new h0 h1 h2 h3 => exact absurd h1 hp.2
  | flown h0 h1 h2 h3 h4 h5 =>
    rw [settled_eq (f := ⟨s.p, s.c⟩) hp.1] at h0
    rw [h0] at h2
    exact ⟨h2, h0⟩

theorem inPlace_step (henv : Segmentwise env) {l : Label K} {s s' : Whole K} {q : Planner K} (hne : route ≠ []) (hb : ∀ w ∈ route, Bookkept w)
    (hm : ∀ w ∈ route, w.modifiers = []) (ht : Threads env s) (h : ThreadStep env l s s') (hr : ¬ Requesting l) (hx : PS s.p.vehicle) (hx' : PS s'.p.vehicle)
    (hs : Sim PS route s q) (hh : Hist env PS vehicle route q) (hp : InPlace s) : InPlace s' := by
  obtain ⟨hcomp, hq⟩ := sim_inPlace hs hp
  have hi := (interleaved_inv (threads_inv ht).1).2
  have hn : ¬ TakingOver s'.c := by
    cases h with
    | evaluator w h => exact own_calm h hi hcomp hp.1
    | worker h =>
      have hstart : Started s := by
        cases hs with
        | looking h0 h1 => exact absurd h1 hp.2
        | collecting h0 h1 => exact absurd h1 hp.2
        | preparing h0 h1 => exact absurd h1 hp.2
        | computing h0 h1 => exact absurd h1 hp.2
        | fetched new h0 h1 => exact absurd h1 hp.2
        | flown h0 h1 h2 h3 h4 h5 => exact h4
      obtain ⟨ps, hon⟩ := hist_on hne hm hh
      have hto := hon.toModify
      rw [hq] at hto
      rw [(started_work h hstart hto).1]
      exact hp.1
    | user e hu hv _ h => exact hp.1
    | request s => exact hp.1
    | task e hb' hv h => exact hp.1
  refine ⟨hn, ?_⟩
  obtain ⟨q', j1, j2, j3⟩ := sim_step henv hne hb hm ht h hr hx hx' hs hh
  have hsame := j3 (by rw [hq]; exact hp.2)
  have hq' : q'.traj ≠ none := by rw [hsame.1, hq]; exact hp.2
  cases j2 with
  | looking h0 h1 => rw [h0] at hq'; exact absurd h1 hq'
  | collecting h0 h1 => rw [h0] at hq'; exact absurd h1 hq'
  | preparing h0 h1 => rw [h0] at hq'; exact absurd h1 hq'
  | computing h0 h1 => rw [h0] at hq'; exact absurd h1 hq'
  | fetched new h0 h1 => rw [h0] at hq'; exact absurd h1 hq'
  | flown h0 h1 h2 h3 h4 h5 =>
    rw [settled_eq (f := ⟨s'.p, s'.c⟩) hn] at h0
    rw [h0] at h1
    exact h1

theorem inPlace_stretch (henv : Segmentwise env) {s2 s : Whole K} {q2 : Planner K} {ss : List (Whole K)} (hne : route ≠ []) (hb : ∀ w ∈ route, Bookkept w)
    (hm : ∀ w ∈ route, w.modifiers = []) (ht : Threads env s2) (hs : Sim PS route s2 q2) (hh : Hist env PS vehicle route q2) (hp : InPlace s2)
    (h : Stretch env (fun _ l _ => ¬ Requesting l) s2 ss s) (hx : ∀ m ∈ ss, PS m.p.vehicle) : ∀ m ∈ ss, InPlace m := by
  have last : ∀ {ss : List (Whole K)} {s : Whole K}, Stretch env (fun _ l _ => ¬ Requesting l) s2 ss s → s ∈ ss := by
    intro ss s h
    cases h <;> simp
  induction h with
  | start => intro m hm; rw [List.mem_singleton.mp hm]; exact hp
  | call k h hf ih =>
    have hx0 := fun (m : Whole K) hm => hx m (List.mem_append_left _ hm)
    intro m hmem
    rcases List.mem_append.mp hmem with hmem | hmem
    · exact ih hx0 m hmem
    · rw [List.mem_singleton.mp hmem]
      exact ⟨id, (ih hx0 _ (last h)).2⟩
  | step h hst hok ih =>
    have hx0 := fun (m : Whole K) hm => hx m (List.mem_append_left _ hm)
    intro m hmem
    rcases List.mem_append.mp hmem with hmem | hmem
    · exact ih hx0 m hmem
    · have hx1 := hx m (List.mem_append_right _ hmem)
      rw [List.mem_singleton.mp hmem] at hx1
      rw [List.mem_singleton.mp hmem]
      obtain ⟨q, i1, i2, i3, i4⟩ := late_stretch henv hne hb hm ht hs hh h hx0
      exact inPlace_step henv hne hb hm (stretch_threads ht h) hst hok (hx0 _ i4) hx1 i2 i1 (ih hx0 _ (last h))

/-! ## Composition of stretches -/

theorem stretch_last {ok : Whole K → Label K → Whole K → Prop} {a b : Whole K} {ss : List (Whole K)} (h : Stretch env ok a ss b) : b ∈ ss := by
  cases h <;> simp

theorem stretch_first {ok : Whole K → Label K → Whole K → Prop} {a b : Whole K} {ss : List (Whole K)} (h : Stretch env ok a ss b) : a ∈ ss := by
  induction h with
  | start => simp
  | call k h hf ih => exact List.mem_append_left _ ih
  | step h hs ho ih => exact List.mem_append_left _ ih

theorem stretch_join {ok : Whole K → Label K → Whole K → Prop} {a b c : Whole K} {ss ss' : List (Whole K)} (h : Stretch env ok a ss b)
    (h' : Stretch env ok b ss' c) : ∃ ss'', Stretch env ok a ss'' c ∧ ∀ m, m ∈ ss'' ↔ m ∈ ss ∨ m ∈ ss' := by
  induction h' with
  | start =>
    refine ⟨ss, h, fun m => ⟨.inl, ?_⟩⟩
    rintro (hm | hm)
    · exact hm
    · rw [List.mem_singleton.mp hm]; exact stretch_last h
  | call k h1 hf ih =>
    obtain ⟨ss'', i1, i2⟩ := ih
    refine ⟨_, .call k i1 hf, fun m => ?_⟩
    simp only [List.mem_append, i2, or_assoc]
  | step h1 hs ho ih =>
    obtain ⟨ss'', i1, i2⟩ := ih
    refine ⟨_, .step i1 hs ho, fun m => ?_⟩
    simp only [List.mem_append, i2, or_assoc]

theorem callWhile_stretch {ok : Whole K → Label K → Whole K → Prop} {k : Purpose K} {s0 s : Whole K} {ss : List (Whole K)}
    (h : CallWhile env ok k s0 ss s) : Stretch env ok s0 (s0 :: ss) s := by
  induction h with
  | start hf => exact .call k .start hf
  | step h hs ho ih => exact .step ih hs ho

theorem callWhile_calling {ok : Whole K → Label K → Whole K → Prop} {k : Purpose K} {s0 s : Whole K} {ss : List (Whole K)} (ht : Threads env s0)
    (h : CallWhile env ok k s0 ss s) : Calling env k ss s := by
  induction h with
  | start hf => exact .start ht hf
  | step h hs ho ih => exact .step ih hs

theorem starts_held {q : Planner K} (hne : route ≠ []) (hm : ∀ w ∈ route, w.modifiers = []) (hv : PS vehicle) (h : Hist env PS vehicle route q)
    (hq : q.traj ≠ none) : ∃ ps, (∀ x ∈ ps, PS x) ∧ StartsRoute route ps q.dyn ∧ q.computing = false := by
  obtain ⟨before, after, h1, h2⟩ := h
  have hon := onRoute_run env vehicle before after route hne hm (fun e he => (h1 e he).1) q h2
  refine ⟨vehicle :: positionsReported (before ++ after), ?_, ?_⟩
  rotate_left
  · cases hon.stage with
    | queued a b c d => exact absurd a hq
    | collected a b c d f => exact absurd a hq
    | planned a b c d => exact absurd a hq
    | flown a b c d f g => exact ⟨g, c⟩
  · intro x hx
    rcases List.mem_cons.mp hx with rfl | hx
    · exact hv
    · simp only [positionsReported, List.mem_filterMap] at hx
      obtain ⟨e, he, hx⟩ := hx
      cases e with
      | updateVehiclePosition y => exact (h1 _ he).2.2 x (by rw [Option.some.inj hx])
      | _ => cases hx

theorem hist_waypoints {q : Planner K} (hne : route ≠ []) (hm : ∀ w ∈ route, w.modifiers = []) (hb : ∀ w ∈ route, Bookkept w) (hh : Hist env PS vehicle route q)
    (hq : q.traj ≠ none) : ¬ PlanWaiting q ∧ q.getDynamicWaypoints env = .ok (some (q.dyn.map (·.copy), q)) := by
  have hc : q.computing = false := by
    obtain ⟨ps, hon⟩ := hist_on hne hm hh
    cases hon.stage with
    | queued a b c d => exact absurd a hq
    | collected a b c d f => exact absurd a hq
    | planned a b c d => exact absurd a hq
    | flown a b c d f g => exact c
  have hw : ¬ PlanWaiting q := by
    have := (reachable_ctl env q (hist_reachable hb hh)).idle hc
    rintro (h | ⟨tr, h⟩) <;> rw [this] at h <;> cases h
  refine ⟨hw, ?_⟩
  unfold Planner.getDynamicWaypoints
  rw [check_idle env q hw hq]
  rfl

/-- Two references to the same plan, without modified waypoints. -/
theorem reference_unique {tr : Trajectory K} {ws ws' : List (Waypoint K)} (hm : ∀ w ∈ ws, w.modifiers = []) (hm' : ∀ w ∈ ws', w.modifiers = []) {tl tg tg' : K}
    {k : ℕ} {v v' : V3 K} (h : IsReference env tr ws tl tg k v) (h' : IsReference env tr ws' tl tg' k v') : v = v' := by
  have e := (reference_base env tr ws hm h).symm.trans (reference_base env tr ws' hm' h')
  have e := Except.ok.inj e
  simp only [List.cons.injEq, and_true] at e
  obtain ⟨q1, q2, q3⟩ := e
  apply comp_ext
  intro ax
  cases ax
  · exact q1
  · exact q2
  · exact q3

end

/-! ## C138 -/

/-- C138: a planner is given one route of waypoints in space, and neither before nor after is anything else requested; users report vehicle positions, set
the speed and call the evaluating functions; the worker, the computation and the evaluating thread proceed, all of them interleaved access by access. Once
`getDynamicWaypoints` returns, it returns a starting point without name, at a position the planner held at some moment for the vehicle's, at rest, followed by the
waypoints of the route, in their order and with their names; the times strictly increase. -/
theorem C138_waypoints (env : Env K) (henv : Segmentwise env) (vehicle : V3 K) (route : List (Waypoint K)) (hne : route ≠ [])
    (hm : ∀ w ∈ route, w.modifiers = []) (s1 s2 s : Whole K) (ss1 ss2 : List (Whole K))
    (h1 : Stretch env (fun _ l _ => ¬ Requesting l) ⟨Planner.init vehicle, .free, .begin⟩ ss1 s1)
    (hr : ThreadStep env (.user (.setWaypoints route)) s1 s2) (h2 : Stretch env (fun _ l _ => ¬ Requesting l) s2 ss2 s)
    (ws : List (Waypoint K)) (hs : s.c = .copied ws) :
    (∃ start rest, ws = start :: rest ∧ start.name = "" ∧ (∃ m ∈ ss1 ++ ss2, m.p.vehicle = start.current) ∧
      start.vertex.getConstraint 1 = some [0, 0, 0] ∧ start.vertex.getConstraint 2 = some [0, 0, 0] ∧ List.Forall₂ SameWaypoint route rest) ∧
    ws.Pairwise (fun a b => a.time < b.time) := by
  have hx1 : ∀ m ∈ ss1, ∃ n ∈ ss1 ++ ss2, n.p.vehicle = m.p.vehicle := fun m hm => ⟨m, List.mem_append_left _ hm, rfl⟩
  have hx2 : ∀ m ∈ ss2, ∃ n ∈ ss1 ++ ss2, n.p.vehicle = m.p.vehicle := fun m hm => ⟨m, List.mem_append_right _ hm, rfl⟩
  have he := unbegun_stretch (PS := fun x => ∃ n ∈ ss1 ++ ss2, n.p.vehicle = x) h1 hx1
  obtain ⟨hb, hh, hsim⟩ := unbegun_request he hr
  have ht : Threads env s2 := .step (stretch_threads (.init vehicle) h1) hr
  obtain ⟨q, j1, j2, j3, j4⟩ := late_stretch henv hne hb hm ht hsim hh h2 hx2
  obtain ⟨hq, rfl⟩ := (j3 s j4).2 ws hs
  obtain ⟨ps, k1, k2, k3⟩ := starts_held hne hm (hx1 _ (stretch_first h1)) j1 hq
  refine ⟨?_, ?_⟩
  · obtain ⟨w0, rest, e1, e2, e3, e4, e5, e6, _⟩ := startsRoute_copy k2
    exact ⟨w0, rest, e1, e2, k1 _ e3, e4, e5, e6⟩
  · obtain ⟨_, _, _, _, _, _, htimes, _⟩ := C54_times env henv q (hist_reachable hb j1) _ q (hist_waypoints hne hm hb j1 hq).2
    rw [List.pairwise_iff_getElem]
    intro i j hi hj hij
    exact htimes i j _ _ (List.getElem?_eq_getElem hi) (List.getElem?_eq_getElem hj) hij

/-- C138: the plan stays. Under the same circumstances, all copies of the waypoints that are ever returned are equal; and from the first moment when there is a
plan and none is being taken over, the trajectory, the waypoints, the time the plan begins and the time compensation never change. -/
theorem C138_stays (env : Env K) (henv : Segmentwise env) (vehicle : V3 K) (route : List (Waypoint K)) (hne : route ≠ [])
    (hm : ∀ w ∈ route, w.modifiers = []) (s1 s2 s : Whole K) (ss1 ss2 : List (Whole K))
    (h1 : Stretch env (fun _ l _ => ¬ Requesting l) ⟨Planner.init vehicle, .free, .begin⟩ ss1 s1)
    (hr : ThreadStep env (.user (.setWaypoints route)) s1 s2) (h2 : Stretch env (fun _ l _ => ¬ Requesting l) s2 ss2 s) :
    (∀ m ∈ ss2, ∀ n ∈ ss2, ∀ ws ws', m.c = .copied ws → n.c = .copied ws' → ws = ws') ∧
    ∀ (s' : Whole K) (ss3 : List (Whole K)), ¬ TakingOver s.c → s.p.traj ≠ none → Stretch env (fun _ l _ => ¬ Requesting l) s ss3 s' →
      ∀ m ∈ ss3, ¬ TakingOver m.c ∧ m.p.traj = s.p.traj ∧ m.p.dyn = s.p.dyn ∧ m.p.params.gtlg = s.p.params.gtlg ∧
        m.p.getTimeCompensation = s.p.getTimeCompensation := by
  have he := unbegun_stretch (PS := fun _ => True) h1 (fun _ _ => trivial)
  obtain ⟨hb, hh, hsim⟩ := unbegun_request he hr
  have ht : Threads env s2 := .step (stretch_threads (.init vehicle) h1) hr
  refine ⟨?_, ?_⟩
  · obtain ⟨q, j1, j2, j3, j4⟩ := late_stretch henv hne hb hm ht hsim hh h2 (fun _ _ => trivial)
    intro m hm' n hn ws ws' h h'
    rw [((j3 m hm').2 ws h).2, ((j3 n hn).2 ws' h').2]
  · intro s' ss3 hn hp h3 m hm'
    obtain ⟨q, j1, j2, j3, j4⟩ := late_stretch henv hne hb hm ht hsim hh h2 (fun _ _ => trivial)
    have ht' := stretch_threads ht h2
    have hin := inPlace_stretch henv hne hb hm ht' j2 j1 ⟨hn, hp⟩ h3 (fun _ _ => trivial) m hm'
    obtain ⟨q', k1, k2, k3, k4⟩ := late_stretch henv hne hb hm ht' j2 j1 h3 (fun _ _ => trivial)
    obtain ⟨a1, a2, a3, a4⟩ := (k3 m hm').1 hin.1 hin.2
    obtain ⟨b1, b2, b3, b4⟩ := (k3 s (stretch_first h3)).1 hn hp
    exact ⟨hin.1, a1.symm.trans b1, a2.symm.trans b2, a3.symm.trans b3, a4.symm.trans b4⟩

/-- C138: the references. Under the same circumstances, a call `evaluateTrajectory` for the time `t` returns `r`. If `t` plus the time compensation is the time of a waypoint in a
copy of the waypoints returned before or after, `r` has its position, and the velocity and acceleration it prescribes unless it is the last one. If it is not less
than the time of the last one, `r` is its position, at rest. The time compensation may be asked for at any moment after the call. -/
theorem C138_references (env : Env K) (henv : Segmentwise env) (hmeets : MeetsVertices env) (vehicle : V3 K) (route : List (Waypoint K)) (hne : route ≠ [])
    (hm : ∀ w ∈ route, w.modifiers = []) (s1 s2 s3 s4 s5 : Whole K) (ss1 ss2 ss3 ss4 : List (Whole K))
    (h1 : Stretch env (fun _ l _ => ¬ Requesting l) ⟨Planner.init vehicle, .free, .begin⟩ ss1 s1)
    (hr : ThreadStep env (.user (.setWaypoints route)) s1 s2) (h2 : Stretch env (fun _ l _ => ¬ Requesting l) s2 ss2 s3)
    (t : K) (f : Bool) (h3 : CallWhile env (fun _ l _ => ¬ Requesting l) (.evaluate t false f) s3 ss3 s4) (r : References K) (hs : s4.c = .evaluated r)
    (h4 : Stretch env (fun _ l _ => ¬ Requesting l) s4 ss4 s5)
    (m n : Whole K) (ws : List (Waypoint K)) (hmem : m ∈ ss2 ++ ss4) (hws : m.c = .copied ws) (hn : n ∈ ss4) :
    (∀ (i : ℕ) (w : Waypoint K), ws[i]? = some w → w.time = t + n.p.getTimeCompensation → r.position = w.current ∧
      ∀ (k : ℕ) (v : V3 K), k = 1 ∨ k = 2 → i + 1 < ws.length → w.vertex.getConstraint k = some [v.x, v.y, v.z] → refOrder r k = some v) ∧
    (∀ w : Waypoint K, ws.getLast? = some w → w.time ≤ t + n.p.getTimeCompensation →
      r.position = w.current ∧ r.velocity = some ⟨0, 0, 0⟩ ∧ r.acceleration = some ⟨0, 0, 0⟩) := by
  have he := unbegun_stretch (PS := fun _ => True) h1 (fun _ _ => trivial)
  obtain ⟨hb, hh, hsim⟩ := unbegun_request he hr
  have ht : Threads env s2 := .step (stretch_threads (.init vehicle) h1) hr
  obtain ⟨ss23, h23, m23⟩ := stretch_join h2 (callWhile_stretch h3)
  obtain ⟨ss24, h24, m24⟩ := stretch_join h23 h4
  have ht3 := stretch_threads ht h2
  have ht4 := stretch_threads ht h23
  obtain ⟨href, hsome⟩ := C108_threads_partial env henv t false f ss3 s4 r (callWhile_calling ht3 h3) hs
  -- the plan at the end of the call
  have hn4 : ¬ TakingOver s4.c := by rw [hs]; exact id
  obtain ⟨_, _, _, _, _, _, tr, htr, _⟩ := href 0 r.position rfl
  have hp4 : s4.p.traj ≠ none := by rw [htr]; exact Option.some_ne_none _
  obtain ⟨q4, i1, i2, i3, i4⟩ := late_stretch henv hne hb hm ht hsim hh h23 (fun _ _ => trivial)
  have hin := inPlace_stretch henv hne hb hm ht4 i2 i1 ⟨hn4, hp4⟩ h4 (fun _ _ => trivial) n hn
  -- the plan all along
  obtain ⟨q, j1, j2, j3, j4⟩ := late_stretch henv hne hb hm ht hsim hh h24 (fun _ _ => trivial)
  have in3 : ∀ x ∈ ss3, x ∈ ss24 := fun x hx => (m24 x).mpr (.inl ((m23 x).mpr (.inr (List.mem_cons_of_mem _ hx))))
  have in4 : ∀ x ∈ ss4, x ∈ ss24 := fun x hx => (m24 x).mpr (.inr hx)
  have in2 : ∀ x ∈ ss2, x ∈ ss24 := fun x hx => (m24 x).mpr (.inl ((m23 x).mpr (.inl hx)))
  obtain ⟨a1, a2, a3, a4⟩ := (j3 s4 (in4 _ (stretch_first h4))).1 hn4 hp4
  obtain ⟨b1, b2, b3, b4⟩ := (j3 n (in4 _ hn)).1 hin.1 hin.2
  have hm' : m ∈ ss24 := by
    rcases List.mem_append.mp hmem with h | h
    · exact in2 m h
    · exact in4 m h
  obtain ⟨hq, rfl⟩ := (j3 m hm').2 ws hws
  have hre := hist_reachable hb j1
  obtain ⟨hwait, hget⟩ := hist_waypoints hne hm hb j1 hq
  obtain ⟨ps, hon⟩ := hist_on hne hm j1
  obtain ⟨ps', _, k2, _⟩ := starts_held hne hm trivial j1 hq
  have hmod : ∀ w ∈ q.dyn, w.modifiers = [] := by
    obtain ⟨_, _, _, _, _, _, _, _, hm⟩ := k2
    exact hm
  have hcomp : n.p.getTimeCompensation = q.getTimeCompensation := b4.symm
  obtain ⟨before, after, e1, e2⟩ := j1
  obtain ⟨_, _, c3, c4⟩ := C126_first_route env henv hmeets vehicle before after route hne (fun w hw => ⟨hb w hw, hm w hw⟩)
    (fun e he => ⟨(e1 e he).1, (e1 e he).2.1⟩) q q e2 _ hget
  have htr' : q.traj = some tr := a1.trans htr
  have hmin := getMinTime_eq env q hq
  -- both references agree
  have same : ∀ (r' : References K) (q' : Planner K), q.evaluateTrajectory env t false f = .ok (some (r', q')) → ∀ k ≤ 2, refOrder r k = refOrder r' k := by
    intro r' q' hev k hk
    obtain ⟨d1, d2⟩ := C40_references env henv q hre tr htr' hwait _ hmin t false f r' q' hev
    obtain ⟨v, hv⟩ := Option.isSome_iff_exists.mp ((hsome k hk).mpr (.inr rfl))
    obtain ⟨v', hv'⟩ := Option.isSome_iff_exists.mp ((d2 k hk).mpr (.inr rfl))
    obtain ⟨x, hx, x1, x2, x3, x4, tr', htr'', hx'⟩ := href k v hv
    rw [htr] at htr''
    obtain rfl := Option.some.inj htr''
    have hxd : x.p.dyn = q.dyn := ((j3 x (in3 x hx)).1 x1 (by rw [x2]; exact hp4)).2.1.symm
    rw [hxd] at hx'
    have hl : t - s4.p.params.gtlg + s4.p.params.tOffset = t - q.params.gtlg + q.getTimeCompensation := by rw [← a3, ← a4]; rfl
    rw [hl] at hx'
    rw [hv, hv', reference_unique hmod hmod hx' (d1 k v' hv')]
  have agree : ∀ (r' : References K) (q' : Planner K), q.evaluateTrajectory env t false f = .ok (some (r', q')) → r.position = r'.position ∧
      r.velocity = r'.velocity ∧ r.acceleration = r'.acceleration := fun r' q' h =>
    ⟨Option.some.inj (same r' q' h 0 (by omega)), same r' q' h 1 (by omega), same r' q' h 2 le_rfl⟩
  rw [hcomp]
  refine ⟨?_, ?_⟩
  · intro i w hw hwt
    obtain ⟨r', q', d1, d2, d3⟩ := c3 i w hw f
    have : w.time - q.getTimeCompensation = t := by rw [hwt]; ring
    rw [this] at d1
    refine ⟨(agree r' q' d1).1.trans d2, fun k v hk hlt hcon => ?_⟩
    rw [same r' q' d1 k (by omega)]
    exact d3 k v hk hlt hcon
  · intro w hw hwt
    obtain ⟨r', q', d1, d2, d3, d4⟩ := c4 w t hw hwt f
    obtain ⟨g1, g2, g3⟩ := agree r' q' d1
    exact ⟨g1.trans d2, g2.trans d3, g3.trans d4⟩

end

/-- `C138_waypoints` and `C138_references` with the optimiser. -/
theorem C138_optimiser (b : OptBackend) (lineal : Bool) (vehicle : V3 ℝ) (route : List (Waypoint ℝ)) (hne : route ≠ [])
    (hm : ∀ w ∈ route, w.modifiers = []) (s1 s2 s3 s4 s5 : Whole ℝ) (ss1 ss2 ss3 ss4 : List (Whole ℝ))
    (h1 : Stretch (b.env lineal) (fun _ l _ => ¬ Requesting l) ⟨Planner.init vehicle, .free, .begin⟩ ss1 s1)
    (hr : ThreadStep (b.env lineal) (.user (.setWaypoints route)) s1 s2) (h2 : Stretch (b.env lineal) (fun _ l _ => ¬ Requesting l) s2 ss2 s3)
    (ws : List (Waypoint ℝ)) (hws : s3.c = .copied ws)
    (t : ℝ) (f : Bool) (h3 : CallWhile (b.env lineal) (fun _ l _ => ¬ Requesting l) (.evaluate t false f) s3 ss3 s4) (r : References ℝ) (hs : s4.c = .evaluated r)
    (h4 : Stretch (b.env lineal) (fun _ l _ => ¬ Requesting l) s4 ss4 s5) :
    (∃ start rest, ws = start :: rest ∧ start.name = "" ∧ (∃ m ∈ ss1 ++ ss2, m.p.vehicle = start.current) ∧
      start.vertex.getConstraint 1 = some [0, 0, 0] ∧ start.vertex.getConstraint 2 = some [0, 0, 0] ∧ List.Forall₂ SameWaypoint route rest) ∧
    ws.Pairwise (fun a b => a.time < b.time) ∧
    ∀ n ∈ ss4, (∀ (i : ℕ) (w : Waypoint ℝ), ws[i]? = some w → w.time = t + n.p.getTimeCompensation → r.position = w.current ∧
      ∀ (k : ℕ) (v : V3 ℝ), k = 1 ∨ k = 2 → i + 1 < ws.length → w.vertex.getConstraint k = some [v.x, v.y, v.z] → refOrder r k = some v) ∧
    (∀ w : Waypoint ℝ, ws.getLast? = some w → w.time ≤ t + n.p.getTimeCompensation →
      r.position = w.current ∧ r.velocity = some ⟨0, 0, 0⟩ ∧ r.acceleration = some ⟨0, 0, 0⟩) := by
  obtain ⟨a1, a2⟩ := C138_waypoints _ (C85_segmentwise b lineal) vehicle route hne hm s1 s2 s3 ss1 ss2 h1 hr h2 ws hws
  exact ⟨a1, a2, fun n hn => C138_references _ (C85_segmentwise b lineal) (C85_meets_vertices b lineal) vehicle route hne hm s1 s2 s3 s4 s5 ss1 ss2 ss3 ss4 h1 hr h2
    t f h3 r hs h4 s3 n ws (List.mem_append_left _ (stretch_last h2)) hws hn⟩

/-! ## A concrete case -/

section

/-- Neither a request nor the like. -/
def calm? : Move → Bool
  | .user (.setWaypoints _) => false
  | .user (.appendWaypoint _) => false
  | .user (.modifyWaypoint _ _ _) => false
  | .user (.modifyWaypoints _) => false
  | .request => false
  | _ => true

theorem calm?_not (m : Move) (hn : NotCall m) (h : calm? m = true) : ¬ Requesting m.label := by
  cases m with
  | user e => cases e <;> first | exact id | cases h
  | call k => exact hn.elim
  | request => cases h
  | _ => exact id

/-- Moves none of which requests anything. -/
theorem moveAll_calm (s0 : Whole ℚ) (ms : List Move) (t t' : Trace) (hm : ∀ m ∈ ms, MoveOk m ∧ calm? m = true) (h : moveAll t ms = some t')
    (hs : Stretch hermiteEnv (fun _ l _ => ¬ Requesting l) s0 t.ss t.s) : Stretch hermiteEnv (fun _ l _ => ¬ Requesting l) s0 t'.ss t'.s := by
  induction ms generalizing t with
  | nil => rw [← Option.some.inj h]; exact hs
  | cons m ms ih =>
    simp only [moveAll] at h
    split at h
    · cases h
    · rename_i s' hm'
      refine ih _ (fun b hb => hm b (List.mem_cons_of_mem _ hb)) h ?_
      obtain ⟨m1, m2⟩ := hm m List.mem_cons_self
      by_cases hc : NotCall m
      · exact .step hs (move_step _ _ m hc m1 hm') (calm?_not m hc m2)
      · cases m with
        | call k =>
          simp only [move] at hm'
          split at hm'
          · rename_i hf
            rw [← Option.some.inj hm']
            exact .call k hs hf
          · cases hm'
        | _ => exact absurd trivial hc

theorem moveAll_callCalm (k : Purpose ℚ) (s0 : Whole ℚ) (ms : List Move) (t t' : Trace) (hm : ∀ m ∈ ms, NotCall m ∧ MoveOk m ∧ calm? m = true)
    (h : moveAll t ms = some t') (hs : CallWhile hermiteEnv (fun _ l _ => ¬ Requesting l) k s0 t.ss t.s) :
    CallWhile hermiteEnv (fun _ l _ => ¬ Requesting l) k s0 t'.ss t'.s := by
  induction ms generalizing t with
  | nil => rw [← Option.some.inj h]; exact hs
  | cons m ms ih =>
    simp only [moveAll] at h
    split at h
    · cases h
    · rename_i s' hm'
      obtain ⟨m0, m1, m2⟩ := hm m List.mem_cons_self
      exact ih _ (fun b hb => hm b (List.mem_cons_of_mem _ hb)) h (.step hs (move_step _ _ m m0 m1 hm') (calm?_not m m0 m2))

/-- Begin, request a route, proceed, evaluate, proceed. -/
def scene (before : List Move) (route : List (Waypoint ℚ)) (mid : List Move) (k : Purpose ℚ) (call post : List Move) :
    Option (Trace × Trace × Trace × Trace) :=
  match moveAll ⟨[start.s], start.s, .nothing⟩ before with
  | none => none
  | some t1 => match move t1.s (.user (.setWaypoints route)) with
    | none => none
    | some s2 => match moveAll ⟨[s2], s2, .nothing⟩ mid with
      | none => none
      | some t2 => if t2.s.c.isFree = true then
          match moveAll ⟨[⟨t2.s.p, .start k, t2.s.w⟩], ⟨t2.s.p, .start k, t2.s.w⟩, .nothing⟩ call with
          | none => none
          | some t3 => match moveAll ⟨[t3.s], t3.s, .nothing⟩ post with
            | none => none
            | some t4 => some (t1, t2, t3, t4)
        else none

theorem scene_map {α : Type*} (before : List Move) (route : List (Waypoint ℚ)) (mid : List Move) (k : Purpose ℚ) (call post : List Move)
    (h1 : ∀ m ∈ before, MoveOk m ∧ calm? m = true) (hr : ∀ w ∈ route, Bookkept w) (h2 : ∀ m ∈ mid, MoveOk m ∧ calm? m = true)
    (h3 : ∀ m ∈ call, NotCall m ∧ MoveOk m ∧ calm? m = true) (h4 : ∀ m ∈ post, MoveOk m ∧ calm? m = true)
    (q : Trace × Trace × Trace × Trace → α) (x : α) (h : (scene before route mid k call post).map q = some x) :
    ∃ t1 s2 t2 t3 t4, Stretch hermiteEnv (fun _ l _ => ¬ Requesting l) ⟨Planner.init ⟨0, 0, 0⟩, .free, .begin⟩ t1.ss t1.s ∧
      ThreadStep hermiteEnv (.user (.setWaypoints route)) t1.s s2 ∧ Stretch hermiteEnv (fun _ l _ => ¬ Requesting l) s2 t2.ss t2.s ∧
      CallWhile hermiteEnv (fun _ l _ => ¬ Requesting l) k t2.s t3.ss t3.s ∧ Stretch hermiteEnv (fun _ l _ => ¬ Requesting l) t3.s t4.ss t4.s ∧
      q (t1, t2, t3, t4) = x := by
  obtain ⟨⟨t1, t2, t3, t4⟩, ht, hx⟩ := Option.map_eq_some_iff.mp h
  unfold scene at ht
  split at ht
  · cases ht
  · rename_i g1
    split at ht
    · cases ht
    · rename_i g2
      split at ht
      · cases ht
      · rename_i g3
        split at ht
        · rename_i gf
          split at ht
          · cases ht
          · rename_i g4
            split at ht
            · cases ht
            · rename_i g5
              injection Option.some.inj ht with e1 ht
              injection ht with e2 ht
              injection ht with e3 e4
              subst e1 e2 e3 e4
              exact ⟨_, _, _, _, _, moveAll_calm _ _ _ _ h1 g1 .start, move_step _ _ (.user (.setWaypoints route)) trivial ⟨trivial, hr⟩ g2,
                moveAll_calm _ _ _ _ h2 g3 .start, moveAll_callCalm _ _ _ _ _ h3 g4 (.start gf), moveAll_calm _ _ _ _ h4 g5 .start, hx⟩
        · cases ht

def sceneBefore : List Move := [.user (.setSpeed 2), .work, .user (.updateVehiclePosition ⟨0, 0, 1⟩)]

/-- The vehicle position changes while the worker prepares the planning; the waypoints are asked for while the plan is computed. -/
def sceneMid : List Move :=
  times 4 .work ++ [.user (.updateVehiclePosition ⟨0, 1, 0⟩)] ++ times 15 .work ++ [.task .asyncStart, .call .waypoints, .own, .task (.asyncFinish (1 / 100))] ++
    times 17 .own

/-- The worker goes on while the call is executed. -/
def sceneCall : List Move := times 5 .own ++ times 3 .work ++ times 8 .own

def scenePost : List Move := times 5 .work ++ [.call .waypoints] ++ times 5 .own

def sceneRoute : List (Waypoint ℚ) := [wp "a" 1 0 0, wp "b" 2 1 0]

/-- The call has returned waypoints with these names, times and positions. -/
def isCopied (ws : List (String × ℚ × V3 ℚ)) : Consumer ℚ → Bool
  | .copied vs => vs.map (fun w => (w.name, w.time, w.current)) == ws
  | _ => false

theorem isCopied_eq {ws : List (String × ℚ × V3 ℚ)} {c : Consumer ℚ} (h : isCopied ws c = true) :
    ∃ vs, c = .copied vs ∧ vs.map (fun w => (w.name, w.time, w.current)) = ws := by
  cases c with
  | copied vs => exact ⟨vs, rfl, eq_of_beq h⟩
  | _ => cases h

/-- The call has returned this position. -/
def isAt (v : V3 ℚ) : Consumer ℚ → Bool
  | .evaluated r => decide (r.position = v)
  | _ => false

theorem isAt_eq {v : V3 ℚ} {c : Consumer ℚ} (h : isAt v c = true) : ∃ r, c = .evaluated r ∧ r.position = v := by
  cases c with
  | evaluated r => exact ⟨r, rfl, of_decide_eq_true h⟩
  | _ => cases h

theorem sceneMid_ok : ∀ m ∈ sceneMid, MoveOk m ∧ calm? m = true := by
  intro m hm
  simp only [sceneMid, times, List.mem_append, List.mem_replicate, List.mem_cons, List.not_mem_nil, or_false] at hm
  rcases hm with (((⟨_, rfl⟩ | rfl) | ⟨_, rfl⟩) | rfl | rfl | rfl | rfl) | ⟨_, rfl⟩ <;> simp [MoveOk, calm?, ByTask, ByUsers, ValidEvent]

theorem sceneCall_ok : ∀ m ∈ sceneCall, NotCall m ∧ MoveOk m ∧ calm? m = true := by
  intro m hm
  simp only [sceneCall, times, List.mem_append, List.mem_replicate] at hm
  rcases hm with (⟨_, rfl⟩ | ⟨_, rfl⟩) | ⟨_, rfl⟩ <;> simp [NotCall, MoveOk, calm?]

theorem scenePost_ok : ∀ m ∈ scenePost, MoveOk m ∧ calm? m = true := by
  intro m hm
  simp only [scenePost, times, List.mem_append, List.mem_replicate, List.mem_cons, List.not_mem_nil, or_false] at hm
  rcases hm with (⟨_, rfl⟩ | rfl) | ⟨_, rfl⟩ <;> simp [MoveOk, calm?]

/-- The hypotheses of `C138_waypoints`, `C138_stays` and `C138_references` are met: the waypoints are asked for before and after a call for the time of the first
waypoint of the route, which is answered with its position. -/
example : ∃ (s1 s2 s3 s4 s5 : Whole ℚ) (ss1 ss2 ss3 ss4 : List (Whole ℚ)) (r : References ℚ) (ws : List (Waypoint ℚ)),
    Stretch hermiteEnv (fun _ l _ => ¬ Requesting l) ⟨Planner.init ⟨0, 0, 0⟩, .free, .begin⟩ ss1 s1 ∧
    ThreadStep hermiteEnv (.user (.setWaypoints sceneRoute)) s1 s2 ∧ Stretch hermiteEnv (fun _ l _ => ¬ Requesting l) s2 ss2 s3 ∧ s3.c = .copied ws ∧
    CallWhile hermiteEnv (fun _ l _ => ¬ Requesting l) (.evaluate (9 / 10) false false) s3 ss3 s4 ∧ s4.c = .evaluated r ∧
    Stretch hermiteEnv (fun _ l _ => ¬ Requesting l) s4 ss4 s5 ∧ s5.c = .copied ws ∧ s5.p.getTimeCompensation = 1 / 10 ∧
    ws.map (fun w => (w.name, w.time, w.current)) = [("", 0, ⟨0, 1, 0⟩), ("a", 1, ⟨1, 0, 0⟩), ("b", 2, ⟨2, 1, 0⟩)] ∧ r.position = ⟨1, 0, 0⟩ := by
  have h : (scene sceneBefore sceneRoute sceneMid (.evaluate (9 / 10) false false) sceneCall scenePost).map (fun x =>
      (isCopied [("", 0, ⟨0, 1, 0⟩), ("a", 1, ⟨1, 0, 0⟩), ("b", 2, ⟨2, 1, 0⟩)] x.2.1.s.c,
        isCopied [("", 0, ⟨0, 1, 0⟩), ("a", 1, ⟨1, 0, 0⟩), ("b", 2, ⟨2, 1, 0⟩)] x.2.2.2.s.c, isAt ⟨1, 0, 0⟩ x.2.2.1.s.c, x.2.2.2.s.p.getTimeCompensation)) =
      some (true, true, true, 1 / 10) := by decide +kernel
  have hroute : ∀ w ∈ sceneRoute, Bookkept w ∧ w.modifiers = [] := by
    simp only [sceneRoute, List.mem_cons, List.not_mem_nil, or_false]
    rintro w (rfl | rfl) <;> exact wp_bookkept _ _ _ _
  obtain ⟨t1, s2, t2, t3, t4, g1, g2, g3, g4, g5, g6⟩ := scene_map _ _ _ _ _ _ (by simp [sceneBefore, MoveOk, calm?, ByUsers, ValidEvent])
    (fun w hw => (hroute w hw).1) sceneMid_ok sceneCall_ok scenePost_ok _ _ h
  obtain ⟨a, g6⟩ := Prod.mk.inj g6
  obtain ⟨b, g6⟩ := Prod.mk.inj g6
  obtain ⟨c, d⟩ := Prod.mk.inj g6
  obtain ⟨ws, hws, hw⟩ := isCopied_eq a
  obtain ⟨ws', hws', hw'⟩ := isCopied_eq b
  obtain ⟨r, hr, hp⟩ := isAt_eq c
  refine ⟨t1.s, s2, t2.s, t3.s, t4.s, t1.ss, t2.ss, t3.ss, t4.ss, r, ws, g1, g2, g3, hws, g4, hr, g5, ?_, d, hw, hp⟩
  obtain ⟨ss, j1, j2⟩ := stretch_join g3 (callWhile_stretch g4)
  obtain ⟨ss', k1, k2⟩ := stretch_join j1 g5
  have := (C138_stays hermiteEnv hermite_segmentwise _ _ (by simp [sceneRoute]) (fun w hw => (hroute w hw).2) _ _ _ _ _ g1 g2 k1).1 t4.s (stretch_last k1) t2.s
    ((k2 _).mpr (.inl ((j2 _).mpr (.inl (stretch_last g3))))) _ _ hws' hws
  rw [hws', this]

end

end Verif.Properties
