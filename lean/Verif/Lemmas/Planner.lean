import Verif.Spec.Planner
import Verif.Lemmas.Waypoint

/-!
# Elementary effects of planner events

`Micro env e s s'` lists, with explicit post-states, the elementary state changes event `e` can consist of; `step_micro` shows that every
successful event consists of at most two of them. Invariants are proved on `Micro`.
-/

set_option linter.unusedSectionVars false
set_option linter.unusedSimpArgs false

namespace Verif.Lemmas
open Verif Verif.Spec

variable {K : Type*} [Field K] [LinearOrder K] [IsStrictOrderedRing K] [FloorSemiring K]

inductive Micro (env : Env K) : Event K → Planner K → Planner K → Prop
  | setWaypoints (s : Planner K) (ws : List (Waypoint K)) : Micro env (.setWaypoints ws) s (s.setWaypoints ws)
  | append (s : Planner K) (w : Waypoint K) : Micro env (.appendWaypoint w) s (s.appendWaypoint w)
  | modify (s : Planner K) (n : String) (p : V3 K) (g : Bool) : Micro env (.modifyWaypoint n p g) s (s.modifyWaypoint n p g)
  | modifyMany (s : Planner K) (ms : List (String × V3 K)) : Micro env (.modifyWaypoints ms) s
      { s with toModify := ms.foldl (fun l m => Planner.putModification m.1 m.2 l) s.toModify, generateNew := true }
  | takeOver (e : Event K) (s : Planner K) (new : Trajectory K) (off : K) (hc : s.computing = true) (hr : s.future = .ready new)
      (he : (∃ t o f, e = .evaluate t o f) ∨ e = .getMaxTime ∨ e = .getMinTime ∨ e = .getDynamicWaypoints)
      (hfit : ∃ target s', Planner.timeFitting env { s with future := .invalid } new target = .ok s' ∧ s'.newParams.tOffset = off ∧
        ((s.fromScratch = true ∧ target = s.vehicle) ∨ ∃ old, s.fromScratch = false ∧ s.traj = some old ∧
          Planner.evaluateModified env s old (s.params.lastGlobal + s.params.tOffset) (s.params.lastLocal + s.params.tOffset) 0
            = .ok target)) :
      Micro env e s { s with
        future := .invalid, fromScratch := false, newParams := { s.newParams with tOffset := off },
        params := { s.newParams with tOffset := off }, traj := some new, regenerated := true, dyn := s.next.map (·.copy),
        computing := false, generateNew := false }
  | evalTime (s : Planner K) (t : K) (o : Bool) (ht : s.traj ≠ none) :
      Micro env (.evaluate t o false) s { s with params := { s.params with lastGlobal := t, lastLocal := t - s.params.gtlg } }
  | setSpeed (s : Planner K) (v : K) : Micro env (.setSpeed v) s (s.setSpeed v)
  | clearRegenerated (s : Planner K) : Micro env .getWasTrajectoryRegenerated s { s with regenerated := false }
  | vehicle (s : Planner K) (p : V3 K) : Micro env (.updateVehiclePosition p) s (s.updateVehiclePosition p)
  | goCollect (s : Planner K) (hp : s.pc = .top) (hg : s.generateNew = true) (hz : s.checkInSecurityZone = false)
      (hc : s.computing = false) : Micro env .worker s { s with pc := .collect }
  | goApply (s : Planner K) (hp : s.pc = .top) (hm : s.toModify ≠ []) (hc : s.computing = false)
      (hno : ¬ (s.generateNew = true ∧ s.checkInSecurityZone = false)) : Micro env .worker s { s with pc := .apply }
  | collect (s : Planner K) (ws : List (Waypoint K)) (hp : s.pc = .collect)
      (hw : s.generateWaypoints = .ok (ws, { s with toSet := [], toAdd := [], toModify := [] })) :
      Micro env .worker s { s with toSet := [], toAdd := [], toModify := [], next := ws, pc := .collected }
  | nothingToPlan (s : Planner K) (hp : s.pc = .collected) (hn : s.next = []) :
      Micro env .worker s { s with generateNew := false, pc := .top }
  | snapshot (s : Planner K) (hp : s.pc = .collected) (hn : s.next ≠ []) :
      Micro env .worker s { s with newParams := { s.params with gtlg := s.params.lastGlobal }, pc := .snapshotted }
  | stitch (s : Planner K) (ws : List (Waypoint K)) (hp : s.pc = .snapshotted) (hs : s.checkStitchTrajectory = true)
      (hw : s.stitch env s.next = .ok ws) : Micro env .worker s { s with fromScratch := false, next := ws, pc := .planned }
  | scratch (s : Planner K) (ws : List (Waypoint K)) (hp : s.pc = .snapshotted) (hs : s.checkStitchTrajectory = false)
      (hw : s.appendDronePosition s.next = .ok ws) : Micro env .worker s { s with fromScratch := true, next := ws, pc := .planned }
  | planned (s : Planner K) (hp : s.pc = .planned) : Micro env .worker s { s with computing := true, pc := .launching }
  | launch (s : Planner K) (hp : s.pc = .launching) : Micro env .worker s { s with future := .launched, pc := .launched }
  | launched (s : Planner K) (hp : s.pc = .launched) : Micro env .worker s { s with generateNew := false, pc := .top }
  | apply (s s' : Planner K) (hp : s.pc = .apply) (ha : Planner.applyAll s.toModify s = .ok s') :
      Micro env .worker s { s' with toModify := [], pc := .top }
  | asyncStart (s : Planner K) (hf : s.future = .launched) : Micro env .asyncStart s { s with future := .running s.params.speed }
  | asyncFinish (s : Planner K) (dt speed : K) (traj : Trajectory K) (ws : List (Waypoint K)) (hf : s.future = .running speed)
      (hc : s.computeTrajectory env speed = .ok (traj, ws)) :
      Micro env (.asyncFinish dt) s { s with next := ws, timeConstant := dt, future := .ready traj }
  | asyncFail (s : Planner K) (dt speed : K) (hf : s.future = .running speed) (hc : s.computeTrajectory env speed = .error .exc) :
      Micro env (.asyncFinish dt) s { s with future := .failed }

theorem modifyWaypoints_eq (s : Planner K) (ms : List (String × V3 K)) : s.modifyWaypoints ms =
    { s with toModify := ms.foldl (fun l m => Planner.putModification m.1 m.2 l) s.toModify, generateNew := true } := by
  unfold Planner.modifyWaypoints
  have : ∀ (ms : List (String × V3 K)) (s : Planner K), ∃ g, ms.foldl (fun s m => s.modifyWaypoint m.1 m.2 false) s =
      { s with toModify := ms.foldl (fun l m => Planner.putModification m.1 m.2 l) s.toModify, generateNew := g } := by
    intro ms
    induction ms with
    | nil => intro s; exact ⟨s.generateNew, rfl⟩
    | cons m ms ih =>
      intro s
      obtain ⟨g, hg⟩ := ih (s.modifyWaypoint m.1 m.2 false)
      exact ⟨g, by rw [List.foldl_cons, hg]; rfl⟩
  obtain ⟨g, hg⟩ := this ms s
  rw [hg]

theorem timeFitting_frame (env : Env K) (s s' : Planner K) (new : Trajectory K) (target : V3 K)
    (h : s.timeFitting env new target = .ok s') : ∃ off, s' = { s with newParams := { s.newParams with tOffset := off } } := by
  unfold Planner.timeFitting at h
  simp only [bind, Except.bind] at h
  cases h1 : s.evaluateModified env new (0 + s.newParams.gtlg) 0 0 with
  | error e => rw [h1] at h; cases h
  | ok p =>
    rw [h1] at h
    simp only at h
    split at h
    · cases h
    · exact ⟨_, (Except.ok.inj h).symm⟩

theorem swapTrajectory_micro (env : Env K) (s s' : Planner K) (h : s.swapTrajectory env = .ok s') :
    ∃ new off, s.future = .ready new ∧
      (∃ target s1, Planner.timeFitting env { s with future := .invalid } new target = .ok s1 ∧ s1.newParams.tOffset = off ∧
        ((s.fromScratch = true ∧ target = s.vehicle) ∨ ∃ old, s.fromScratch = false ∧ s.traj = some old ∧
          Planner.evaluateModified env s old (s.params.lastGlobal + s.params.tOffset) (s.params.lastLocal + s.params.tOffset) 0
            = .ok target)) ∧
      s' = { s with future := .invalid, fromScratch := false, newParams := { s.newParams with tOffset := off },
                    params := { s.newParams with tOffset := off }, traj := some new, regenerated := true } := by
  unfold Planner.swapTrajectory at h
  cases hf : s.future with
  | ready new =>
    rw [hf] at h
    simp only [bind, Except.bind] at h
    by_cases hs : s.fromScratch = true
    · rw [if_pos hs] at h
      cases ht : Planner.timeFitting env { s with future := .invalid } new s.vehicle with
      | error e => rw [ht] at h; cases h
      | ok s1 =>
        rw [ht] at h
        obtain ⟨off, hoff⟩ := timeFitting_frame env _ _ _ _ ht
        refine ⟨new, off, rfl, ⟨_, s1, ht, by rw [hoff], Or.inl ⟨hs, rfl⟩⟩, ?_⟩
        simp only [pure, Except.pure] at h
        rw [← Except.ok.inj h, hoff]
    · have hs' : s.fromScratch = false := by simpa using hs
      rw [if_neg hs] at h
      split at h
      · cases h
      · rename_i old htr
        cases he : Planner.evaluateModified env { s with future := .invalid } old (s.params.lastGlobal + s.params.tOffset)
            (s.params.lastLocal + s.params.tOffset) 0 with
        | error e => rw [he] at h; cases h
        | ok target =>
          rw [he] at h
          simp only at h
          cases ht : Planner.timeFitting env { s with future := .invalid } new target with
          | error e => rw [ht] at h; cases h
          | ok s1 =>
            rw [ht] at h
            obtain ⟨off, hoff⟩ := timeFitting_frame env _ _ _ _ ht
            refine ⟨new, off, rfl, ⟨target, s1, ht, by rw [hoff], Or.inr ⟨old, hs', htr, he⟩⟩, ?_⟩
            rw [← Except.ok.inj h, hoff, hs']
  | invalid => rw [hf] at h; cases h
  | launched => rw [hf] at h; cases h
  | running sp => rw [hf] at h; cases h
  | failed => rw [hf] at h; cases h

theorem check_micro (env : Env K) (e : Event K) (s s' : Planner K)
    (he : (∃ t o f, e = .evaluate t o f) ∨ e = .getMaxTime ∨ e = .getMinTime ∨ e = .getDynamicWaypoints)
    (h : s.checkTrajectoryGenerated env = .ok (some s')) : s' = s ∨ Micro env e s s' := by
  unfold Planner.checkTrajectoryGenerated at h
  split at h
  · cases h
  · split at h
    · rename_i hcond
      simp only [bind, Except.bind] at h
      cases hs : s.swapTrajectory env with
      | error e => rw [hs] at h; cases h
      | ok s1 =>
        rw [hs] at h
        obtain ⟨new, off, hr, hfit, rfl⟩ := swapTrajectory_micro env s s1 hs
        right
        have := Micro.takeOver (env := env) e s new off (by simp at hcond; exact hcond.1.1) hr he hfit
        rw [← Option.some.inj (Except.ok.inj h)]
        exact this
    · left; exact (Option.some.inj (Except.ok.inj h)).symm

theorem evaluateNow_inv (env : Env K) (s s' : Planner K) (t : K) (o f : Bool) (r : References K)
    (h : s.evaluateNow env t o f = .ok (r, s')) : s.traj ≠ none ∧ s' = if f then s else
      { s with params := { s.params with lastGlobal := t, lastLocal := t - s.params.gtlg } } := by
  unfold Planner.evaluateNow at h
  cases ht : s.traj with
  | none => rw [ht] at h; cases h
  | some traj =>
    rw [ht] at h
    simp only [bind, Except.bind] at h
    refine ⟨by simp, ?_⟩
    split at h
    · cases h
    · have h := Except.ok.inj h
      exact (congrArg Prod.snd h).symm

theorem generateWaypoints_frame (s s' : Planner K) (ws : List (Waypoint K)) (h : s.generateWaypoints = .ok (ws, s')) :
    s' = { s with toSet := [], toAdd := [], toModify := [] } := by
  unfold Planner.generateWaypoints at h
  simp only [bind, Except.bind, pure, Except.pure] at h
  split at h
  · split at h
    · cases h
    · split at h
      · cases h
      · exact (congrArg Prod.snd (Except.ok.inj h)).symm
  · split at h
    · cases h
    · exact (congrArg Prod.snd (Except.ok.inj h)).symm

/-- A successful event changes nothing (the worker: only when idle), or is one elementary change, or (evaluation only) two. -/
theorem step_micro' (env : Env K) (e : Event K) (s s' : Planner K) (h : s.step env e = .ok (some s')) :
    (s' = s ∧ (e = .worker → s.pc = .top ∧ (s.generateNew && s.checkIfTrajectoryCanBeGenerated) = false ∧
      (s.toModify = [] ∨ s.computing = true))) ∨ Micro env e s s' ∨
    ∃ m, (∃ t o, e = .evaluate t o false) ∧ Micro env e s m ∧ Micro env e m s' := by
  cases e with
  | setWaypoints ws => right; left; rw [← Option.some.inj (Except.ok.inj h)]; exact .setWaypoints s ws
  | appendWaypoint w => right; left; rw [← Option.some.inj (Except.ok.inj h)]; exact .append s w
  | modifyWaypoint n p g => right; left; rw [← Option.some.inj (Except.ok.inj h)]; exact .modify s n p g
  | modifyWaypoints ms =>
    right; left
    rw [← Option.some.inj (Except.ok.inj h), modifyWaypoints_eq]
    exact .modifyMany s ms
  | evaluate t o f =>
    simp only [Planner.step, Planner.evaluateTrajectory, bind, Except.bind] at h
    cases hc : s.checkTrajectoryGenerated env with
    | error e => rw [hc] at h; cases h
    | ok r =>
      rw [hc] at h
      cases r with
      | none => simp [pure, Except.pure] at h
      | some s1 =>
        simp only at h
        cases hev : s1.evaluateNow env t o f with
        | error e => rw [hev] at h; cases h
        | ok r =>
          rw [hev] at h
          obtain ⟨r1, s2⟩ := r
          simp only [pure, Except.pure, Option.map_some] at h
          rw [← Option.some.inj (Except.ok.inj h)]
          obtain ⟨htr, hs2⟩ := evaluateNow_inv env s1 s2 t o f r1 hev
          have h1 := check_micro env (.evaluate t o f) s s1 (Or.inl ⟨t, o, f, rfl⟩) hc
          cases f with
          | true =>
            simp only [if_true] at hs2
            rw [hs2]
            rcases h1 with h1 | h1
            · exact Or.inl ⟨h1, fun he => by cases he⟩
            · exact Or.inr (Or.inl h1)
          | false =>
            simp only [Bool.false_eq_true, if_false] at hs2
            rw [hs2]
            have h2 := Micro.evalTime (env := env) s1 t o htr
            rcases h1 with h1 | h1
            · rw [h1] at h2 ⊢; exact Or.inr (Or.inl h2)
            · exact Or.inr (Or.inr ⟨s1, ⟨t, o, rfl⟩, h1, h2⟩)
  | getMaxTime =>
    simp only [Planner.step, Planner.getMaxTime, bind, Except.bind, Planner.ensureTrajectory] at h
    split at h
    · cases h
    · rename_i r hr
      split at hr
      · cases hr
      · rename_i r2 hr2
        cases r2 with
        | none => simp only [pure, Except.pure] at hr; rw [← Except.ok.inj hr] at h; simp [pure, Except.pure] at h
        | some s1 =>
          simp only at hr
          cases ht : s1.traj with
          | none => rw [ht] at hr; cases hr
          | some tr =>
            rw [ht] at hr
            rw [← Except.ok.inj hr] at h
            simp only [pure, Except.pure, Option.map_some] at h
            rw [← Option.some.inj (Except.ok.inj h)]
            split at hr2
            · left; exact ⟨(Option.some.inj (Except.ok.inj hr2)).symm, fun he => by cases he⟩
            · rcases check_micro env .getMaxTime s s1 (Or.inr (Or.inl rfl)) hr2 with h1 | h1
              · exact Or.inl ⟨h1, fun he => by cases he⟩
              · exact Or.inr (Or.inl h1)
  | getMinTime =>
    simp only [Planner.step, Planner.getMinTime, bind, Except.bind, Planner.ensureTrajectory] at h
    split at h
    · cases h
    · rename_i r hr
      split at hr
      · cases hr
      · rename_i r2 hr2
        cases r2 with
        | none => simp only [pure, Except.pure] at hr; rw [← Except.ok.inj hr] at h; simp [pure, Except.pure] at h
        | some s1 =>
          simp only at hr
          cases ht : s1.traj with
          | none => rw [ht] at hr; cases hr
          | some tr =>
            rw [ht] at hr
            rw [← Except.ok.inj hr] at h
            simp only [pure, Except.pure, Option.map_some] at h
            rw [← Option.some.inj (Except.ok.inj h)]
            split at hr2
            · left; exact ⟨(Option.some.inj (Except.ok.inj hr2)).symm, fun he => by cases he⟩
            · rcases check_micro env .getMinTime s s1 (Or.inr (Or.inr (Or.inl rfl))) hr2 with h1 | h1
              · exact Or.inl ⟨h1, fun he => by cases he⟩
              · exact Or.inr (Or.inl h1)
  | getDynamicWaypoints =>
    simp only [Planner.step, Planner.getDynamicWaypoints, bind, Except.bind] at h
    cases hc : s.checkTrajectoryGenerated env with
    | error e => rw [hc] at h; cases h
    | ok r =>
      rw [hc] at h
      cases r with
      | none => simp [pure, Except.pure] at h
      | some s1 =>
        simp only [pure, Except.pure, Option.map_some] at h
        rw [← Option.some.inj (Except.ok.inj h)]
        rcases check_micro env .getDynamicWaypoints s s1 (Or.inr (Or.inr (Or.inr rfl))) hc with h1 | h1
        · exact Or.inl ⟨h1, fun he => by cases he⟩
        · exact Or.inr (Or.inl h1)
  | setSpeed v => right; left; rw [← Option.some.inj (Except.ok.inj h)]; exact .setSpeed s v
  | getWasTrajectoryRegenerated => right; left; rw [← Option.some.inj (Except.ok.inj h)]; exact .clearRegenerated s
  | updateVehiclePosition p => right; left; rw [← Option.some.inj (Except.ok.inj h)]; exact .vehicle s p
  | worker =>
    simp only [Planner.step, bind, Except.bind] at h
    cases hw : s.workerStep env with
    | error e => rw [hw] at h; cases h
    | ok s1 =>
      rw [hw] at h
      simp only [pure, Except.pure] at h
      rw [← Option.some.inj (Except.ok.inj h)]
      unfold Planner.workerStep at hw
      cases hp : s.pc with
      | top =>
        rw [hp] at hw
        simp only at hw
        split at hw
        · rename_i hcond
          rw [← Except.ok.inj hw]
          simp [Planner.checkIfTrajectoryCanBeGenerated] at hcond
          right; left
          exact .goCollect s hp hcond.1 hcond.2.1 hcond.2.2
        · rename_i hcond
          split at hw
          · rename_i hcond2
            rw [← Except.ok.inj hw]
            simp at hcond2
            right; left
            refine .goApply s hp (by simpa using hcond2.1) hcond2.2 ?_
            rintro ⟨h1, h2⟩
            apply hcond
            simp [Planner.checkIfTrajectoryCanBeGenerated, h1, h2, hcond2.2]
          · rename_i hcond2
            left
            refine ⟨(Except.ok.inj hw).symm, fun _ => ⟨rfl, by simpa using hcond, ?_⟩⟩
            simp only [Bool.and_eq_true, Bool.not_eq_true', not_and] at hcond2
            by_cases hm : s.toModify = []
            · exact Or.inl hm
            · right
              have := hcond2 (by simpa using hm)
              simpa using this
      | collect =>
        rw [hp] at hw
        simp only [bind, Except.bind] at hw
        cases hg : s.generateWaypoints with
        | error e => rw [hg] at hw; cases hw
        | ok r =>
          obtain ⟨ws, s2⟩ := r
          rw [hg] at hw
          have hfr := generateWaypoints_frame s s2 ws hg
          rw [← Except.ok.inj hw, hfr]
          right; left
          exact .collect s ws hp (by rw [hg, hfr])
      | collected =>
        rw [hp] at hw
        simp only at hw
        split at hw
        · rename_i hn
          rw [← Except.ok.inj hw]
          right; left
          exact .nothingToPlan s hp (List.length_eq_zero_iff.mp hn)
        · rename_i hn
          rw [← Except.ok.inj hw]
          right; left
          exact .snapshot s hp (fun h => hn (by rw [h]; rfl))
      | snapshotted =>
        rw [hp] at hw
        simp only [bind, Except.bind] at hw
        split at hw
        · rename_i hs
          cases hst : s.stitch env s.next with
          | error e => rw [hst] at hw; cases hw
          | ok ws =>
            rw [hst] at hw
            rw [← Except.ok.inj hw]
            right; left
            exact .stitch s ws hp hs hst
        · rename_i hs
          cases hst : s.appendDronePosition s.next with
          | error e => rw [hst] at hw; cases hw
          | ok ws =>
            rw [hst] at hw
            rw [← Except.ok.inj hw]
            right; left
            exact .scratch s ws hp (by simpa using hs) hst
      | planned => rw [hp] at hw; rw [← Except.ok.inj hw]; right; left; exact .planned s hp
      | launching => rw [hp] at hw; rw [← Except.ok.inj hw]; right; left; exact .launch s hp
      | launched => rw [hp] at hw; rw [← Except.ok.inj hw]; right; left; exact .launched s hp
      | apply =>
        rw [hp] at hw
        simp only [bind, Except.bind] at hw
        cases ha : Planner.applyAll s.toModify s with
        | error e => rw [ha] at hw; cases hw
        | ok s2 =>
          rw [ha] at hw
          rw [← Except.ok.inj hw]
          right; left
          exact .apply s s2 hp ha
  | asyncStart =>
    simp only [Planner.step, Planner.asyncStart] at h
    split at h
    · rename_i hf
      rw [← Option.some.inj (Except.ok.inj h)]
      right; left
      exact .asyncStart s hf
    · cases h
  | asyncFinish dt =>
    simp only [Planner.step, Planner.asyncFinish] at h
    split at h
    · rename_i speed hf
      split at h
      · rename_i traj ws hc
        rw [← Option.some.inj (Except.ok.inj h)]
        right; left
        exact .asyncFinish s dt speed traj ws hf hc
      · rename_i hc
        rw [← Option.some.inj (Except.ok.inj h)]
        right; left
        exact .asyncFail s dt speed hf hc
      · cases h
    · cases h

theorem step_micro (env : Env K) (e : Event K) (s s' : Planner K) (h : s.step env e = .ok (some s')) :
    s' = s ∨ Micro env e s s' ∨ ∃ m, Micro env e s m ∧ Micro env e m s' := by
  rcases step_micro' env e s s' h with ⟨h, _⟩ | h | ⟨m, _, h⟩
  · exact Or.inl h
  · exact Or.inr (Or.inl h)
  · exact Or.inr (Or.inr ⟨m, h⟩)

/-- Induction principle for reachable states. -/
theorem reachableBy_induction (V : Event K → Prop) (env : Env K) (P : Planner K → Prop) (hinit : ∀ v, P (Planner.init v))
    (hstep : ∀ e s s', V e → P s → Micro env e s s' → P s') (s : Planner K) (h : ReachableBy V env s) : P s := by
  obtain ⟨v, es, hv, hrun⟩ := h
  induction hrun with
  | nil => exact hinit v
  | snoc e _ hs ih =>
    have ih := ih (fun e' he' => hv e' (by simp [he']))
    have hve := hv e (by simp)
    rcases step_micro env e _ _ hs with h | h | ⟨m, h1, h2⟩
    · rw [h]; exact ih
    · exact hstep e _ _ hve ih h
    · exact hstep e _ _ hve (hstep e _ _ hve ih h1) h2

theorem reachable_induction (env : Env K) (P : Planner K → Prop) (hinit : ∀ v, P (Planner.init v))
    (hstep : ∀ e s s', ValidEvent e → P s → Micro env e s s' → P s') (s : Planner K) (h : Reachable env s) : P s :=
  reachableBy_induction ValidEvent env P hinit hstep s h

theorem reachableBy_mono {V W : Event K → Prop} (hVW : ∀ e, V e → W e) {env : Env K} {s : Planner K} (h : ReachableBy V env s) :
    ReachableBy W env s := by
  obtain ⟨v, es, hv, hr⟩ := h
  exact ⟨v, es, fun e he => hVW e (hv e he), hr⟩

theorem fresh_valid {e : Event K} (h : FreshEvent e) : ValidEvent e := by
  cases e <;> first | trivial | exact h | exact h.1 | exact fun w hw => (h w hw).1

theorem reachable_of_fresh {env : Env K} {s : Planner K} (h : ReachableBy FreshEvent env s) : Reachable env s :=
  reachableBy_mono (fun _ => fresh_valid) h

/-- The same for runs, with the history visible. -/
theorem run_induction (env : Env K) (s0 : Planner K) (P : List (Event K) → Planner K → Prop) (h0 : P [] s0)
    (hstep : ∀ es e s s', P es s → s.step env e = .ok (some s') → P (es ++ [e]) s') (es : List (Event K)) (s : Planner K)
    (h : Run env s0 es s) : P es s := by
  induction h with
  | nil => exact h0
  | snoc e _ hs ih => exact hstep _ _ _ _ ih hs

end Verif.Lemmas
