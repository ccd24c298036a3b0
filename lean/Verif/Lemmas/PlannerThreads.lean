import Verif.Spec.PlannerThreads
import Verif.Lemmas.PlannerFineLater

/-!
# Every interleaving of all threads is one of the evaluating thread with belated steps of the worker

`Local` says what the worker's local variables have to do with the shared state; it holds because nobody else touches the plan while the
worker prepares a new one or applies updates. With it every step of the worker is an event or a `Belated` step.
-/

set_option linter.unusedSectionVars false
set_option linter.unusedSimpArgs false

namespace Verif.Lemmas
open Verif Verif.Spec

variable {K : Type*} [Field K] [LinearOrder K] [IsStrictOrderedRing K] [FloorSemiring K]

/-- What other threads leave alone while no computation is in progress; `hold`: the worker holds `todo_mutex`. -/
structure Beside (hold : Bool) (p p' : Planner K) : Prop where
  pc : p'.pc = p.pc
  traj : p'.traj = p.traj
  dyn : p'.dyn = p.dyn
  next : p'.next = p.next
  newLocal : p'.newParams.lastLocal = p.newParams.lastLocal
  timeConstant : p'.timeConstant = p.timeConstant
  computing : p'.computing = p.computing
  future : p'.future = p.future
  fromScratch : p'.fromScratch = p.fromScratch
  gtlg : p'.params.gtlg = p.params.gtlg
  tOffset : p'.params.tOffset = p.params.tOffset
  toSet : hold = true → p'.toSet = p.toSet
  toAdd : hold = true → p'.toAdd = p.toAdd
  toModify : hold = true → p'.toModify = p.toModify

theorem Beside.refl (b : Bool) (p : Planner K) : Beside b p p :=
  ⟨rfl, rfl, rfl, rfl, rfl, rfl, rfl, rfl, rfl, rfl, rfl, fun _ => rfl, fun _ => rfl, fun _ => rfl⟩

/-- The steps of the evaluating thread, while no computation is in progress. -/
theorem own_beside {env : Env K} {p p' : Planner K} {c c' : Consumer K} (h : Fine.consume env ⟨p, c⟩ = .ok (some ⟨p', c'⟩))
    (hp : PhaseInv env ⟨p, c⟩) (hc : p.computing = false) (b : Bool) : Beside b p p' := by
  have nh : ¬ Held p := fun hh => by rw [hh.2.1] at hc; cases hc
  have simple : ∀ {q : Planner K} {d : Consumer K}, (Except.ok (some (⟨q, d⟩ : Fine K)) : Res (Option (Fine K))) = .ok (some ⟨p', c'⟩) → p' = q :=
    fun h => by
      have := Option.some.inj (Except.ok.inj h)
      injection this with h1 h2
      exact h1.symm
  cases c with
  | free => cases h
  | evaluated r => cases h
  | copied ws => cases h
  | time x => cases h
  | start k => cases k <;> (rw [simple h]; exact .refl b p)
  | wait k =>
    simp only [Fine.consume] at h
    split at h
    · rw [simple h]; exact .refl b p
    · cases h
  | valid k => rw [simple h]; exact .refl b p
  | busy k v => rw [simple h]; exact .refl b p
  | ready k => have := hp.2.1; simp only at this; rw [hc] at this; cases this
  | get k => have := hp.1; simp only at this; rw [hc] at this; cases this
  | target k new => exact absurd hp nh
  | old k new g l => exact absurd hp.1 nh
  | fit0 k new s x => exact absurd hp.1 nh
  | fit k new s x n i d m => exact absurd hp.1 nh
  | offset k new s x m => exact absurd hp.1 nh
  | fitted k new s => exact absurd hp.1 nh
  | params k new => exact absurd hp.1 nh
  | traj k new => exact absurd hp.1 nh
  | mark k => exact absurd hp.1 nh
  | swap k => exact absurd hp.1 nh
  | clearComputing k => exact absurd hp.1 nh
  | clearRequest k =>
    rw [simple h]
    exact ⟨rfl, rfl, rfl, rfl, rfl, rfl, rfl, rfl, rfl, rfl, rfl, fun _ => rfl, fun _ => rfl, fun _ => rfl⟩
  | localTime t o f => rw [simple h]; exact .refl b p
  | note t o f l =>
    rw [simple h]
    split
    · exact .refl b p
    · exact ⟨rfl, rfl, rfl, rfl, rfl, rfl, rfl, rfl, rfl, rfl, rfl, fun _ => rfl, fun _ => rfl, fun _ => rfl⟩
  | shift t o l => rw [simple h]; exact .refl b p
  | plain o g l done =>
    simp only [Fine.consume] at h
    split at h
    · cases h
    · simp only [bind, Except.bind] at h
      split at h
      · cases h
      · split at h
        · cases h
        · rw [simple h]; exact .refl b p
  | compensate o g l done base =>
    obtain ⟨v, _, hv⟩ := compensate_step h
    injection hv with h1 h2
    rw [h1]; exact .refl b p
  | copy => rw [simple h]; exact .refl b p
  | length m =>
    simp only [Fine.consume] at h
    split at h
    · cases h
    · rw [simple h]; exact .refl b p
  | globalTime x => rw [simple h]; exact .refl b p

/-- The steps of the evaluating thread never move the worker. -/
theorem own_pc {env : Env K} {p p' : Planner K} {c c' : Consumer K} (h : Fine.consume env ⟨p, c⟩ = .ok (some ⟨p', c'⟩)) : p'.pc = p.pc := by
  have simple : ∀ {q : Planner K} {d : Consumer K}, (Except.ok (some (⟨q, d⟩ : Fine K)) : Res (Option (Fine K))) = .ok (some ⟨p', c'⟩) → p' = q :=
    fun h => by
      have := Option.some.inj (Except.ok.inj h)
      injection this with h1 h2
      exact h1.symm
  cases c with
  | free => cases h
  | evaluated r => cases h
  | copied ws => cases h
  | time x => cases h
  | start k => cases k <;> (rw [simple h])
  | wait k =>
    simp only [Fine.consume] at h
    split at h
    · rw [simple h]
    · cases h
  | ready k =>
    simp only [Fine.consume] at h
    split at h
    · rw [simple h]
    · cases h
  | get k =>
    simp only [Fine.consume] at h
    split at h
    · rw [simple h]
    · cases h
    · cases h
    · cases h
  | target k new =>
    simp only [Fine.consume] at h
    split at h <;> rw [simple h]
  | old k new g l =>
    simp only [Fine.consume] at h
    split at h
    · cases h
    · simp only [bind, Except.bind] at h
      split at h
      · cases h
      · rw [simple h]
  | fit0 k new s x =>
    simp only [Fine.consume, bind, Except.bind] at h
    split at h
    · cases h
    · rw [simple h]
  | fit k new s x n i d m =>
    cases n with
    | zero => rw [simple h]
    | succ n =>
      simp only [Fine.consume, bind, Except.bind] at h
      split at h
      · cases h
      · split at h <;> rw [simple h]
  | fitted k new s =>
    rw [simple h]
    cases s <;> rfl
  | note t o f l =>
    rw [simple h]
    cases f <;> rfl
  | plain o g l done =>
    simp only [Fine.consume] at h
    split at h
    · cases h
    · simp only [bind, Except.bind] at h
      split at h
      · cases h
      · split at h
        · cases h
        · rw [simple h]
  | compensate o g l done base =>
    obtain ⟨v, _, hv⟩ := compensate_step h
    injection hv with h1 h2
    rw [h1]
  | length m =>
    simp only [Fine.consume] at h
    split at h
    · cases h
    · rw [simple h]
  | _ => rw [simple h]

theorem user_beside {env : Env K} {s : Whole K} {p' : Planner K} {e : Event K} (hu : ByUsers e) (hq : Queues e → s.holdsTodo = false)
    (h : s.p.step env e = .ok (some p')) : Beside s.holdsTodo s.p p' := by
  cases e with
  | setWaypoints ws =>
    have hno : s.holdsTodo = true → False := fun h => by rw [hq trivial] at h; cases h
    rw [← Option.some.inj (Except.ok.inj h)]
    exact ⟨rfl, rfl, rfl, rfl, rfl, rfl, rfl, rfl, rfl, rfl, rfl, fun h => (hno h).elim, fun h => (hno h).elim,
      fun h => (hno h).elim⟩
  | appendWaypoint w =>
    have hno : s.holdsTodo = true → False := fun h => by rw [hq trivial] at h; cases h
    rw [← Option.some.inj (Except.ok.inj h)]
    exact ⟨rfl, rfl, rfl, rfl, rfl, rfl, rfl, rfl, rfl, rfl, rfl, fun h => (hno h).elim, fun h => (hno h).elim,
      fun h => (hno h).elim⟩
  | modifyWaypoint n x g =>
    have hno : s.holdsTodo = true → False := fun h => by rw [hq trivial] at h; cases h
    rw [← Option.some.inj (Except.ok.inj h)]
    exact ⟨rfl, rfl, rfl, rfl, rfl, rfl, rfl, rfl, rfl, rfl, rfl, fun h => (hno h).elim, fun h => (hno h).elim,
      fun h => (hno h).elim⟩
  | setSpeed v =>
    rw [← Option.some.inj (Except.ok.inj h)]
    exact ⟨rfl, rfl, rfl, rfl, rfl, rfl, rfl, rfl, rfl, rfl, rfl, fun _ => rfl, fun _ => rfl, fun _ => rfl⟩
  | getWasTrajectoryRegenerated =>
    rw [← Option.some.inj (Except.ok.inj h)]
    exact ⟨rfl, rfl, rfl, rfl, rfl, rfl, rfl, rfl, rfl, rfl, rfl, fun _ => rfl, fun _ => rfl, fun _ => rfl⟩
  | updateVehiclePosition x =>
    rw [← Option.some.inj (Except.ok.inj h)]
    exact ⟨rfl, rfl, rfl, rfl, rfl, rfl, rfl, rfl, rfl, rfl, rfl, fun _ => rfl, fun _ => rfl, fun _ => rfl⟩
  | _ => exact hu.elim

theorem task_pc {env : Env K} {p p' : Planner K} {e : Event K} (ht : ByTask e) (h : p.step env e = .ok (some p')) :
    p'.pc = p.pc ∧ p.future ≠ .invalid := by
  cases e with
  | asyncStart =>
    simp only [Planner.step, Planner.asyncStart] at h
    split at h
    · rename_i hf
      rw [← Option.some.inj (Except.ok.inj h)]
      exact ⟨rfl, by rw [hf]; simp⟩
    · cases h
  | asyncFinish dt =>
    simp only [Planner.step, Planner.asyncFinish] at h
    split at h
    · rename_i hf
      split at h
      · rw [← Option.some.inj (Except.ok.inj h)]
        exact ⟨rfl, by rw [hf]; simp⟩
      · rw [← Option.some.inj (Except.ok.inj h)]
        exact ⟨rfl, by rw [hf]; simp⟩
      · cases h
    · cases h
  | _ => exact ht.elim

/-! ## The worker's local variables -/

/-- The waypoints collected so far. -/
def Base (p : Planner K) (clock : K) (base : List (Waypoint K)) : Prop :=
  (if p.toSet.length = 0 then (Planner.filterPassed { p with params := { p.params with lastGlobal := clock } } (p.dyn.map (·.copy))).mapM
    (·.resetWithCurrent) else pure (p.toSet.map (·.copy))) = .ok base

/-- The stitching points made so far, `t` being the time of the next one. -/
def Points (env : Env K) (p : Planner K) (tr : Trajectory K) (t : K) : List (Waypoint K) → Prop
  | [] => t = p.newParams.lastLocal + p.params.tOffset
  | [w0] => p.stitchPoint env tr (p.newParams.lastLocal + p.params.tOffset) true = .ok w0 ∧
      t = p.newParams.lastLocal + p.params.tOffset + 5 * p.computationTime
  | [w0, w1] => p.stitchPoint env tr (p.newParams.lastLocal + p.params.tOffset) true = .ok w0 ∧
      p.stitchPoint env tr (p.newParams.lastLocal + p.params.tOffset + 5 * p.computationTime) false = .ok w1 ∧
      t = p.newParams.lastLocal + p.params.tOffset + 5 * p.computationTime + 5 * p.computationTime
  | _ => False

/-- What one update does to one waypoint, the clock having been read at any time. -/
def UpdateRel (name : String) (x : V3 K) (w w' : Waypoint K) : Prop :=
  (w.name = name ∧ w.name ≠ "" ∧ ∃ clock, w.setCurrentPosition x clock = .ok w') ∨ (¬ (w.name = name ∧ w.name ≠ "") ∧ w' = w)

def Local (env : Env K) (s : Whole K) : Prop :=
  match s.p.pc, s.w with
  | .top, .begin | .top, .zone | .top, .zoneRead | .top, .zoneLoop _ _ | .top, .status _ | .top, .queue | .top, .queueStatus => True
  | .collect, .begin => True
  | .collect, .filter ws => ws = s.p.dyn.map (·.copy) ∧ s.p.toSet = []
  | .collect, .merge base => ∃ clock, Base s.p clock base
  | .collected, .begin | .planned, .begin | .launching, .begin | .launched, .begin => True
  | .snapshotted, .begin | .snapshotted, .drone => True
  | .snapshotted, .stitchParams | .snapshotted, .stitchTime _ _ | .snapshotted, .attach => s.p.traj ≠ none
  | .snapshotted, .point0 => s.p.fromScratch = false ∧ s.p.traj ≠ none
  | .snapshotted, .convert t points => s.p.fromScratch = false ∧ ∃ tr, s.p.traj = some tr ∧ points.length ≤ 1 ∧ Points env s.p tr t points
  | .snapshotted, .plain g t points done => s.p.fromScratch = false ∧ ∃ tr, s.p.traj = some tr ∧ points.length ≤ 1 ∧ Points env s.p tr t points ∧
      g = t + s.p.params.gtlg ∧ done.length ≤ 2 ∧ ∀ k v, done[k]? = some v → s.p.evaluateModified env tr g t k = .ok v
  | .snapshotted, .compensate g t points done base => s.p.fromScratch = false ∧ ∃ tr, s.p.traj = some tr ∧ points.length ≤ 1 ∧
      Points env s.p tr t points ∧ g = t + s.p.params.gtlg ∧ done.length ≤ 2 ∧
      (∀ k v, done[k]? = some v → s.p.evaluateModified env tr g t k = .ok v) ∧
      ∃ x, tr.evaluate (Planner.clampTime t tr.maxTime) done.length = .ok x ∧ V3.ofList x = .ok base
  | .snapshotted, .rest t points => s.p.fromScratch = false ∧ ∃ tr, s.p.traj = some tr ∧ points.length = 2 ∧ Points env s.p tr t points
  | .snapshotted, .vehicle => s.p.fromScratch = true
  | .apply, .begin | .apply, .modification _ => True
  | .apply, .waypoints name x _ done rest => ∃ pre, s.p.dyn = pre ++ rest ∧ List.Forall₂ (UpdateRel name x) pre done
  | _, _ => False

theorem getReferences_congr {env : Env K} {p p' : Planner K} (h : p'.dyn = p.dyn) (tr : Trajectory K) (g l : K) (o : Bool) :
    p'.getReferences env tr g l o = p.getReferences env tr g l o := by
  unfold Planner.getReferences
  simp only [evaluateModified_congr h]

theorem stitchPoint_congr {env : Env K} {p p' : Planner K} (h : p'.dyn = p.dyn) (hg : p'.params.gtlg = p.params.gtlg) (tr : Trajectory K)
    (t : K) (b : Bool) : p'.stitchPoint env tr t b = p.stitchPoint env tr t b := by
  unfold Planner.stitchPoint
  rw [hg, getReferences_congr h]

theorem points_congr {env : Env K} {b : Bool} {p p' : Planner K} (h : Beside b p p') {tr : Trajectory K} {t : K} {points : List (Waypoint K)}
    (hp : Points env p tr t points) : Points env p' tr t points := by
  have hct : p'.computationTime = p.computationTime := by unfold Planner.computationTime; rw [h.timeConstant]
  match points, hp with
  | [], hp => unfold Points at hp ⊢; rw [h.newLocal, h.tOffset]; exact hp
  | [w0], hp => unfold Points at hp ⊢; rw [h.newLocal, h.tOffset, hct, stitchPoint_congr h.dyn h.gtlg]; exact hp
  | [w0, w1], hp =>
    unfold Points at hp ⊢
    rw [h.newLocal, h.tOffset, hct, stitchPoint_congr h.dyn h.gtlg, stitchPoint_congr h.dyn h.gtlg]; exact hp

theorem base_congr {p p' : Planner K} (h : Beside true p p') {clock : K} {base : List (Waypoint K)} (hb : Base p clock base) :
    Base p' clock base := by
  unfold Base at hb ⊢
  rw [h.toSet rfl, h.dyn]
  exact hb

/-- `Local` does not depend on what other threads change. -/
theorem local_beside {env : Env K} {s : Whole K} {p' : Planner K} (c' : Consumer K) (h : Beside s.holdsTodo s.p p') (hl : Local env s) :
    Local env ⟨p', c', s.w⟩ := by
  obtain ⟨p, c, w⟩ := s
  unfold Local at hl ⊢
  simp only at h hl ⊢
  rw [h.pc]
  cases hpc : p.pc <;> cases w <;> rw [hpc] at hl <;> simp only at hl ⊢ <;> try exact hl
  case collect.filter ws => rw [h.dyn, h.toSet rfl]; exact hl
  case collect.merge base =>
    obtain ⟨clock, hb⟩ := hl
    exact ⟨clock, base_congr h hb⟩
  case snapshotted.stitchParams => rw [h.traj]; exact hl
  case snapshotted.stitchTime => rw [h.traj]; exact hl
  case snapshotted.attach => rw [h.traj]; exact hl
  case snapshotted.point0 => rw [h.traj, h.fromScratch]; exact hl
  case snapshotted.convert t points =>
    obtain ⟨h1, tr, h2, h3, h4⟩ := hl
    exact ⟨h.fromScratch.trans h1, tr, h.traj.trans h2, h3, points_congr h h4⟩
  case snapshotted.plain g t points done =>
    obtain ⟨h1, tr, h2, h3, h4, h5, h6, h7⟩ := hl
    exact ⟨h.fromScratch.trans h1, tr, h.traj.trans h2, h3, points_congr h h4, by rw [h.gtlg]; exact h5, h6, fun k v hk => by
      rw [evaluateModified_congr h.dyn]; exact h7 k v hk⟩
  case snapshotted.compensate g t points done base =>
    obtain ⟨h1, tr, h2, h3, h4, h5, h6, h7, h8⟩ := hl
    exact ⟨h.fromScratch.trans h1, tr, h.traj.trans h2, h3, points_congr h h4, by rw [h.gtlg]; exact h5, h6, fun k v hk => by
      rw [evaluateModified_congr h.dyn]; exact h7 k v hk, h8⟩
  case snapshotted.rest t points =>
    obtain ⟨h1, tr, h2, h3, h4⟩ := hl
    exact ⟨h.fromScratch.trans h1, tr, h.traj.trans h2, h3, points_congr h h4⟩
  case snapshotted.vehicle => exact h.fromScratch.trans hl
  case apply.waypoints name x ms done rest => rw [h.dyn]; exact hl

/-- In the phases in which the worker has local variables no computation is in progress; in all others `Local` holds trivially. -/
theorem local_other {env : Env K} {s s' : Whole K} (hw : s'.w = s.w) (hpc : s'.p.pc = s.p.pc)
    (hb : s.p.pc = .collect ∨ s.p.pc = .snapshotted ∨ s.p.pc = .apply → Beside s.holdsTodo s.p s'.p) (hl : Local env s) : Local env s' := by
  obtain ⟨p, c, w⟩ := s
  obtain ⟨p', c', w'⟩ := s'
  simp only at hw hpc hb
  subst hw
  cases h : p.pc with
  | collect => exact local_beside c' (s := ⟨p, c, w'⟩) (hb (Or.inl h)) hl
  | snapshotted => exact local_beside c' (s := ⟨p, c, w'⟩) (hb (Or.inr (Or.inl h))) hl
  | apply => exact local_beside c' (s := ⟨p, c, w'⟩) (hb (Or.inr (Or.inr h))) hl
  | top => unfold Local at hl ⊢; rw [h] at hpc; simp only [h, hpc] at hl ⊢; cases w' <;> exact hl
  | collected => unfold Local at hl ⊢; rw [h] at hpc; simp only [h, hpc] at hl ⊢; cases w' <;> exact hl
  | planned => unfold Local at hl ⊢; rw [h] at hpc; simp only [h, hpc] at hl ⊢; cases w' <;> exact hl
  | launching => unfold Local at hl ⊢; rw [h] at hpc; simp only [h, hpc] at hl ⊢; cases w' <;> exact hl
  | launched => unfold Local at hl ⊢; rw [h] at hpc; simp only [h, hpc] at hl ⊢; cases w' <;> exact hl

/-- While the worker plans or applies updates nobody is computing, and the evaluating thread is not taking over a plan. -/
theorem phase_idle {env : Env K} {f : Fine K} (h : Serialised env (settled f) ∧ PhaseInv env f)
    (hpc : f.p.pc ≠ .top ∧ f.p.pc ≠ .launching ∧ f.p.pc ≠ .launched) : f.p.computing = false ∧ f.p.future = .invalid ∧ Ctl f.p := by
  obtain ⟨hs, hp⟩ := h
  obtain ⟨p, c⟩ := f
  have hn : ¬ TakingOver c := by
    intro ht
    have hh : Held p := by cases c <;> first | exact ht.elim | exact hp.1 | exact hp
    rcases hh.2.2 with h | h
    · exact hpc.1 h
    · exact hpc.2.2 h
  rw [settled_eq (f := ⟨p, c⟩) hn] at hs
  have hc := serialised_ctl hs
  have := hc.quiet hpc.1 hpc.2.1 hpc.2.2
  exact ⟨this, hc.idle this, hc⟩

/-! ## The worker's steps -/

theorem stitchPoint_attach {env : Env K} {p : Planner K} {tr : Trajectory K} {t : K} {b : Bool} {x v a : V3 K}
    (h0 : p.evaluateModified env tr (t + p.params.gtlg) t 0 = .ok x) (h1 : p.evaluateModified env tr (t + p.params.gtlg) t 1 = .ok v)
    (h2 : p.evaluateModified env tr (t + p.params.gtlg) t 2 = .ok a) : p.stitchPoint env tr t b = attachPoint ⟨x, some v, some a⟩ b := by
  unfold Planner.stitchPoint Planner.getReferences attachPoint
  simp only [h0, h1, h2, bind, Except.bind, pure, Except.pure, Bool.false_eq_true, if_false]

theorem evaluateModified_parts {env : Env K} {p : Planner K} {tr : Trajectory K} {g t : K} {k : ℕ} {y : List K} {base v : V3 K}
    (h1 : tr.evaluate (Planner.clampTime t tr.maxTime) k = .ok y) (h2 : V3.ofList y = .ok base)
    (h3 : (if g > 0 then Planner.compensateLoop env g k p.dyn base else .ok base) = .ok v) : p.evaluateModified env tr g t k = .ok v := by
  unfold Planner.evaluateModified
  simp only [h1, h2, bind, Except.bind]
  exact h3

/-- Every step of the worker is a step of the interleaving with the evaluating thread, and leaves its local variables consistent. -/
theorem work_other {env : Env K} {s s' : Whole K} (h : s.work env = .ok s') (hl : Local env s)
    (hi : s.p.pc = .collect ∨ s.p.pc = .snapshotted ∨ s.p.pc = .apply → s.p.computing = false) :
    s'.c = s.c ∧ OtherStep env s.p s'.p ∧ Local env s' := by
  obtain ⟨p, c, w⟩ := s
  unfold Local at hl
  simp only at hl hi
  cases hpc : p.pc <;> cases w <;> rw [hpc] at hl <;> simp only at hl <;> simp only [Whole.work, hpc] at h
  case top.begin =>
    rw [← Except.ok.inj h]
    refine ⟨rfl, .belated (.look p), ?_⟩
    unfold Local; simp only [hpc]; cases p.generateNew <;> trivial
  case top.zone =>
    rw [← Except.ok.inj h]
    refine ⟨rfl, .belated (.look p), ?_⟩
    unfold Local; simp only [hpc]; cases p.traj.isSome <;> trivial
  case top.zoneRead =>
    rw [← Except.ok.inj h]
    refine ⟨rfl, .belated (.look p), ?_⟩
    unfold Local; simp only [hpc]
  case top.zoneLoop =>
    rw [← Except.ok.inj h]
    refine ⟨rfl, .belated (.look p), ?_⟩
    unfold Local; simp only [hpc]
  case top.status z =>
    split at h
    · rename_i hz
      rw [← Except.ok.inj h]
      refine ⟨rfl, .belated (.begin p hpc ?_), ?_⟩
      · rw [Bool.and_eq_true, Bool.not_eq_true', Bool.not_eq_true'] at hz; exact hz.2
      · unfold Local; trivial
    · rw [← Except.ok.inj h]
      refine ⟨rfl, .belated (.look p), ?_⟩
      unfold Local; simp only [hpc]
  case top.queue =>
    rw [← Except.ok.inj h]
    refine ⟨rfl, .belated (.look p), ?_⟩
    unfold Local; simp only [hpc]; cases p.toModify.isEmpty <;> trivial
  case top.queueStatus =>
    split at h
    · rename_i hz
      rw [← Except.ok.inj h]
      refine ⟨rfl, .belated (.beginUpdates p hpc ?_), ?_⟩
      · rw [Bool.not_eq_true'] at hz; exact hz
      · unfold Local; trivial
    · rw [← Except.ok.inj h]
      refine ⟨rfl, .belated (.look p), ?_⟩
      unfold Local; simp only [hpc]
  case collect.begin =>
    rw [← Except.ok.inj h]
    refine ⟨rfl, .belated (.look p), ?_⟩
    unfold Local
    simp only [hpc]
    by_cases ht : p.toSet.length = 0
    · rw [if_pos ht]; exact ⟨rfl, List.length_eq_zero_iff.mp ht⟩
    · rw [if_neg ht]
      exact ⟨0, by unfold Base; rw [if_neg ht]; rfl⟩
  case collect.filter ws =>
    simp only [bind, Except.bind] at h
    split at h
    · cases h
    · rename_i base hb
      rw [← Except.ok.inj h]
      refine ⟨rfl, .belated (.look p), ?_⟩
      unfold Local
      simp only [hpc]
      refine ⟨p.params.lastGlobal, ?_⟩
      unfold Base
      rw [if_pos (by rw [hl.2]; rfl), ← hl.1]
      exact hb
  case collect.merge base =>
    obtain ⟨clock, hb⟩ := hl
    simp only [bind, Except.bind] at h
    split at h
    · cases h
    · rename_i all ha
      rw [← Except.ok.inj h]
      refine ⟨rfl, .belated (.collect p clock all { p with params := { p.params with lastGlobal := clock }, toSet := [], toAdd := [], toModify := [] }
        hpc ?_), ?_⟩
      · unfold Base at hb
        unfold Planner.generateWaypoints
        by_cases ht : p.toSet.length = 0
        · rw [if_pos ht] at hb
          simp only [if_pos ht, bind, Except.bind]
          rw [hb]
          simp only [ha]
          rfl
        · rw [if_neg ht] at hb
          simp only [if_neg ht, bind, Except.bind]
          rw [hb]
          simp only [ha]
          rfl
      · unfold Local; trivial
  case collected.begin =>
    simp only [bind, Except.bind] at h
    split at h
    · cases h
    · rename_i p' hp'
      rw [← Except.ok.inj h]
      refine ⟨rfl, .event .worker trivial trivial (by simp only [Planner.step, hp', bind, Except.bind]; rfl), ?_⟩
      simp only [Planner.workerStep, hpc] at hp'
      split at hp' <;> rw [← Except.ok.inj hp'] <;> (unfold Local; trivial)
  case planned.begin =>
    simp only [bind, Except.bind] at h
    split at h
    · cases h
    · rename_i p' hp'
      rw [← Except.ok.inj h]
      refine ⟨rfl, .event .worker trivial trivial (by simp only [Planner.step, hp', bind, Except.bind]; rfl), ?_⟩
      simp only [Planner.workerStep, hpc] at hp'
      rw [← Except.ok.inj hp']
      unfold Local; trivial
  case launching.begin =>
    simp only [bind, Except.bind] at h
    split at h
    · cases h
    · rename_i p' hp'
      rw [← Except.ok.inj h]
      refine ⟨rfl, .event .worker trivial trivial (by simp only [Planner.step, hp', bind, Except.bind]; rfl), ?_⟩
      simp only [Planner.workerStep, hpc] at hp'
      rw [← Except.ok.inj hp']
      unfold Local; trivial
  case launched.begin =>
    simp only [bind, Except.bind] at h
    split at h
    · cases h
    · rename_i p' hp'
      rw [← Except.ok.inj h]
      refine ⟨rfl, .event .worker trivial trivial (by simp only [Planner.step, hp', bind, Except.bind]; rfl), ?_⟩
      simp only [Planner.workerStep, hpc] at hp'
      rw [← Except.ok.inj hp']
      unfold Local; trivial
  case snapshotted.begin =>
    rw [← Except.ok.inj h]
    refine ⟨rfl, .belated (.look p), ?_⟩
    unfold Local
    simp only [hpc]
    cases ht : p.traj with
    | none => trivial
    | some tr => simp
  case snapshotted.stitchParams =>
    rw [← Except.ok.inj h]
    refine ⟨rfl, .belated (.look p), ?_⟩
    unfold Local; simp only [hpc]; exact hl
  case snapshotted.stitchTime clock start =>
    split at h
    · cases h
    · rename_i tr htr
      rw [← Except.ok.inj h]
      refine ⟨rfl, .belated (.look p), ?_⟩
      unfold Local
      by_cases hlt : tr.maxTime + start - clock < 2 * p.computationTime
      · simp only [if_pos hlt, hpc]
      · simp only [if_neg hlt, hpc]
        rw [htr]; simp
  case snapshotted.attach =>
    rw [← Except.ok.inj h]
    have hb := Belated.origin (env := env) p false hpc (fun _ => hl)
    rw [hpc] at hb
    refine ⟨rfl, .belated hb, ?_⟩
    unfold Local; exact ⟨rfl, hl⟩
  case snapshotted.point0 =>
    rw [← Except.ok.inj h]
    refine ⟨rfl, .belated (.look p), ?_⟩
    unfold Local
    simp only [hpc]
    obtain ⟨tr, htr⟩ := Option.ne_none_iff_exists'.mp hl.2
    exact ⟨hl.1, tr, htr, by simp, by unfold Points; rfl⟩
  case snapshotted.convert t points =>
    rw [← Except.ok.inj h]
    refine ⟨rfl, .belated (.look p), ?_⟩
    unfold Local
    simp only [hpc]
    obtain ⟨h1, tr, h2, h3, h4⟩ := hl
    exact ⟨h1, tr, h2, h3, h4, by simp⟩
  case snapshotted.plain g t points done =>
    obtain ⟨h1, tr, h2, h3, h4, h5, h6, h7⟩ := hl
    rw [h2] at h
    simp only [bind, Except.bind] at h
    split at h
    · cases h
    · rename_i y hy
      split at h
      · cases h
      · rename_i base hb
        rw [← Except.ok.inj h]
        refine ⟨rfl, .belated (.look p), ?_⟩
        unfold Local
        simp only [hpc]
        exact ⟨h1, tr, h2, h3, h4, h5, h6, h7, y, hy, hb⟩
  case snapshotted.compensate g t points done base =>
    obtain ⟨h1, tr, h2, h3, h4, h5, h6, h7, y, h8, h9⟩ := hl
    have hv : ∃ v, (if g > 0 then Planner.compensateLoop env g done.length p.dyn base else .ok base) = .ok v ∧
        (if done.length < 2 then (.ok ⟨p, c, .plain g t points (done ++ [v])⟩ : Res (Whole K)) else do
          let point ← attachPoint (referencesOf (done ++ [v])) points.isEmpty
          if points.length < 1 then .ok ⟨p, c, .convert (t + 5 * p.computationTime) (points ++ [point])⟩
          else .ok ⟨p, c, .rest (t + 5 * p.computationTime) (points ++ [point])⟩) = .ok s' := by
      split at h
      · rename_i hg
        simp only [bind, Except.bind] at h
        split at h
        · cases h
        · rename_i v hv
          exact ⟨v, by rw [if_pos hg]; exact hv, h⟩
      · rename_i hg
        exact ⟨base, by rw [if_neg hg], h⟩
    obtain ⟨v, hv, h⟩ := hv
    have hev := evaluateModified_parts h8 h9 hv
    have hall : ∀ k x, (done ++ [v])[k]? = some x → p.evaluateModified env tr g t k = .ok x := by
      intro k x hk
      rcases lt_trichotomy k done.length with hlt | heq | hgt
      · rw [List.getElem?_append_left hlt] at hk; exact h7 k x hk
      · rw [heq, List.getElem?_append_right le_rfl] at hk
        simp only [Nat.sub_self, List.getElem?_cons_zero] at hk
        rw [heq, ← Option.some.inj hk]; exact hev
      · rw [List.getElem?_append_right hgt.le] at hk
        obtain ⟨j, hj⟩ : ∃ j, k - done.length = j + 1 := ⟨k - done.length - 1, by omega⟩
        rw [hj] at hk
        simp at hk
    split at h
    · rename_i hlt
      rw [← Except.ok.inj h]
      refine ⟨rfl, .belated (.look p), ?_⟩
      unfold Local
      simp only [hpc]
      exact ⟨h1, tr, h2, h3, h4, h5, by simp only [List.length_append, List.length_singleton]; omega, hall⟩
    · rename_i hge
      have hlen : done.length = 2 := by omega
      match done, hlen with
      | [x0, x1], _ =>
        subst h5
        have e0 := hall 0 x0 rfl
        have e1 := hall 1 x1 rfl
        have e2 := hall 2 v rfl
        simp only [bind, Except.bind] at h
        split at h
        · cases h
        · rename_i point hpt
          have hsp : p.stitchPoint env tr t points.isEmpty = .ok point := by
            rw [stitchPoint_attach e0 e1 e2]; exact hpt
          match points, h3 with
          | [], _ =>
            rw [if_pos (by simp)] at h
            rw [← Except.ok.inj h]
            refine ⟨rfl, .belated (.look p), ?_⟩
            unfold Local
            simp only [hpc]
            refine ⟨h1, tr, h2, by simp, ?_⟩
            have h4 : t = p.newParams.lastLocal + p.params.tOffset := h4
            exact ⟨by rw [← h4]; exact hsp, by rw [← h4]⟩
          | [w0], _ =>
            rw [if_neg (by simp)] at h
            rw [← Except.ok.inj h]
            refine ⟨rfl, .belated (.look p), ?_⟩
            unfold Local
            simp only [hpc]
            refine ⟨h1, tr, h2, by simp, ?_⟩
            obtain ⟨h4, h4'⟩ : p.stitchPoint env tr (p.newParams.lastLocal + p.params.tOffset) true = .ok w0 ∧
              t = p.newParams.lastLocal + p.params.tOffset + 5 * p.computationTime := h4
            exact ⟨h4, by rw [← h4']; exact hsp, by rw [← h4']⟩
  case snapshotted.rest t points =>
    obtain ⟨h1, tr, h2, h3, h4⟩ := hl
    rw [← Except.ok.inj h]
    match points, h3 with
    | [w0, w1], _ =>
      obtain ⟨k1, k2, k3⟩ : p.stitchPoint env tr (p.newParams.lastLocal + p.params.tOffset) true = .ok w0 ∧
        p.stitchPoint env tr (p.newParams.lastLocal + p.params.tOffset + 5 * p.computationTime) false = .ok w1 ∧
        t = p.newParams.lastLocal + p.params.tOffset + 5 * p.computationTime + 5 * p.computationTime := h4
      refine ⟨rfl, .belated (.attach p _ hpc h1 ?_), by unfold Local; trivial⟩
      unfold Planner.stitch
      rw [h2]
      simp only [k1, k2, bind, Except.bind]
      rw [k3]
      rfl
  case snapshotted.drone =>
    rw [← Except.ok.inj h]
    have hb := Belated.origin (env := env) p true hpc (fun h => by cases h)
    rw [hpc] at hb
    refine ⟨rfl, .belated hb, ?_⟩
    unfold Local; trivial
  case snapshotted.vehicle =>
    simp only [bind, Except.bind] at h
    split at h
    · cases h
    · rename_i ws hws
      rw [← Except.ok.inj h]
      exact ⟨rfl, .belated (.scratch p ws hpc hl hws), by unfold Local; trivial⟩
  case apply.begin =>
    rw [← Except.ok.inj h]
    refine ⟨rfl, .belated (.look p), ?_⟩
    unfold Local; simp only [hpc]
  case apply.modification ms =>
    cases ms with
    | nil =>
      rw [← Except.ok.inj h]
      exact ⟨rfl, .belated (.updated p hpc), by unfold Local; trivial⟩
    | cons m ms =>
      rw [← Except.ok.inj h]
      refine ⟨rfl, .belated (.look p), ?_⟩
      unfold Local
      simp only [hpc]
      exact ⟨[], rfl, .nil⟩
  case apply.waypoints name x ms done rest =>
    obtain ⟨pre, h1, h2⟩ := hl
    cases rest with
    | nil =>
      rw [← Except.ok.inj h]
      rw [List.append_nil] at h1
      have hb := Belated.update (env := env) p name x done hpc (by rw [h1]; exact h2)
      rw [hpc] at hb
      refine ⟨rfl, .belated hb, ?_⟩
      unfold Local; trivial
    | cons a rest =>
      simp only at h
      have happ : ∀ b, UpdateRel name x a b → ∃ pre', p.dyn = pre' ++ rest ∧ List.Forall₂ (UpdateRel name x) pre' (done ++ [b]) :=
        fun b hb => ⟨pre ++ [a], by rw [h1]; simp, List.rel_append h2 (.cons hb .nil)⟩
      split at h
      · rename_i hn
        simp only [bind, Except.bind] at h
        split at h
        · cases h
        · rename_i a' ha
          rw [← Except.ok.inj h]
          have hb := Belated.announce (env := env) p hpc
          rw [hpc] at hb
          refine ⟨rfl, .belated hb, ?_⟩
          unfold Local
          simp only
          exact happ a' (Or.inl ⟨hn.1, hn.2, _, ha⟩)
      · rename_i hn
        rw [← Except.ok.inj h]
        refine ⟨rfl, .belated (.look p), ?_⟩
        unfold Local
        simp only [hpc]
        exact happ a (Or.inr ⟨hn, rfl⟩)

/-! ## All interleavings -/

theorem step_fine {env : Env K} {l : Label K} {s s' : Whole K} (h : ThreadStep env l s s') (hi : Interleaved env ⟨s.p, s.c⟩) (hl : Local env s) :
    InsideStep env ⟨s.p, s.c⟩ ⟨s'.p, s'.c⟩ ∧ Local env s' := by
  have hinv := interleaved_inv hi
  have idle : s.p.pc = .collect ∨ s.p.pc = .snapshotted ∨ s.p.pc = .apply → s.p.computing = false ∧ s.p.future = .invalid := by
    intro hpc
    have := phase_idle hinv (by rcases hpc with h | h | h <;> simp [h])
    exact ⟨this.1, this.2.1⟩
  cases h with
  | @evaluator p p' c c' w h =>
    refine ⟨.own h, local_other (s := ⟨p, c, w⟩) rfl (own_pc h) (fun hpc => ?_) hl⟩
    exact own_beside h hinv.2 (idle hpc).1 _
  | worker h =>
    obtain ⟨h1, h2, h3⟩ := work_other h hl (fun hpc => (idle hpc).1)
    refine ⟨?_, h3⟩
    rw [h1]
    exact .other s.c h2
  | user e hu hv hq h =>
    have hb := user_beside hu hq h
    refine ⟨.other s.c (.event e ?_ hv h), local_other (s := s) rfl hb.pc (fun _ => hb) hl⟩
    cases e <;> first | exact hu.elim | trivial
  | request =>
    refine ⟨.other s.c (.request s.p), local_other rfl rfl (fun _ => ?_) hl⟩
    exact ⟨rfl, rfl, rfl, rfl, rfl, rfl, rfl, rfl, rfl, rfl, rfl, fun _ => rfl, fun _ => rfl, fun _ => rfl⟩
  | task e ht hv h =>
    obtain ⟨h1, h2⟩ := task_pc ht h
    refine ⟨.other s.c (.event e ?_ hv h), local_other (s := s) rfl h1 (fun hpc => absurd (idle hpc).2 h2) hl⟩
    · cases e <;> first | exact ht.elim | trivial

theorem threads_inv {env : Env K} {s : Whole K} (h : Threads env s) : Interleaved env ⟨s.p, s.c⟩ ∧ Local env s := by
  induction h with
  | init v => exact ⟨.init v, by unfold Local; trivial⟩
  | call k _ hf ih => exact ⟨.call k ih.1 hf, local_other rfl rfl (fun _ => .refl _ _) ih.2⟩
  | step _ hs ih =>
    obtain ⟨h1, h2⟩ := step_fine hs ih.1 ih.2
    exact ⟨.inside ih.1 h1, h2⟩

theorem calling_during {env : Env K} {k : Purpose K} {ss : List (Whole K)} {s : Whole K} (h : Calling env k ss s) :
    Threads env s ∧ During env k (ss.map fun s => ⟨s.p, s.c⟩) ⟨s.p, s.c⟩ := by
  induction h with
  | start h hf => exact ⟨.call k h hf, .start (threads_inv h).1 hf⟩
  | step _ hs ih =>
    refine ⟨.step ih.1 hs, ?_⟩
    rw [List.map_append]
    exact .inside ih.2 (step_fine hs (threads_inv ih.1).1 (threads_inv ih.1).2).1

theorem stretch_threads {env : Env K} {ok : Whole K → Label K → Whole K → Prop} {s0 s : Whole K} {ss : List (Whole K)} (h0 : Threads env s0)
    (h : Stretch env ok s0 ss s) :
    Threads env s := by
  induction h with
  | start => exact h0
  | call k _ hf ih => exact .call k ih hf
  | step _ hs _ ih => exact .step ih hs

end Verif.Lemmas
