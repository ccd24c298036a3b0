import Verif.Spec.PlannerFine
import Verif.Lemmas.PlannerPlan
import Verif.Lemmas.PlannerFail

/-!
# Every interleaving of the evaluating calls is a sequence of complete calls

`settled f` is the planner state seen from outside: while a plan is being taken over, either the state before (as if the plan had not been
fetched) or, once the new offset is written, the state in which everything has been replaced. `interleaved_inv`: along every
interleaving, `settled` moves by complete events, assignments of the request flag and recordings of evaluation times only.
-/

set_option linter.unusedSectionVars false
set_option linter.unusedSimpArgs false

namespace Verif.Lemmas
open Verif Verif.Spec

variable {K : Type*} [Field K] [LinearOrder K] [IsStrictOrderedRing K] [FloorSemiring K]

/-! ## Belated steps of the worker -/

theorem ctl_belated {env : Env K} {s s' : Planner K} (hi : Ctl s) (h : Belated env s s') : Ctl s' := by
  have quiet : ∀ {pc}, s.pc = pc → pc ≠ .top → pc ≠ .launching → pc ≠ .launched → s.computing = false :=
    fun hp h1 h2 h3 => hi.quiet (by rw [hp]; exact h1) (by rw [hp]; exact h2) (by rw [hp]; exact h3)
  cases h with
  | look => exact hi
  | begin hp hc => exact ctl_of_idle _ hc (hi.idle hc) (by simp) (by simp) (by simp) hi.scratch
  | beginUpdates hp hc => exact ctl_of_idle _ hc (hi.idle hc) (by simp) (by simp) (by simp) hi.scratch
  | collect clock ws s1 hp hw =>
    have hc := quiet hp (by decide) (by decide) (by decide)
    exact ctl_of_idle _ hc (hi.idle hc) (by simp) (by simp) (by simp) hi.scratch
  | origin b hp hb =>
    have hc := quiet hp (by decide) (by decide) (by decide)
    exact ctl_of_idle _ hc (hi.idle hc) (by simp [hp]) (by simp [hp]) (fun _ => hi.next1 hp) hb
  | attach ws hp hs hw =>
    have hc := quiet hp (by decide) (by decide) (by decide)
    obtain ⟨traj, w0, w1, htr, _, _, hr⟩ := stitch_form env s s.next ws hw
    exact ctl_of_idle _ hc (hi.idle hc) (by simp) (fun _ => by rw [hr]; simp) (by simp) (fun _ => by simp [htr])
  | scratch ws hp hs hw =>
    have hc := quiet hp (by decide) (by decide) (by decide)
    obtain ⟨w, hr, _⟩ := appendDrone_form s s.next ws hw
    have hne := List.length_pos_iff.mpr (hi.next1 hp)
    refine ctl_of_idle _ hc (hi.idle hc) (by simp) (fun _ => ?_) (by simp) hi.scratch
    rw [hr]
    simp only [List.length_cons]
    omega
  | announce hp => exact ⟨hi.1, hi.2, hi.3, hi.4, hi.5, hi.6, hi.7⟩
  | update n x ws hp hu => exact ⟨hi.1, hi.2, hi.3, hi.4, hi.5, hi.6, hi.7⟩
  | updated hp =>
    have hc := quiet hp (by decide) (by decide) (by decide)
    exact ctl_of_idle _ hc (hi.idle hc) (by simp) (by simp) (by simp) hi.scratch

theorem wp_belated {env : Env K} {s s' : Planner K} (hi : WpInv s) (h : Belated env s s') : WpInv s' := by
  cases h with
  | look => exact hi
  | begin hp hc => exact ⟨hi.1, hi.2, hi.3, hi.4⟩
  | beginUpdates hp hc => exact ⟨hi.1, hi.2, hi.3, hi.4⟩
  | collect clock ws s1 hp hw =>
    refine ⟨hi.1, ?_, by simp, by simp⟩
    exact generateWaypoints_pred Bookkept (fun _ => copy_bookkept) (fun w w' p hb hr => reset_bookkept' w w' p hb hr) _ ws _ hw
      (fun w hw w' hr => step_bookkept .resetCurrent _ _ hr (copy_bookkept (hi.1 w hw))) hi.3 hi.4
  | origin b hp hb => exact ⟨hi.1, hi.2, hi.3, hi.4⟩
  | attach ws hp hs hw =>
    obtain ⟨traj, w0, w1, htr, h0, h1, hr⟩ := stitch_form env s s.next ws hw
    obtain ⟨_, _, b0, _⟩ := stitchPoint_spec env s traj _ _ _ h0
    obtain ⟨_, _, b1, _⟩ := stitchPoint_spec env s traj _ _ _ h1
    refine ⟨hi.1, ?_, hi.3, hi.4⟩
    intro w hw
    simp only [hr, List.mem_cons] at hw
    rcases hw with rfl | rfl | hw
    · exact b0
    · exact b1
    · exact map_copy_mem (fun _ => copy_bookkept) (fun w hw => hi.2 w (List.mem_filter.mp hw).1) w hw
  | scratch ws hp hs hw =>
    obtain ⟨w0, hr, b0, _⟩ := appendDrone_spec s s.next ws hw
    refine ⟨hi.1, ?_, hi.3, hi.4⟩
    intro w hw
    simp only [hr, List.mem_cons] at hw
    rcases hw with rfl | hw
    · exact b0
    · exact hi.2 w hw
  | announce hp => exact ⟨hi.1, hi.2, hi.3, hi.4⟩
  | update n x ws hp hu =>
    refine ⟨?_, hi.2, hi.3, hi.4⟩
    intro w hw
    obtain ⟨a, ha, hr⟩ := forall2_mem_right hu hw
    rcases hr with ⟨_, _, g, hr⟩ | ⟨_, rfl⟩
    · exact step_bookkept (.update x g) a w hr (hi.1 a ha)
    · exact hi.1 _ ha
  | updated hp => exact ⟨hi.1, hi.2, hi.3, hi.4⟩

theorem plan_belated {env : Env K} {s s' : Planner K} (hc : Ctl s) (hi : PlanInv env s) (h : Belated env s s') : PlanInv env s' := by
  have busy : ∀ {pc}, s.pc = pc → pc ≠ .top → pc ≠ .launching → pc ≠ .launched → ∀ tr, s.future ≠ .ready tr := by
    intro pc hp h1 h2 h3 tr hf
    rw [hc.idle (hc.quiet (by rw [hp]; exact h1) (by rw [hp]; exact h2) (by rw [hp]; exact h3))] at hf
    cases hf
  cases h with
  | collect clock ws s1 hp hw => exact ⟨fun tr h => absurd h (busy hp (by decide) (by decide) (by decide) tr), hi.2, hi.3⟩
  | attach ws hp hs hw => exact ⟨fun tr h => absurd h (busy hp (by decide) (by decide) (by decide) tr), hi.2, hi.3⟩
  | scratch ws hp hs hw => exact ⟨fun tr h => absurd h (busy hp (by decide) (by decide) (by decide) tr), hi.2, hi.3⟩
  | update n x ws hp hu =>
    have hf : List.Forall₂ (fun a b => b.index = a.index ∧ b.time = a.time ∧ b.name = a.name) s.dyn ws := hu.imp (fun a c hac => by
      rcases hac with ⟨_, _, g, hs⟩ | ⟨_, rfl⟩
      · exact ⟨(setCurrentPosition_frame a c x g hs).2.1, (setCurrentPosition_frame a c x g hs).1,
          (setCurrentPosition_frame a c x g hs).2.2.2.1⟩
      · exact ⟨rfl, rfl, rfl⟩)
    refine ⟨hi.1, ?_, ?_⟩
    · intro tr htr
      obtain ⟨h1, ws', h2, h3, h4⟩ := hi.taken tr htr
      exact ⟨timed_congr _ _ _ _ (hf.imp (fun _ _ h => ⟨h.1, h.2.1⟩)) h1, ws', h2, h3,
        forall2_comp (fun _ _ _ h1 h2 => h1.trans h2.2.2.symm) h4 hf⟩
    · intro htr
      have := hi.none htr
      rw [this] at hf
      cases hf
      rfl
  | _ => exact ⟨hi.1, hi.2, hi.3⟩

/-! ## Sequences of complete calls -/

theorem serialised_ctl {env : Env K} {s : Planner K} (h : Serialised env s) : Ctl s := by
  induction h with
  | init v => exact ctl_init v
  | event e _ _ hs ih =>
    rcases step_micro env e _ _ hs with h | h | ⟨m, h1, h2⟩
    · rw [h]; exact ih
    · exact ctl_micro env e _ _ ih h
    · exact ctl_micro env e _ _ (ctl_micro env e _ _ ih h1) h2
  | belated _ hb ih => exact ctl_belated ih hb
  | flag b _ ih => exact ⟨ih.idle, ih.busy, ih.launching, ih.quiet, ih.next2, ih.next1, ih.scratch⟩
  | record t _ _ ih => exact ⟨ih.idle, ih.busy, ih.launching, ih.quiet, ih.next2, ih.next1, ih.scratch⟩

theorem serialised_wp {env : Env K} {s : Planner K} (h : Serialised env s) : WpInv s := by
  induction h with
  | init v => exact wp_init v
  | event e _ hv hs ih =>
    rcases step_micro env e _ _ hs with h | h | ⟨m, h1, h2⟩
    · rw [h]; exact ih
    · exact wp_micro env e _ _ hv ih h
    · exact wp_micro env e _ _ hv (wp_micro env e _ _ hv ih h1) h2
  | belated _ hb ih => exact wp_belated ih hb
  | flag b _ ih => exact ⟨ih.dyn, ih.next, ih.toAdd, ih.toSet⟩
  | record t _ _ ih => exact ⟨ih.dyn, ih.next, ih.toAdd, ih.toSet⟩

theorem serialised_plan {env : Env K} (henv : Segmentwise env) {s : Planner K} (h : Serialised env s) : PlanInv env s := by
  induction h with
  | init v => exact plan_init env v
  | event e h0 hv hs ih =>
    have hc := serialised_ctl h0
    have hw := serialised_wp h0
    rcases step_micro env e _ _ hs with h | h | ⟨m, h1, h2⟩
    · rw [h]; exact ih
    · exact plan_micro env henv e _ _ hc hw ih h
    · exact plan_micro env henv e _ _ (ctl_micro env e _ _ hc h1) (wp_micro env e _ _ hv hw h1) (plan_micro env henv e _ _ hc hw ih h1) h2
  | belated h0 hb ih => exact plan_belated (serialised_ctl h0) ih hb
  | flag b _ ih => exact ⟨ih.ready, ih.taken, ih.none⟩
  | record t _ _ ih => exact ⟨ih.ready, ih.taken, ih.none⟩

theorem serialised_other {env : Env K} {s s' : Planner K} (h : Serialised env s) (ho : OtherStep env s s') : Serialised env s' := by
  cases ho with
  | event e _ hv hs => exact .event e h hv hs
  | request => exact .flag true h
  | belated hb => exact .belated h hb

/-! ## What others can do while a plan is being taken over -/

inductive Aside : Planner K → Planner K → Prop
  | same (p : Planner K) : Aside p p
  | set (p : Planner K) (ws : List (Waypoint K)) (hv : ∀ w ∈ ws, Bookkept w) : Aside p (p.setWaypoints ws)
  | append (p : Planner K) (w : Waypoint K) (hv : Bookkept w) : Aside p (p.appendWaypoint w)
  | modify (p : Planner K) (n : String) (x : V3 K) (g : Bool) : Aside p (p.modifyWaypoint n x g)
  | modifyMany (p : Planner K) (ms : List (String × V3 K)) : Aside p
      { p with toModify := ms.foldl (fun l m => Planner.putModification m.1 m.2 l) p.toModify, generateNew := true }
  | speed (p : Planner K) (v : K) : Aside p (p.setSpeed v)
  | clearRegenerated (p : Planner K) : Aside p { p with regenerated := false }
  | vehicle (p : Planner K) (x : V3 K) : Aside p (p.updateVehiclePosition x)
  | wake (p : Planner K) (hp : p.pc = .launched) : Aside p { p with generateNew := false, pc := .top }
  | request (p : Planner K) : Aside p { p with generateNew := true }

/-- The plan has been fetched, the flag is still set. -/
def Held (p : Planner K) : Prop := p.future = .invalid ∧ p.computing = true ∧ (p.pc = .top ∨ p.pc = .launched)

theorem other_aside {env : Env K} {p p' : Planner K} (hh : Held p) (h : OtherStep env p p') : Aside p p' := by
  obtain ⟨h1, h2, h3⟩ := hh
  cases h with
  | request => exact .request p
  | belated hb =>
    have hpc : ∀ {pc}, p.pc = pc → pc ≠ .top → pc ≠ .launched → False := fun h n1 n2 => by
      rcases h3 with h3 | h3 <;> rw [h3] at h
      · exact n1 h.symm
      · exact n2 h.symm
    cases hb with
    | look => exact .same p
    | begin _ hc => rw [h2] at hc; cases hc
    | beginUpdates _ hc => rw [h2] at hc; cases hc
    | collect _ _ _ hp _ => exact (hpc hp (by decide) (by decide)).elim
    | origin _ hp _ => exact (hpc hp (by decide) (by decide)).elim
    | attach _ hp _ _ => exact (hpc hp (by decide) (by decide)).elim
    | scratch _ hp _ _ => exact (hpc hp (by decide) (by decide)).elim
    | announce hp => exact (hpc hp (by decide) (by decide)).elim
    | update _ _ _ hp _ => exact (hpc hp (by decide) (by decide)).elim
    | updated hp => exact (hpc hp (by decide) (by decide)).elim
  | event e ho hv hs =>
    cases e with
    | setWaypoints ws => rw [← Option.some.inj (Except.ok.inj hs)]; exact .set p ws hv
    | appendWaypoint w => rw [← Option.some.inj (Except.ok.inj hs)]; exact .append p w hv
    | modifyWaypoint n x g => rw [← Option.some.inj (Except.ok.inj hs)]; exact .modify p n x g
    | modifyWaypoints ms => rw [← Option.some.inj (Except.ok.inj hs), modifyWaypoints_eq]; exact .modifyMany p ms
    | evaluate t o f => exact ho.elim
    | getMaxTime => exact ho.elim
    | getMinTime => exact ho.elim
    | getDynamicWaypoints => exact ho.elim
    | setSpeed v => rw [← Option.some.inj (Except.ok.inj hs)]; exact .speed p v
    | getWasTrajectoryRegenerated => rw [← Option.some.inj (Except.ok.inj hs)]; exact .clearRegenerated p
    | updateVehiclePosition x => rw [← Option.some.inj (Except.ok.inj hs)]; exact .vehicle p x
    | worker =>
      rcases h3 with h3 | h3
      · simp [Planner.step, Planner.workerStep, h3, h2, Planner.checkIfTrajectoryCanBeGenerated, bind, Except.bind, pure, Except.pure] at hs
        rw [← hs]; exact .same p
      · simp [Planner.step, Planner.workerStep, h3, bind, Except.bind, pure, Except.pure] at hs
        rw [← hs]; exact .wake p h3
    | asyncStart => simp [Planner.step, Planner.asyncStart, h1] at hs
    | asyncFinish dt => simp [Planner.step, Planner.asyncFinish, h1] at hs

theorem serialised_aside {env : Env K} {q q' : Planner K} (h : Serialised env q) (ha : Aside q q') : Serialised env q' := by
  cases ha with
  | same => exact h
  | set ws hv => exact .event (.setWaypoints ws) h hv rfl
  | append w hv => exact .event (.appendWaypoint w) h hv rfl
  | modify n x g => exact .event (.modifyWaypoint n x g) h trivial rfl
  | modifyMany ms => exact .event (.modifyWaypoints ms) h trivial (by simp [Planner.step, modifyWaypoints_eq])
  | speed v => exact .event (.setSpeed v) h trivial rfl
  | clearRegenerated => exact .event .getWasTrajectoryRegenerated h trivial rfl
  | vehicle x => exact .event (.updateVehiclePosition x) h trivial rfl
  | wake hp =>
    exact .event .worker h trivial (by simp [Planner.step, Planner.workerStep, hp, bind, Except.bind, pure, Except.pure])
  | request => exact .flag true h

/-- What `Aside` leaves alone. -/
structure Unchanged (p p' : Planner K) : Prop where
  dyn : p'.dyn = p.dyn
  next : p'.next = p.next
  traj : p'.traj = p.traj
  future : p'.future = p.future
  computing : p'.computing = p.computing
  fromScratch : p'.fromScratch = p.fromScratch
  timeConstant : p'.timeConstant = p.timeConstant
  lastGlobal : p'.params.lastGlobal = p.params.lastGlobal
  lastLocal : p'.params.lastLocal = p.params.lastLocal
  tOffset : p'.params.tOffset = p.params.tOffset
  gtlg : p'.params.gtlg = p.params.gtlg
  newGtlg : p'.newParams.gtlg = p.newParams.gtlg

theorem aside_unchanged {p p' : Planner K} (h : Aside p p') : Unchanged p p' := by
  cases h <;> exact ⟨rfl, rfl, rfl, rfl, rfl, rfl, rfl, rfl, rfl, rfl, rfl, rfl⟩

theorem aside_held {p p' : Planner K} (h : Aside p p') (hh : Held p) : Held p' := by
  obtain ⟨h1, h2, h3⟩ := hh
  cases h <;> first | exact ⟨h1, h2, h3⟩ | exact ⟨h1, h2, Or.inl rfl⟩

theorem evaluateModified_congr {env : Env K} {p p' : Planner K} (h : p'.dyn = p.dyn) (tr : Trajectory K) (g l : K) (k : ℕ) :
    p'.evaluateModified env tr g l k = p.evaluateModified env tr g l k := by
  unfold Planner.evaluateModified; rw [h]

theorem fitLoop_congr {env : Env K} {p p' : Planner K} (h : p'.dyn = p.dyn) (hg : p'.newParams.gtlg = p.newParams.gtlg) (tr : Trajectory K)
    (target : V3 K) (n i : ℕ) (d m : K) : p'.fitLoop env tr target n i d m = p.fitLoop env tr target n i d m := by
  induction n generalizing i d m with
  | zero => rfl
  | succ n ih =>
    unfold Planner.fitLoop
    simp only [hg, evaluateModified_congr h, ih]

/-! ## The settled state -/

def settled (f : Fine K) : Planner K :=
  match f.c with
  | .target _ new => { f.p with future := .ready new }
  | .old _ new _ _ => { f.p with future := .ready new }
  | .fit0 _ new scratch target => { f.p with future := .ready new, vehicle := if scratch then target else f.p.vehicle }
  | .fit _ new scratch target _ _ _ _ => { f.p with future := .ready new, vehicle := if scratch then target else f.p.vehicle }
  | .offset _ new scratch target _ => { f.p with future := .ready new, vehicle := if scratch then target else f.p.vehicle }
  | .fitted _ new _ => { f.p with
      params := f.p.newParams, traj := some new, regenerated := true, dyn := f.p.next.map (·.copy), computing := false, fromScratch := false }
  | .params _ new => { f.p with
      params := f.p.newParams, traj := some new, regenerated := true, dyn := f.p.next.map (·.copy), computing := false, fromScratch := false }
  | .traj _ new => { f.p with traj := some new, regenerated := true, dyn := f.p.next.map (·.copy), computing := false }
  | .mark _ => { f.p with regenerated := true, dyn := f.p.next.map (·.copy), computing := false }
  | .swap _ => { f.p with dyn := f.p.next.map (·.copy), computing := false }
  | .clearComputing _ => { f.p with computing := false }
  | _ => f.p

theorem settled_eq {f : Fine K} (h : ¬ TakingOver f.c) : settled f = f.p := by
  obtain ⟨p, c⟩ := f
  cases c <;> first | rfl | exact absurd trivial h

/-- The target of the time fitting. -/
def Branch (env : Env K) (p : Planner K) (scratch : Bool) (target : V3 K) : Prop :=
  p.fromScratch = scratch ∧ (scratch = false → ∃ old, p.traj = some old ∧
    p.evaluateModified env old (p.params.lastGlobal + p.params.tOffset) (p.params.lastLocal + p.params.tOffset) 0 = .ok target)

theorem branch_congr {env : Env K} {p p' : Planner K} (h : Unchanged p p') {scratch : Bool} {target : V3 K} (hb : Branch env p scratch target) :
    Branch env p' scratch target := by
  refine ⟨h.fromScratch.trans hb.1, fun hs => ?_⟩
  obtain ⟨old, h1, h2⟩ := hb.2 hs
  exact ⟨old, h.traj.trans h1, by rw [evaluateModified_congr h.dyn, h.lastGlobal, h.lastLocal, h.tOffset]; exact h2⟩

/-- Number of rounds of the fitting loop. -/
def rounds (p : Planner K) : ℕ := ⌈3 / 2 * p.computationTime / (1 / 10)⌉₊ - 1

theorem rounds_congr {p p' : Planner K} (h : Unchanged p p') : rounds p' = rounds p := by
  unfold rounds Planner.computationTime; rw [h.timeConstant]

/-- What is known at each point of a call. -/
def PhaseInv (env : Env K) (f : Fine K) : Prop :=
  match f.c with
  | .free | .start _ | .wait _ | .evaluated _ | .copied _ | .time _ => True
  | .valid _ => f.p.traj ≠ none ∨ f.p.future.isReady = true
  | .busy _ v => (v = true → f.p.future.valid = true) ∧ (f.p.traj ≠ none ∨ (f.p.future.isReady = true ∧ v = true))
  | .ready _ => f.p.future.valid = true ∧ f.p.computing = true ∧ (f.p.traj ≠ none ∨ f.p.future.isReady = true)
  | .get _ => f.p.computing = true ∧ f.p.future.isReady = true
  | .target _ _ => Held f.p
  | .old _ _ g l => Held f.p ∧ f.p.fromScratch = false ∧ g = f.p.params.lastGlobal + f.p.params.tOffset ∧
      l = f.p.params.lastLocal + f.p.params.tOffset
  | .fit0 _ _ scratch target => Held f.p ∧ Branch env f.p scratch target
  | .fit _ new scratch target n i d m => Held f.p ∧ Branch env f.p scratch target ∧
      ∃ x, f.p.evaluateModified env new (0 + f.p.newParams.gtlg) 0 0 = .ok x ∧
        f.p.fitLoop env new target n i d m = f.p.fitLoop env new target (rounds f.p) 1 (Planner.distSq x target) 0
  | .offset _ new scratch target m => Held f.p ∧ Branch env f.p scratch target ∧
      ∃ x d, f.p.evaluateModified env new (0 + f.p.newParams.gtlg) 0 0 = .ok x ∧
        f.p.fitLoop env new target (rounds f.p) 1 (Planner.distSq x target) 0 = .ok (d, m)
  | .fitted _ _ scratch => Held f.p ∧ f.p.fromScratch = scratch
  | .params _ _ => Held f.p ∧ f.p.fromScratch = false
  | .traj _ _ => Held f.p ∧ f.p.fromScratch = false
  | .mark _ => Held f.p ∧ f.p.traj ≠ none
  | .swap _ => Held f.p ∧ f.p.traj ≠ none
  | .clearComputing _ => Held f.p ∧ f.p.traj ≠ none
  | .clearRequest _ => f.p.traj ≠ none
  | .note t _ _ l => f.p.traj ≠ none ∧ l = t - f.p.params.gtlg
  | .localTime _ _ _ | .shift _ _ _ | .plain _ _ _ _ | .compensate _ _ _ _ _ | .copy | .length _ | .globalTime _ => f.p.traj ≠ none

/-! ## Others -/

theorem isReady_valid {x : Future K} (h : x.isReady = true) : x.valid = true := by
  cases x <;> simp_all [Future.isReady, Future.valid]

/-- What other threads' steps do to the trajectory, the future and the clock. -/
theorem other_frame {env : Env K} {p p' : Planner K} (hc : Ctl p) (h : OtherStep env p p') :
    p'.traj = p.traj ∧ p'.params.gtlg = p.params.gtlg ∧ p'.params.tOffset = p.params.tOffset ∧ p'.params.lastGlobal = p.params.lastGlobal ∧
    p'.params.lastLocal = p.params.lastLocal ∧
    (p.computing = true → p'.computing = true) ∧ (p.future.valid = true → p'.future.valid = true) ∧
    (p.future.isReady = true → p'.future = p.future) := by
  cases h with
  | request => exact ⟨rfl, rfl, rfl, rfl, rfl, id, id, fun _ => rfl⟩
  | belated hb => cases hb <;> exact ⟨rfl, rfl, rfl, rfl, rfl, id, id, fun _ => rfl⟩
  | event e ho hv hs =>
    rcases step_micro' env e _ _ hs with ⟨h, _⟩ | h | ⟨m, ⟨t, o, rfl⟩, _⟩
    · rw [h]; exact ⟨rfl, rfl, rfl, rfl, rfl, id, id, fun _ => rfl⟩
    · cases h with
      | takeOver _ _ new off _ _ he _ =>
        rcases he with ⟨t, o, f, rfl⟩ | rfl | rfl | rfl <;> exact ho.elim
      | evalTime _ _ _ _ => exact ho.elim
      | launch _ hp =>
        refine ⟨rfl, rfl, rfl, rfl, rfl, id, fun _ => rfl, fun hr => ?_⟩
        rw [(hc.launching hp).2] at hr; cases hr
      | planned _ hp => exact ⟨rfl, rfl, rfl, rfl, rfl, fun _ => rfl, id, fun _ => rfl⟩
      | apply _ s1 hp ha =>
        obtain ⟨_, d, r, rfl, _⟩ := applyAll_rel (fun _ _ => True) (fun _ => trivial) (fun _ _ _ _ _ => trivial)
          (fun _ _ _ _ _ => trivial) _ _ _ ha
        exact ⟨rfl, rfl, rfl, rfl, rfl, id, id, fun _ => rfl⟩
      | asyncStart _ hf => exact ⟨rfl, rfl, rfl, rfl, rfl, id, fun _ => rfl, fun hr => by rw [hf] at hr; cases hr⟩
      | asyncFinish _ dt speed traj ws hf => exact ⟨rfl, rfl, rfl, rfl, rfl, id, fun _ => rfl, fun hr => by rw [hf] at hr; cases hr⟩
      | asyncFail _ dt speed hf => exact ⟨rfl, rfl, rfl, rfl, rfl, id, fun _ => rfl, fun hr => by rw [hf] at hr; cases hr⟩
      | _ => exact ⟨rfl, rfl, rfl, rfl, rfl, id, id, fun _ => rfl⟩
    · exact ho.elim

theorem other_inv {env : Env K} {p p' : Planner K} {c : Consumer K} (h : OtherStep env p p') (hs : Serialised env (settled ⟨p, c⟩))
    (hp : PhaseInv env ⟨p, c⟩) : Serialised env (settled ⟨p', c⟩) ∧ PhaseInv env ⟨p', c⟩ := by
  by_cases ht : TakingOver c
  · have hh : Held p := by
      cases c <;> first | exact ht.elim | exact hp.1 | exact hp
    have ha := other_aside hh h
    have hu := aside_unchanged ha
    have hh' := aside_held ha hh
    have key : Aside (settled ⟨p, c⟩) (settled ⟨p', c⟩) := by
      cases ha with
      | same => exact .same _
      | set ws hv => cases c <;> first | exact ht.elim | exact Aside.set _ ws hv
      | append w hv => cases c <;> first | exact ht.elim | exact Aside.append _ w hv
      | modify n x g => cases c <;> first | exact ht.elim | exact Aside.modify _ n x g
      | modifyMany ms => cases c <;> first | exact ht.elim | exact Aside.modifyMany _ ms
      | speed v => cases c <;> first | exact ht.elim | exact Aside.speed _ v
      | clearRegenerated => cases c <;> first | exact ht.elim | exact Aside.clearRegenerated _ | exact Aside.same _
      | vehicle x =>
        cases c with
        | fit0 k new scratch target => cases scratch; exact Aside.vehicle _ x; exact Aside.same _
        | fit k new scratch target n i d m => cases scratch; exact Aside.vehicle _ x; exact Aside.same _
        | offset k new scratch target m => cases scratch; exact Aside.vehicle _ x; exact Aside.same _
        | _ => first | exact ht.elim | exact Aside.vehicle _ x
      | wake hpc => cases c <;> first | exact ht.elim | exact Aside.wake _ hpc
      | request => cases c <;> first | exact ht.elim | exact Aside.request _
    refine ⟨serialised_aside hs key, ?_⟩
    cases c with
    | target k new => exact hh'
    | old k new g l => exact ⟨hh', hu.fromScratch.trans hp.2.1, by rw [hu.lastGlobal, hu.tOffset]; exact hp.2.2.1, by
        rw [hu.lastLocal, hu.tOffset]; exact hp.2.2.2⟩
    | fit0 k new scratch target => exact ⟨hh', branch_congr hu hp.2⟩
    | fit k new scratch target n i d m =>
      obtain ⟨_, hb, x, h1, h2⟩ := hp
      exact ⟨hh', branch_congr hu hb, x, by rw [evaluateModified_congr hu.dyn, hu.newGtlg]; exact h1, by
        rw [fitLoop_congr hu.dyn hu.newGtlg, fitLoop_congr hu.dyn hu.newGtlg, rounds_congr hu]; exact h2⟩
    | offset k new scratch target m =>
      obtain ⟨_, hb, x, d, h1, h2⟩ := hp
      exact ⟨hh', branch_congr hu hb, x, d, by rw [evaluateModified_congr hu.dyn, hu.newGtlg]; exact h1, by
        rw [fitLoop_congr hu.dyn hu.newGtlg, rounds_congr hu]; exact h2⟩
    | fitted k new scratch => exact ⟨hh', hu.fromScratch.trans hp.2⟩
    | params k new => exact ⟨hh', hu.fromScratch.trans hp.2⟩
    | traj k new => exact ⟨hh', hu.fromScratch.trans hp.2⟩
    | mark k => exact ⟨hh', by rw [hu.traj]; exact hp.2⟩
    | swap k => exact ⟨hh', by rw [hu.traj]; exact hp.2⟩
    | clearComputing k => exact ⟨hh', by rw [hu.traj]; exact hp.2⟩
    | _ => exact ht.elim
  · rw [settled_eq (f := ⟨p, c⟩) ht] at hs
    rw [settled_eq (f := ⟨p', c⟩) ht]
    obtain ⟨f1, f2, f3, f4, f5, f6, f7, f8⟩ := other_frame (serialised_ctl hs) h
    refine ⟨serialised_other hs h, ?_⟩
    have hr : p.future.isReady = true → p'.future.isReady = true := fun hr => by rw [f8 hr]; exact hr
    cases c with
    | valid k => exact hp.imp (fun h => by rw [f1]; exact h) hr
    | busy k v => exact ⟨fun hv => f7 (hp.1 hv), hp.2.imp (fun h => by rw [f1]; exact h) (fun h => ⟨hr h.1, h.2⟩)⟩
    | ready k => exact ⟨f7 hp.1, f6 hp.2.1, hp.2.2.imp (fun h => by rw [f1]; exact h) hr⟩
    | get k => exact ⟨f6 hp.1, hr hp.2⟩
    | note t o f l => exact ⟨by rw [f1]; exact hp.1, by rw [f2]; exact hp.2⟩
    | _ => first | exact absurd trivial ht | trivial | (show p'.traj ≠ none; rw [f1]; exact hp)

/-! ## The thread's own steps -/

/-- A take-over as a single event. -/
theorem takeOver_step (env : Env K) (q : Planner K) (new : Trajectory K) (target : V3 K) (x : V3 K) (d m : K)
    (hc : q.computing = true) (hf : q.future = .ready new)
    (hb : (q.fromScratch = true ∧ target = q.vehicle) ∨ (q.fromScratch = false ∧ ∃ old, q.traj = some old ∧
      q.evaluateModified env old (q.params.lastGlobal + q.params.tOffset) (q.params.lastLocal + q.params.tOffset) 0 = .ok target))
    (h1 : q.evaluateModified env new (0 + q.newParams.gtlg) 0 0 = .ok x)
    (h2 : q.fitLoop env new target (rounds q) 1 (Planner.distSq x target) 0 = .ok (d, m)) :
    q.step env .getDynamicWaypoints = .ok (some { q with
      future := .invalid, fromScratch := false,
      newParams := { q.newParams with tOffset := m - (q.params.lastGlobal - q.newParams.gtlg) + 1 / 10 },
      params := { q.newParams with tOffset := m - (q.params.lastGlobal - q.newParams.gtlg) + 1 / 10 }, traj := some new,
      regenerated := true, dyn := q.next.map (·.copy), computing := false, generateNew := false }) := by
  have hfit : Planner.timeFitting env { q with future := .invalid } new target = .ok { q with
      future := .invalid, newParams := { q.newParams with tOffset := m - (q.params.lastGlobal - q.newParams.gtlg) + 1 / 10 } } := by
    have e1 : Planner.evaluateModified env { q with future := .invalid } new (0 + q.newParams.gtlg) 0 0 = .ok x := h1
    have e2 : Planner.fitLoop env { q with future := .invalid } new target (rounds q) 1 (Planner.distSq x target) 0 = .ok (d, m) :=
      (fitLoop_congr (p := q) (p' := { q with future := .invalid }) rfl rfl _ _ _ _ _ _).trans h2
    unfold Planner.timeFitting
    simp only [bind, Except.bind, e1]
    simp only [rounds, Planner.computationTime] at e2
    simp only [Planner.computationTime, e2, pure, Except.pure]
  have hswap : q.swapTrajectory env = .ok { q with
      future := .invalid, fromScratch := false,
      newParams := { q.newParams with tOffset := m - (q.params.lastGlobal - q.newParams.gtlg) + 1 / 10 },
      params := { q.newParams with tOffset := m - (q.params.lastGlobal - q.newParams.gtlg) + 1 / 10 }, traj := some new,
      regenerated := true } := by
    unfold Planner.swapTrajectory
    rw [hf]
    rcases hb with ⟨b1, b2⟩ | ⟨b1, old, b2, b3⟩
    · subst b2
      simp only [b1] at hfit
      simp only [b1, if_true, hfit, bind, Except.bind, pure, Except.pure]
    · have b3' : Planner.evaluateModified env { q with future := .invalid } old (q.params.lastGlobal + q.params.tOffset)
          (q.params.lastLocal + q.params.tOffset) 0 = .ok target := b3
      simp only [b1, b2] at hfit b3'
      simp only [b1, Bool.false_eq_true, if_false, b2, b3', hfit, bind, Except.bind, pure, Except.pure]
  simp only [Planner.step, Planner.getDynamicWaypoints, Planner.checkTrajectoryGenerated, hf, hc, Future.isReady, Future.valid, hswap, bind,
    Except.bind, pure, Except.pure, Planner.swapDynamicWaypoints, Bool.and_true, Bool.not_true, Bool.and_false, Bool.false_eq_true, if_false,
    if_true, Option.map_some]

theorem after_phase {env : Env K} {p : Planner K} (k : Purpose K) (h : p.traj ≠ none) : PhaseInv env ⟨p, k.after⟩ := by
  cases k <;> exact h

theorem after_settled {p : Planner K} (k : Purpose K) : settled ⟨p, k.after⟩ = p := by
  cases k <;> rfl

theorem compensate_step {env : Env K} {p : Planner K} {o : Bool} {g l : K} {done : List (V3 K)} {base : V3 K} {f' : Fine K}
    (h : Fine.consume env ⟨p, .compensate o g l done base⟩ = .ok (some f')) :
    ∃ v, (if g > 0 then Planner.compensateLoop env g done.length p.dyn base else .ok base) = .ok v ∧ f' = ⟨p, nextOrder o g l (done ++ [v])⟩ := by
  simp only [Fine.consume] at h
  split at h
  · rename_i hg
    simp only [bind, Except.bind] at h
    split at h
    · cases h
    · rename_i v hv
      exact ⟨v, by rw [if_pos hg]; exact hv, (Option.some.inj (Except.ok.inj h)).symm⟩
  · rename_i hg
    exact ⟨base, by rw [if_neg hg], (Option.some.inj (Except.ok.inj h)).symm⟩

theorem own_inv {env : Env K} {f f' : Fine K} (h : f.consume env = .ok (some f')) (hs : Serialised env (settled f)) (hp : PhaseInv env f) :
    Serialised env (settled f') ∧ PhaseInv env f' := by
  obtain ⟨p, c⟩ := f
  cases c with
  | free => cases h
  | evaluated r => cases h
  | copied r => cases h
  | time x => cases h
  | start k =>
    cases k with
    | maxTime =>
      have h := Option.some.inj (Except.ok.inj h)
      subst h
      simp only
      by_cases ht : p.traj.isSome = true
      · rw [if_pos ht]; exact ⟨hs, fun hn => by rw [show p.traj = none from hn] at ht; cases ht⟩
      · rw [if_neg ht]; exact ⟨hs, trivial⟩
    | minTime =>
      have h := Option.some.inj (Except.ok.inj h)
      subst h
      simp only
      by_cases ht : p.traj.isSome = true
      · rw [if_pos ht]; exact ⟨hs, fun hn => by rw [show p.traj = none from hn] at ht; cases ht⟩
      · rw [if_neg ht]; exact ⟨hs, trivial⟩
    | evaluate t o f => rw [← Option.some.inj (Except.ok.inj h)]; exact ⟨hs, trivial⟩
    | waypoints => rw [← Option.some.inj (Except.ok.inj h)]; exact ⟨hs, trivial⟩
  | wait k =>
    simp only [Fine.consume] at h
    split at h
    · rename_i hcond
      rw [← Option.some.inj (Except.ok.inj h)]
      refine ⟨hs, ?_⟩
      rw [Bool.or_eq_true] at hcond
      exact hcond.imp (fun ht hn => by rw [show p.traj = none from hn] at ht; cases ht) id
    · cases h
  | valid k =>
    rw [← Option.some.inj (Except.ok.inj h)]
    exact ⟨hs, id, hp.imp id (fun hr => ⟨hr, isReady_valid hr⟩)⟩
  | busy k v =>
    have h := Option.some.inj (Except.ok.inj h)
    subst h
    have hctl : Ctl p := serialised_ctl hs
    simp only
    by_cases hcond : (p.computing && v) = true
    · rw [if_pos hcond]
      rw [Bool.and_eq_true] at hcond
      exact ⟨hs, hp.1 hcond.2, hcond.1, hp.2.imp id (·.1)⟩
    · rw [if_neg hcond]
      refine ⟨by rw [after_settled]; exact hs, after_phase k ?_⟩
      rcases hp.2 with ht | ⟨h1, h2⟩
      · exact ht
      · exfalso
        apply hcond
        rw [Bool.and_eq_true]
        refine ⟨?_, h2⟩
        by_contra hn
        have := hctl.idle (by simpa using hn)
        change p.future.isReady = true at h1
        rw [this] at h1
        cases h1
  | ready k =>
    simp only [Fine.consume] at h
    split at h
    · have h := Option.some.inj (Except.ok.inj h)
      subst h
      by_cases hr : p.future.isReady = true
      · rw [if_pos hr]; exact ⟨hs, hp.2.1, hr⟩
      · rw [if_neg hr]
        refine ⟨by rw [after_settled]; exact hs, after_phase k ?_⟩
        rcases hp.2.2 with ht | hr'
        · exact ht
        · exact absurd hr' hr
    · cases h
  | get k =>
    have hctl : Ctl p := serialised_ctl hs
    simp only [Fine.consume] at h
    cases hf : p.future with
    | ready new =>
      rw [hf] at h
      rw [← Option.some.inj (Except.ok.inj h)]
      have hpc : p.pc = .top ∨ p.pc = .launched := by
        have hc1 : p.computing = true := hp.1
        by_contra hn
        push Not at hn
        by_cases hl : p.pc = .launching
        · have := (hctl.launching hl).2
          rw [hf] at this; cases this
        · have := hctl.quiet hn.1 hl hn.2
          rw [hc1] at this; cases this
      refine ⟨?_, rfl, hp.1, hpc⟩
      show Serialised env { p with future := .ready new }
      rw [← hf]; exact hs
    | failed => rw [hf] at h; cases h
    | invalid => rw [hf] at h; cases h
    | launched => rw [hf] at h; cases h
    | running sp => rw [hf] at h; cases h
  | target k new =>
    simp only [Fine.consume] at h
    split at h
    · rename_i hsc
      rw [← Option.some.inj (Except.ok.inj h)]
      exact ⟨hs, hp, hsc, fun h => by cases h⟩
    · rename_i hsc
      rw [← Option.some.inj (Except.ok.inj h)]
      exact ⟨hs, hp, by simpa using hsc, rfl, rfl⟩
  | old k new g l =>
    simp only [Fine.consume] at h
    split at h
    · cases h
    · rename_i old htr
      simp only [bind, Except.bind] at h
      split at h
      · cases h
      · rename_i target he
        rw [← Option.some.inj (Except.ok.inj h)]
        obtain ⟨hh, hsc, hg, hl⟩ := hp
        exact ⟨hs, hh, hsc, fun _ => ⟨old, htr, by rw [← he]; exact congrArg₂ (fun a b => p.evaluateModified env old a b 0) hg.symm hl.symm⟩⟩
  | fit0 k new scratch target =>
    simp only [Fine.consume, bind, Except.bind] at h
    split at h
    · cases h
    · rename_i x hx
      rw [← Option.some.inj (Except.ok.inj h)]
      exact ⟨hs, hp.1, hp.2, x, hx, rfl⟩
  | fit k new scratch target n i d m =>
    cases n with
    | zero =>
      rw [← Option.some.inj (Except.ok.inj h)]
      obtain ⟨hh, hb, x, h1, h2⟩ := hp
      exact ⟨hs, hh, hb, x, d, h1, h2.symm⟩
    | succ n =>
      obtain ⟨hh, hb, x, h1, h2⟩ := hp
      simp only [Fine.consume, bind, Except.bind] at h
      split at h
      · cases h
      · rename_i y hy
        have e : p.fitLoop env new target (n + 1) i d m = if Planner.distSq y target ≤ d then
            p.fitLoop env new target n (i + 1) (Planner.distSq y target) ((i : K) * (1 / 10)) else p.fitLoop env new target n (i + 1) d m := by
          conv_lhs => unfold Planner.fitLoop
          simp only [bind, Except.bind, hy]
        split at h
        · rename_i hle
          rw [← Option.some.inj (Except.ok.inj h)]
          rw [if_pos hle] at e
          exact ⟨hs, hh, hb, x, h1, e.symm.trans h2⟩
        · rename_i hle
          rw [← Option.some.inj (Except.ok.inj h)]
          rw [if_neg hle] at e
          exact ⟨hs, hh, hb, x, h1, e.symm.trans h2⟩
  | offset k new scratch target m =>
    rw [← Option.some.inj (Except.ok.inj h)]
    obtain ⟨hh, hb, x, d, h1, h2⟩ := hp
    refine ⟨?_, hh, hb.1⟩
    have hq := hs
    simp only [settled] at hq
    have step := takeOver_step env { p with future := .ready new, vehicle := if scratch then target else p.vehicle } new target x d m hh.2.1 rfl
      (by
        cases scratch with
        | true => exact Or.inl ⟨hb.1, rfl⟩
        | false => exact Or.inr ⟨hb.1, hb.2 rfl⟩)
      h1 ((fitLoop_congr (p := p) (p' := { p with future := .ready new, vehicle := if scratch then target else p.vehicle }) rfl rfl
        _ _ _ _ _ _).trans h2)
    have s1 := Serialised.event .getDynamicWaypoints hq trivial step
    have s2 := Serialised.flag p.generateNew s1
    have s3 := Serialised.event (.updateVehiclePosition p.vehicle) s2 trivial rfl
    have e : p.future = .invalid := hh.1
    have : settled ⟨{ p with newParams := { p.newParams with tOffset := m - (p.params.lastGlobal - p.newParams.gtlg) + 1 / 10 } },
        .fitted k new scratch⟩ = { p with
          future := .invalid, newParams := { p.newParams with tOffset := m - (p.params.lastGlobal - p.newParams.gtlg) + 1 / 10 },
          params := { p.newParams with tOffset := m - (p.params.lastGlobal - p.newParams.gtlg) + 1 / 10 }, traj := some new,
          regenerated := true, dyn := p.next.map (·.copy), computing := false, fromScratch := false } := by
      rw [← e]; rfl
    rw [this]
    exact s3
  | fitted k new scratch =>
    rw [← Option.some.inj (Except.ok.inj h)]
    cases scratch with
    | true => exact ⟨hs, ⟨hp.1.1, hp.1.2.1, hp.1.2.2⟩, rfl⟩
    | false => exact ⟨hs, hp.1, hp.2⟩
  | params k new =>
    rw [← Option.some.inj (Except.ok.inj h)]
    refine ⟨?_, ⟨hp.1.1, hp.1.2.1, hp.1.2.2⟩, hp.2⟩
    have e : p.fromScratch = false := hp.2
    have : settled ⟨{ p with params := p.newParams }, .traj k new⟩ = settled ⟨p, .params k new⟩ := by
      simp only [settled, e]
    rw [this]; exact hs
  | traj k new =>
    rw [← Option.some.inj (Except.ok.inj h)]
    exact ⟨hs, ⟨hp.1.1, hp.1.2.1, hp.1.2.2⟩, by simp⟩
  | mark k => rw [← Option.some.inj (Except.ok.inj h)]; exact ⟨hs, ⟨hp.1.1, hp.1.2.1, hp.1.2.2⟩, hp.2⟩
  | swap k => rw [← Option.some.inj (Except.ok.inj h)]; exact ⟨hs, ⟨hp.1.1, hp.1.2.1, hp.1.2.2⟩, hp.2⟩
  | clearComputing k => rw [← Option.some.inj (Except.ok.inj h)]; exact ⟨hs, hp.2⟩
  | clearRequest k =>
    rw [← Option.some.inj (Except.ok.inj h)]
    refine ⟨?_, after_phase k hp⟩
    rw [after_settled]
    exact .flag false hs
  | localTime t o f => rw [← Option.some.inj (Except.ok.inj h)]; exact ⟨hs, hp, rfl⟩
  | note t o f l =>
    rw [← Option.some.inj (Except.ok.inj h)]
    cases f with
    | true => exact ⟨hs, hp.1⟩
    | false =>
      obtain ⟨h1, h2⟩ := hp
      refine ⟨?_, h1⟩
      rw [h2]
      exact .record t hs h1
  | shift t o l => rw [← Option.some.inj (Except.ok.inj h)]; exact ⟨hs, hp⟩
  | plain o g l done =>
    simp only [Fine.consume] at h
    split at h
    · cases h
    · simp only [bind, Except.bind] at h
      split at h
      · cases h
      · split at h
        · cases h
        · rw [← Option.some.inj (Except.ok.inj h)]
          exact ⟨hs, hp⟩
  | compensate o g l done base =>
    obtain ⟨v, _, h⟩ := compensate_step h
    subst h
    unfold nextOrder
    split
    · exact ⟨hs, trivial⟩
    · exact ⟨hs, hp⟩
  | copy => rw [← Option.some.inj (Except.ok.inj h)]; exact ⟨hs, trivial⟩
  | length mx =>
    simp only [Fine.consume] at h
    split at h
    · cases h
    · rw [← Option.some.inj (Except.ok.inj h)]; exact ⟨hs, hp⟩
  | globalTime x => rw [← Option.some.inj (Except.ok.inj h)]; exact ⟨hs, trivial⟩

theorem inside_inv {env : Env K} {f f' : Fine K} (h : InsideStep env f f') (hi : Serialised env (settled f) ∧ PhaseInv env f) :
    Serialised env (settled f') ∧ PhaseInv env f' := by
  cases h with
  | own h => exact own_inv h hi.1 hi.2
  | other c h => exact other_inv h hi.1 hi.2

theorem isFree_settled {f : Fine K} (h : f.c.isFree = true) : settled f = f.p := by
  obtain ⟨p, c⟩ := f
  cases c <;> first | rfl | cases h

/-- Along every interleaving the settled state is one complete calls lead to. -/
theorem interleaved_inv {env : Env K} {f : Fine K} (h : Interleaved env f) : Serialised env (settled f) ∧ PhaseInv env f := by
  induction h with
  | init v => exact ⟨.init v, trivial⟩
  | call k _ hf ih =>
    refine ⟨?_, trivial⟩
    have := ih.1
    rw [isFree_settled hf] at this
    exact this
  | inside _ hs ih => exact inside_inv hs ih

theorem during_interleaved {env : Env K} {k : Purpose K} {fs : List (Fine K)} {f : Fine K} (h : During env k fs f) : Interleaved env f := by
  induction h with
  | start h hf => exact .call k h hf
  | inside _ hs ih => exact .inside ih hs

end Verif.Lemmas
