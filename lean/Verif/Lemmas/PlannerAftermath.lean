import Verif.Spec.PlannerAftermath
import Verif.Lemmas.PlannerPipeline

/-!
# After a failed computation: invariants
-/

set_option linter.unusedSectionVars false

namespace Verif.Lemmas
open Verif Verif.Spec

variable {K : Type*} [Field K] [LinearOrder K] [IsStrictOrderedRing K] [FloorSemiring K] {env : Env K}

/-- Where `Model/Planner.lean` ends with the exception. -/
theorem failed_check (s : Planner K) (hc : s.computing = true) (hf : s.future = .failed) : s.checkTrajectoryGenerated env = .error .exc := by
  unfold Planner.checkTrajectoryGenerated
  simp [hf, hc, Future.isReady, Future.valid, bind, Except.bind, Planner.swapTrajectory]

theorem failed_step (s : Planner K) (e : Event K) (hc : s.computing = true) (hf : s.future = .failed) (he : Shaken.consults s e = true) :
    s.step env e = .error .exc := by
  have h := failed_check (env := env) s hc hf
  cases e with
  | evaluate t o f => simp only [Planner.step, Planner.evaluateTrajectory, h, bind, Except.bind]
  | getDynamicWaypoints => simp only [Planner.step, Planner.getDynamicWaypoints, h, bind, Except.bind]
  | getMaxTime =>
    have ht : s.traj.isSome = false := by simpa [Shaken.consults] using he
    simp only [Planner.step, Planner.getMaxTime, Planner.ensureTrajectory, ht, h, bind, Except.bind, Bool.false_eq_true, if_false]
  | getMinTime =>
    have ht : s.traj.isSome = false := by simpa [Shaken.consults] using he
    simp only [Planner.step, Planner.getMinTime, Planner.ensureTrajectory, ht, h, bind, Except.bind, Bool.false_eq_true, if_false]
  | _ => cases he

/-- The transitions of `Model/Planner.lean` are transitions here. -/
theorem shaken_step (s s' : Planner K) (c : ℕ) (e : Event K) (h : s.step env e = .ok (some s')) :
    Shaken.step env ⟨s, none⟩ c e = .ok (.returned ⟨s', none⟩) := by
  unfold Shaken.step
  simp only
  rw [if_neg]
  · simp only [h, bind, Except.bind]; rfl
  · intro hx
    rw [Bool.and_eq_true, Bool.and_eq_true, decide_eq_true_eq] at hx
    rw [failed_step s e hx.1.2 hx.2 hx.1.1] at h
    cases h

theorem later_run {s s' : Planner K} {es : List (Event K)} (h : Run env s es s') : GoesOn env ⟨s, none⟩ ⟨s', none⟩ := by
  induction h with
  | nil => exact .refl
  | snoc e _ hs ih => exact .returned 0 e ih (shaken_step _ _ 0 e hs)

theorem later_trans {x y z : Shaken K} (h : GoesOn env x y) (h' : GoesOn env y z) : GoesOn env x z := by
  induction h' with
  | refl => exact h
  | returned c e _ hs ih => exact .returned c e ih hs
  | threw c e _ hs ih => exact .threw c e ih hs
  | throws _ hs ih => exact .throws ih hs

/-- What a transition is. -/
theorem shaken_returned {x z : Shaken K} {c : ℕ} {e : Event K} (h : x.step env c e = .ok (.returned z)) :
    x.p.step env e = .ok (some z.p) ∧ z.holder = x.holder ∧
      (∀ k, x.holder = some k → Shaken.consults x.p e = false ∧ Shaken.launches x.p e = false) := by
  obtain ⟨p, hd⟩ := x
  unfold Shaken.step at h
  cases hd with
  | some k =>
    simp only at h
    split at h
    · split at h <;> cases h
    · rename_i h1
      split at h
      · cases h
      · rename_i h2
        simp only [bind, Except.bind] at h
        split at h
        · cases h
        · rename_i r hr
          split at h
          · cases h
          · cases h
            exact ⟨hr, rfl, fun _ _ => ⟨by simpa using h1, by simpa using h2⟩⟩
  | none =>
    simp only at h
    split at h
    · cases h
    · simp only [bind, Except.bind] at h
      split at h
      · cases h
      · rename_i r hr
        split at h
        · cases h
        · cases h
          exact ⟨hr, rfl, fun k hk => by cases hk⟩

theorem shaken_threw {x z : Shaken K} {c : ℕ} {e : Event K} (h : x.step env c e = .ok (.threw z)) :
    x.holder = none ∧ Shaken.consults x.p e = true ∧ x.p.computing = true ∧ x.p.future = .failed ∧
      z = ⟨{ x.p with future := .invalid }, some c⟩ := by
  obtain ⟨p, hd⟩ := x
  unfold Shaken.step at h
  cases hd with
  | some k =>
    simp only at h
    split at h
    · split at h <;> cases h
    · split at h
      · cases h
      · simp only [bind, Except.bind] at h
        split at h
        · cases h
        · split at h <;> cases h
  | none =>
    simp only at h
    split at h
    · rename_i hx
      rw [Bool.and_eq_true, Bool.and_eq_true, decide_eq_true_eq] at hx
      cases h
      exact ⟨rfl, hx.1.1, hx.1.2, hx.2, rfl⟩
    · simp only [bind, Except.bind] at h
      split at h
      · cases h
      · split at h <;> cases h

theorem shaken_throws {x z : Shaken K} (h : x.throws = some z) :
    (∃ v, x.p.future = .running v) ∧ z = ⟨{ x.p with future := .failed }, x.holder⟩ := by
  unfold Shaken.throws at h
  split at h
  · rename_i v hv
    cases h
    exact ⟨⟨v, hv⟩, rfl⟩
  · cases h

/-- The failed plan has been reported: `future_mutex_` stays locked, nothing is computed, and the plan is what it was. -/
structure Dead (c : ℕ) (old p : Planner K) : Prop where
  computing : p.computing = true
  future : p.future = .invalid
  pc : p.pc = .top ∨ p.pc = .launched
  traj : p.traj = old.traj
  dyn : p.dyn = old.dyn
  params : ∃ v, p.params = { old.params with speed := v }
  time : p.timeConstant = old.timeConstant

theorem dead_next {c : ℕ} {old p p' : Planner K} {e : Event K} (h : Dead c old p) (hs : p.step env e = .ok (some p'))
    (hn : Shaken.consults p e = false) : Dead c old p' := by
  obtain ⟨h1, h2, h3, h4, h5, ⟨v, h6⟩, h7⟩ := h
  cases e with
  | setWaypoints ws => cases hs; exact ⟨h1, h2, h3, h4, h5, ⟨v, h6⟩, h7⟩
  | appendWaypoint w => cases hs; exact ⟨h1, h2, h3, h4, h5, ⟨v, h6⟩, h7⟩
  | modifyWaypoint n x g => cases hs; exact ⟨h1, h2, h3, h4, h5, ⟨v, h6⟩, h7⟩
  | modifyWaypoints ms =>
    cases hs
    rw [modifyWaypoints_eq]
    exact ⟨h1, h2, h3, h4, h5, ⟨v, h6⟩, h7⟩
  | evaluate t o f => cases hn
  | getDynamicWaypoints => cases hn
  | getMaxTime =>
    have ht : p.traj.isSome = true := by
      cases hx : p.traj with
      | none => simp [Shaken.consults, hx] at hn
      | some _ => rfl
    obtain ⟨tr, htr⟩ := Option.isSome_iff_exists.mp ht
    simp only [Planner.step, Planner.getMaxTime, Planner.ensureTrajectory, Option.isSome_some, if_true, htr, bind, Except.bind] at hs
    cases hs
    exact ⟨h1, h2, h3, h4, h5, ⟨v, h6⟩, h7⟩
  | getMinTime =>
    have ht : p.traj.isSome = true := by
      cases hx : p.traj with
      | none => simp [Shaken.consults, hx] at hn
      | some _ => rfl
    obtain ⟨tr, htr⟩ := Option.isSome_iff_exists.mp ht
    simp only [Planner.step, Planner.getMinTime, Planner.ensureTrajectory, Option.isSome_some, if_true, htr, bind, Except.bind] at hs
    cases hs
    exact ⟨h1, h2, h3, h4, h5, ⟨v, h6⟩, h7⟩
  | setSpeed w => cases hs; exact ⟨h1, h2, h3, h4, h5, ⟨w, by simp [Planner.setSpeed, h6]⟩, h7⟩
  | getWasTrajectoryRegenerated => cases hs; exact ⟨h1, h2, h3, h4, h5, ⟨v, h6⟩, h7⟩
  | updateVehiclePosition x => cases hs; exact ⟨h1, h2, h3, h4, h5, ⟨v, h6⟩, h7⟩
  | worker =>
    simp only [Planner.step, bind, Except.bind, Planner.workerStep] at hs
    rcases h3 with h3 | h3
    · rw [h3] at hs
      simp only [Planner.checkIfTrajectoryCanBeGenerated, h1, Bool.not_true, Bool.and_false, Bool.false_eq_true, if_false] at hs
      cases hs
      exact ⟨h1, h2, .inl h3, h4, h5, ⟨v, h6⟩, h7⟩
    · rw [h3] at hs
      cases hs
      exact ⟨h1, h2, .inl rfl, h4, h5, ⟨v, h6⟩, h7⟩
  | asyncStart => simp [Planner.step, Planner.asyncStart, h2] at hs
  | asyncFinish dt => simp [Planner.step, Planner.asyncFinish, h2] at hs

theorem dead_later {c : ℕ} {old : Planner K} {x y : Shaken K} (hx : x.holder = some c) (hd : Dead c old x.p) (h : GoesOn env x y) :
    y.holder = some c ∧ Dead c old y.p := by
  induction h with
  | refl => exact ⟨hx, hd⟩
  | returned c' e _ hs ih =>
    obtain ⟨a1, a2, a3⟩ := shaken_returned hs
    exact ⟨a2.trans ih.1, dead_next ih.2 a1 (a3 _ ih.1).1⟩
  | threw c' e _ hs ih =>
    have := (shaken_threw hs).1
    rw [ih.1] at this
    cases this
  | throws _ hs ih =>
    obtain ⟨⟨v, hv⟩, _⟩ := shaken_throws hs
    rw [ih.2.future] at hv
    cases hv

/-- Until a failed plan is reported the control invariant of the planner holds; a failed plan finds the worker at rest. -/
theorem possible_ctl {x : Shaken K} (h : Possible env x) : x.holder = none → Ctl x.p := by
  obtain ⟨v, h⟩ := h
  induction h with
  | refl => exact fun _ => ctl_init v
  | returned c e _ hs ih =>
    obtain ⟨a1, a2, _⟩ := shaken_returned hs
    exact fun hn => ctl_step env e _ _ (ih (a2.symm.trans hn)) a1
  | threw c e _ hs _ =>
    obtain ⟨_, _, _, _, rfl⟩ := shaken_threw hs
    exact fun hn => by cases hn
  | throws _ hs ih =>
    obtain ⟨⟨w, hw⟩, rfl⟩ := shaken_throws hs
    intro hn
    obtain ⟨b1, b2, b3, b4, b5, b6, b7⟩ := ih hn
    refine ⟨fun hc => ?_, fun _ _ => by simp, fun hl => ?_, b4, b5, b6, b7⟩
    · have := b1 hc
      rw [hw] at this
      cases this
    · have := (b3 hl).2
      rw [hw] at this
      cases this

theorem failed_pc {s : Planner K} (h : Ctl s) (hf : s.future = .failed) : s.computing = true ∧ (s.pc = .top ∨ s.pc = .launched) := by
  have hc : s.computing = true := by
    cases hx : s.computing with
    | true => rfl
    | false => rw [h.idle hx] at hf; cases hf
  refine ⟨hc, ?_⟩
  by_contra hn
  push Not at hn
  have hl : s.pc ≠ .launching := fun hl => by rw [(h.launching hl).2] at hf; cases hf
  rw [h.quiet hn.1 hl hn.2] at hc
  cases hc

theorem threw_dead {x y : Shaken K} {c : ℕ} {e : Event K} (hp : Possible env x) (h : x.step env c e = .ok (.threw y)) :
    y.holder = some c ∧ Dead c x.p y.p := by
  obtain ⟨h1, _, h3, h4, rfl⟩ := shaken_threw h
  exact ⟨rfl, h3, rfl, (failed_pc (possible_ctl hp h1) h4).2, rfl, rfl, ⟨x.p.params.speed, rfl⟩, rfl⟩

end Verif.Lemmas
