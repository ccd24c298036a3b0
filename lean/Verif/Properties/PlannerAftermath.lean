import Verif.Lemmas.PlannerAftermath
import Verif.Lemmas.PlannerSample

/-!
# After a failed computation (C142)
-/

set_option linter.unusedSectionVars false

namespace Verif.Properties
open Verif Verif.Spec Verif.Lemmas

variable {K : Type*} [Field K] [LinearOrder K] [IsStrictOrderedRing K] [FloorSemiring K]

/-- The full claim C142: a computation that throws costs one exception and nothing else. After the call that reported it, the calls
that return what the plan says still return if there is a plan, in whatever thread. -/
def C142Full (K : Type*) [Field K] [LinearOrder K] [IsStrictOrderedRing K] [FloorSemiring K] : Prop :=
  ∀ (env : Env K) (x y : Shaken K) (c : ℕ) (e : Event K), Possible env x → x.step env c e = .ok (.threw y) → y.p.traj ≠ none →
    ∀ c', ∃ z, y.step env c' .getDynamicWaypoints = .ok (.returned z)

/-- C142: the exception is reported, and once: while the failed plan waits, every evaluating call is left by it (the first one, in whatever
thread); a call is left by an exception only if a failed plan waited, and none ever after. -/
theorem C142_reported (env : Env K) (x : Shaken K) (hp : Possible env x) :
    (∀ c e, Evaluating e → x.holder = none → x.p.future = .failed → ∃ y, x.step env c e = .ok (.threw y)) ∧
    (∀ c e y, x.step env c e = .ok (.threw y) → x.p.future = .failed ∧
      ∀ z, GoesOn env y z → ∀ c' e' z', z.step env c' e' ≠ .ok (.threw z')) := by
  refine ⟨fun c e he hh hf => ?_, fun c e y h => ⟨(shaken_threw h).2.2.2.1, fun z hz c' e' z' h' => ?_⟩⟩
  · have hc := (failed_pc (possible_ctl hp hh) hf).1
    have hcon : Shaken.consults x.p e = true := by
      cases e <;> first | rfl | cases he
    refine ⟨⟨{ x.p with future := .invalid }, some c⟩, ?_⟩
    unfold Shaken.step
    rw [hh]
    simp only
    rw [if_pos (by rw [hcon, hc, hf]; simp)]
  · obtain ⟨h1, h2⟩ := threw_dead hp h
    have := (shaken_threw h').1
    rw [(dead_later h1 h2 hz).1] at this
    cases this

/-- C142: afterwards the planner is of no use, whatever happens later: no evaluating call ever returns (in the thread that caught the exception
it is undefined, in every other it waits for ever), no plan is ever computed again, and trajectory, waypoints and start time stay what they
were. -/
theorem C142_useless (env : Env K) (x y z : Shaken K) (c : ℕ) (e : Event K) (hp : Possible env x) (h : x.step env c e = .ok (.threw y))
    (hz : GoesOn env y z) :
    (∀ e', Evaluating e' → z.step env c e' = .error .ub ∧ ∀ c', c' ≠ c → z.step env c' e' = .ok .waits) ∧
    z.p.future = .invalid ∧ z.p.traj = x.p.traj ∧ z.p.dyn = x.p.dyn ∧ z.p.params.gtlg = x.p.params.gtlg ∧
    z.p.params.tOffset = x.p.params.tOffset := by
  obtain ⟨h1, h2⟩ := threw_dead hp h
  obtain ⟨h3, d⟩ := dead_later h1 h2 hz
  obtain ⟨v, hv⟩ := d.params
  refine ⟨fun e' he => ?_, d.future, d.traj, d.dyn, by rw [hv], by rw [hv]⟩
  have hcon : Shaken.consults z.p e' = true := by
    cases e' <;> first | rfl | cases he
  constructor
  · unfold Shaken.step
    rw [h3]
    simp only
    rw [if_pos hcon, if_pos trivial]
  · intro c' hc'
    unfold Shaken.step
    rw [h3]
    simp only
    rw [if_pos hcon, if_neg (Ne.symm hc')]

/-- C142, what holds: if there was a plan, every other call still returns, in whatever thread, also in the one that caught the exception; the
times of the plan are what they were. -/
theorem C142_partial (env : Env K) (x y z : Shaken K) (c : ℕ) (e : Event K) (hp : Possible env x) (h : x.step env c e = .ok (.threw y))
    (tr : Trajectory K) (ht : x.p.traj = some tr) (hz : GoesOn env y z) (c' : ℕ) (e' : Event K) (he : OtherCall e') :
    (∃ z', z.step env c' e' = .ok (.returned z')) ∧
    z.p.getMaxTime env = .ok (some (tr.maxTime + x.p.params.gtlg, z.p)) ∧ z.p.getMinTime env = .ok (some (x.p.params.gtlg, z.p)) := by
  obtain ⟨h1, h2⟩ := threw_dead hp h
  obtain ⟨h3, d⟩ := dead_later h1 h2 hz
  obtain ⟨v, hv⟩ := d.params
  have htz : z.p.traj = some tr := d.traj.trans ht
  have hmax : z.p.getMaxTime env = .ok (some (tr.maxTime + x.p.params.gtlg, z.p)) := by
    simp only [Planner.getMaxTime, Planner.ensureTrajectory, htz, Option.isSome_some, if_true, bind, Except.bind, hv]
    rfl
  have hmin : z.p.getMinTime env = .ok (some (x.p.params.gtlg, z.p)) := by
    simp only [Planner.getMinTime, Planner.ensureTrajectory, htz, Option.isSome_some, if_true, bind, Except.bind, hv, zero_add]
    rfl
  refine ⟨?_, hmax, hmin⟩
  have hcon : Shaken.consults z.p e' = false := by
    cases e' <;> first | rfl | (simp [Shaken.consults, htz]; done) | cases he
  have hl : Shaken.launches z.p e' = false := by
    cases e' <;> first | rfl | cases he
  obtain ⟨p', hs⟩ : ∃ p', z.p.step env e' = .ok (some p') := by
    cases e' with
    | getMaxTime => exact ⟨z.p, by simp only [Planner.step, hmax, bind, Except.bind]; rfl⟩
    | getMinTime => exact ⟨z.p, by simp only [Planner.step, hmin, bind, Except.bind]; rfl⟩
    | evaluate _ _ _ => cases he
    | getDynamicWaypoints => cases he
    | worker => cases he
    | asyncStart => cases he
    | asyncFinish _ => cases he
    | _ => exact ⟨_, rfl⟩
  refine ⟨⟨p', some c⟩, ?_⟩
  unfold Shaken.step
  rw [h3]
  simp only
  rw [if_neg (by rw [hcon]; simp), if_neg (by rw [hl]; simp)]
  simp only [hs, bind, Except.bind]
  rfl

/-- The computation of a second plan, for a waypoint appended to the sample plan, throws, and an evaluation in thread 1 reports it. -/
theorem sample_throw : ∃ x y : Shaken ℚ, Possible hermiteEnv x ∧ x.step hermiteEnv 1 (.evaluate 1 false false) = .ok (.threw y) ∧
    x.p.traj = state1.traj ∧ y.p.traj ≠ none := by
  obtain ⟨s, hs, hx⟩ := run?_map (history1 ++ [.appendWaypoint (wp "c" 3 3 3), .worker, .worker, .worker, .worker, .worker, .worker, .worker, .asyncStart])
    (fun s => (s.traj, decide (s.future = .running 2), s.computing)) (state1.traj, true, true) (by decide +kernel)
  simp only [Prod.mk.injEq, decide_eq_true_eq] at hx
  obtain ⟨h1, h2, h3⟩ := hx
  have ht : state1.traj ≠ none := by decide +kernel
  refine ⟨⟨{ s with future := .failed }, none⟩, ⟨{ s with future := .invalid }, some 1⟩, ⟨⟨0, 0, 0⟩, .throws (later_run hs) ?_⟩, ?_, h1, ?_⟩
  · simp only [Shaken.throws, h2]
  · simp [Shaken.step, Shaken.consults, h3]
  · rw [← h1] at ht
    exact ht

/-- C142 does not hold in full: after one computation has thrown, `getDynamicWaypoints` never returns again although there is a plan. -/
theorem C142_refuted : ¬ C142Full ℚ := by
  intro hfull
  obtain ⟨x, y, hp, h, _, ht⟩ := sample_throw
  obtain ⟨z, hz⟩ := hfull _ _ _ _ _ hp h ht 0
  rw [((C142_useless _ _ _ _ _ _ hp h .refl).1 .getDynamicWaypoints trivial).2 0 (by decide)] at hz
  cases hz

-- The hypotheses of `C142_partial` and `C142_useless` are met, also after a further request.
example : ∃ (x y z : Shaken ℚ) (tr : Trajectory ℚ), Possible hermiteEnv x ∧ x.step hermiteEnv 1 (.evaluate 1 false false) = .ok (.threw y) ∧
    x.p.traj = some tr ∧ GoesOn hermiteEnv y z ∧ z ≠ y ∧ OtherCall (.setSpeed 2 : Event ℚ) ∧ Evaluating (.evaluate 1 false false : Event ℚ) := by
  obtain ⟨x, y, hp, h, h1, ht⟩ := sample_throw
  obtain ⟨hh, hd⟩ := threw_dead hp h
  rw [hd.traj] at ht
  obtain ⟨tr, htr⟩ := Option.ne_none_iff_exists'.mp ht
  refine ⟨x, y, ⟨y.p.appendWaypoint (wp "d" 4 4 4), y.holder⟩, tr, hp, h, htr, ?_, ?_, trivial, trivial⟩
  · refine .returned 1 (.appendWaypoint (wp "d" 4 4 4)) .refl ?_
    unfold Shaken.step
    rw [hh]
    rfl
  · intro hx
    have h2 : (y.p.appendWaypoint (wp "d" 4 4 4)).toAdd.length = y.p.toAdd.length := by
      have := congrArg (fun s : Shaken ℚ => s.p.toAdd.length) hx
      exact this
    simp [Planner.appendWaypoint] at h2

end Verif.Properties
