import Verif.Properties.PlannerEval

/-!
# Property C125: which speed a plan was computed with, and that setting the speed leaves the plan in force alone
-/

set_option linter.unusedSectionVars false

namespace Verif.Properties
open Verif Verif.Spec Verif.Lemmas

variable {K : Type*} [Field K] [LinearOrder K] [IsStrictOrderedRing K] [FloorRing K]

/-- How many background computations began in a history. -/
def starts (es : List (Event K)) : ℕ := es.countP fun e => match e with | .asyncStart => true | _ => false

/-- `tr` is what the optimiser answered, for some vertices, with the speed that was set last when a computation of the history began, at most `n` later
computations having begun since. -/
def ComputedWithin (env : Env K) (es : List (Event K)) (n : ℕ) (tr : Trajectory K) : Prop :=
  ∃ es1 es2 vs, es = es1 ++ .asyncStart :: es2 ∧ starts es2 ≤ n ∧ env.optimize vs ((speedsSet es1).getLast?.getD 0) = .ok tr

theorem ComputedWithin.more {env : Env K} {es : List (Event K)} {n : ℕ} {tr : Trajectory K} (h : ComputedWithin env es n tr) (e : Event K) :
    ComputedWithin env (es ++ [e]) (n + starts [e]) tr := by
  obtain ⟨es1, es2, vs, rfl, h2, h3⟩ := h
  refine ⟨es1, es2 ++ [e], vs, by simp, ?_, h3⟩
  unfold starts at *
  rw [List.countP_append]
  omega

theorem ComputedWithin.mono {env : Env K} {es : List (Event K)} {n m : ℕ} {tr : Trajectory K} (h : ComputedWithin env es n tr) (hm : n ≤ m) :
    ComputedWithin env es m tr := by
  obtain ⟨es1, es2, vs, h1, h2, h3⟩ := h
  exact ⟨es1, es2, vs, h1, h2.trans hm, h3⟩

structure SpeedInv (env : Env K) (es : List (Event K)) (s : Planner K) : Prop where
  running : ∀ sp, s.future = .running sp → ∃ es1 es2, es = es1 ++ .asyncStart :: es2 ∧ starts es2 = 0 ∧ sp = (speedsSet es1).getLast?.getD 0
  ready : ∀ tr, s.future = .ready tr → ComputedWithin env es 0 tr
  taken : ∀ tr, s.traj = some tr → ComputedWithin env es 1 tr
  settled : ∀ tr, s.traj = some tr → s.future = .invalid ∨ s.future = .launched → ComputedWithin env es 0 tr

/-- The invariant survives one more event that starts no computation and changes neither the future nor the plan. -/
theorem SpeedInv.more {env : Env K} {es : List (Event K)} {s s' : Planner K} (hi : SpeedInv env es s) (e : Event K) (he : starts [e] = 0)
    (hf : s'.future = s.future) (ht : s'.traj = s.traj) : SpeedInv env (es ++ [e]) s' := by
  refine ⟨?_, ?_, ?_, ?_⟩
  · intro sp h
    rw [hf] at h
    obtain ⟨es1, es2, rfl, h2, h3⟩ := hi.running sp h
    refine ⟨es1, es2 ++ [e], by simp, ?_, h3⟩
    unfold starts at *
    rw [List.countP_append]
    omega
  · intro tr h
    rw [hf] at h
    exact ((hi.ready tr h).more e).mono (by omega)
  · intro tr h
    rw [ht] at h
    exact ((hi.taken tr h).more e).mono (by omega)
  · intro tr h h'
    rw [ht] at h
    rw [hf] at h'
    exact ((hi.settled tr h h').more e).mono (by omega)

/-- Steps within one event that is not the beginning of a computation; `es` is the history including the event. -/
theorem speedInv_micro (env : Env K) (es : List (Event K)) (e : Event K) (s s' : Planner K) (hc : Ctl s) (hi : SpeedInv env es s) (hm : Micro env e s s')
    (he : e ≠ .asyncStart) : SpeedInv env es s' := by
  obtain ⟨h1, h2, h3, h4⟩ := hi
  cases hm with
  | takeOver _ _ new off hcomp hr _ _ =>
    refine ⟨fun sp h => (by cases h), fun tr h => (by cases h), fun tr h => ?_, fun tr h _ => ?_⟩
    · rw [← Option.some.inj h]; exact (h2 new hr).mono (by omega)
    · rw [← Option.some.inj h]; exact h2 new hr
  | launch _ hp =>
    exact ⟨fun sp h => (by cases h), fun tr h => (by cases h), h3, fun tr h _ => h4 tr h (.inl (hc.launching hp).2)⟩
  | apply _ s2 hp ha =>
    obtain ⟨_, d, r, rfl, _⟩ := applyAll_rel (fun _ _ => True) (fun _ => trivial) (fun _ _ _ _ _ => trivial) (fun _ _ _ _ _ => trivial) _ s s2 ha
    exact ⟨h1, h2, h3, h4⟩
  | asyncStart _ hf => exact absurd rfl he
  | asyncFinish _ dt sp traj ws hf hcomp =>
    obtain ⟨vs, _, _, k3, _⟩ := computeTrajectory_form env s sp traj ws hcomp
    obtain ⟨es1, es2, k1, k2, rfl⟩ := h1 sp hf
    refine ⟨fun sp h => (by cases h), fun tr h => ?_, h3, fun tr h h' => ?_⟩
    · cases h
      exact ⟨es1, es2, vs, k1, k2.le, k3⟩
    · rcases h' with h' | h' <;> cases h'
  | asyncFail _ dt sp hf hcomp =>
    refine ⟨fun sp h => (by cases h), fun tr h => (by cases h), h3, fun tr h h' => ?_⟩
    rcases h' with h' | h' <;> cases h'
  | _ => exact ⟨h1, h2, h3, h4⟩

theorem speedInv_run (env : Env K) (vehicle : V3 K) (es : List (Event K)) (s : Planner K) (h : Run env (Planner.init vehicle) es s) :
    Ctl s ∧ s.params.speed = (speedsSet es).getLast?.getD 0 ∧ SpeedInv env es s := by
  have key : Run env (Planner.init vehicle) es s ∧ Ctl s ∧ SpeedInv env es s := by
    refine run_induction env (Planner.init vehicle) (fun es s => Run env (Planner.init vehicle) es s ∧ Ctl s ∧ SpeedInv env es s)
      ⟨.nil, ctl_init vehicle, ⟨fun _ h => (by cases h), fun _ h => (by cases h), fun _ h => (by cases h), fun _ h => (by cases h)⟩⟩ ?_ es s h
    rintro es e s s' ⟨hr, hc, hi⟩ hs
    refine ⟨.snoc e hr hs, ?_⟩
    by_cases he : e = .asyncStart
    · subst he
      have hsp : s.params.speed = (speedsSet es).getLast?.getD 0 := C41_speed env vehicle es s hr
      have hs' : s.asyncStart = some s' := Except.ok.inj hs
      unfold Planner.asyncStart at hs'
      split at hs'
      · rename_i hf
        refine ⟨ctl_micro env _ _ _ hc (Option.some.inj hs' ▸ Micro.asyncStart s hf), ?_⟩
        rw [← Option.some.inj hs']
        refine ⟨?_, fun tr h => (by cases h), fun tr h => ?_, fun tr h h' => ?_⟩
        · intro sp h
          cases h
          exact ⟨es, [], rfl, rfl, hsp⟩
        · exact ((hi.settled tr h (.inr hf)).more .asyncStart).mono (by simp [starts])
        · rcases h' with h' | h' <;> cases h'
      · cases hs'
    · have h0 : starts [e] = 0 := by
        unfold starts
        cases e <;> simp_all
      have hi' := hi.more e h0 rfl rfl
      rcases step_micro env e s s' hs with rfl | hm | ⟨m, h1, h2⟩
      · exact ⟨hc, hi'⟩
      · exact ⟨ctl_micro env e s s' hc hm, speedInv_micro env _ e s s' hc hi' hm he⟩
      · have c1 := ctl_micro env e s m hc h1
        exact ⟨ctl_micro env e m s' c1 h2, speedInv_micro env _ e m s' c1 (speedInv_micro env _ e s m hc hi' h1 he) h2 he⟩
  exact ⟨key.2.1, C41_speed env vehicle es s h, key.2.2⟩

/-- C125: after any history the plan in force was computed with the speed that was set last (0 if none was) when a background computation began, and at
most one computation has begun since; none has unless one is running, or its result waits to be taken over. -/
theorem C125_speed_used (env : Env K) (vehicle : V3 K) (es : List (Event K)) (s : Planner K) (h : Run env (Planner.init vehicle) es s)
    (tr : Trajectory K) (htr : s.traj = some tr) :
    ComputedWithin env es 1 tr ∧ ((∀ sp, s.future ≠ .running sp) → ¬ PlanWaiting s → ComputedWithin env es 0 tr) := by
  obtain ⟨_, _, hi⟩ := speedInv_run env vehicle es s h
  refine ⟨hi.taken tr htr, fun hr hw => hi.settled tr htr ?_⟩
  cases hf : s.future with
  | invalid => exact .inl rfl
  | launched => exact .inr rfl
  | running sp => exact absurd hf (hr sp)
  | ready tr => exact absurd (.inr ⟨tr, hf⟩) hw
  | failed => exact absurd (.inl hf) hw

/-- C125: setting the speed changes nothing about the plan in force: the same references, times and waypoints are returned, and a computation that is
already running goes on with the speed it read. -/
theorem C125_plan_kept (env : Env K) (s : Planner K) (v : K) (tr : Trajectory K) (htr : s.traj = some tr) (hw : ¬ PlanWaiting s) :
    (∀ t o f, ((s.setSpeed v).evaluateTrajectory env t o f).map (Option.map Prod.fst) = (s.evaluateTrajectory env t o f).map (Option.map Prod.fst)) ∧
    ((s.setSpeed v).getMaxTime env).map (Option.map Prod.fst) = (s.getMaxTime env).map (Option.map Prod.fst) ∧
    ((s.setSpeed v).getMinTime env).map (Option.map Prod.fst) = (s.getMinTime env).map (Option.map Prod.fst) ∧
    ((s.setSpeed v).getDynamicWaypoints env).map (Option.map Prod.fst) = (s.getDynamicWaypoints env).map (Option.map Prod.fst) ∧
    (s.setSpeed v).future = s.future := by
  have hw' : ¬ PlanWaiting (s.setSpeed v) := hw
  have htr' : (s.setSpeed v).traj = some tr := htr
  refine ⟨fun t o f => ?_, ?_, ?_, ?_, rfl⟩
  · unfold Planner.evaluateTrajectory
    rw [check_idle env s hw (by rw [htr]; simp), check_idle env _ hw' (by rw [htr']; simp)]
    simp only [bind, Except.bind]
    rw [evaluateNow_eq env s tr htr, evaluateNow_eq env _ tr htr']
    have : Planner.getReferences env (s.setSpeed v) tr (t + (s.setSpeed v).params.tOffset) (t - (s.setSpeed v).params.gtlg + (s.setSpeed v).params.tOffset) o =
        Planner.getReferences env s tr (t + s.params.tOffset) (t - s.params.gtlg + s.params.tOffset) o := rfl
    rw [this]
    cases Planner.getReferences env s tr (t + s.params.tOffset) (t - s.params.gtlg + s.params.tOffset) o <;> rfl
  · unfold Planner.getMaxTime Planner.ensureTrajectory
    simp only [htr, htr', Option.isSome_some, if_true, bind, Except.bind]
    rfl
  · unfold Planner.getMinTime Planner.ensureTrajectory
    simp only [htr, htr', Option.isSome_some, if_true, bind, Except.bind]
    rfl
  · unfold Planner.getDynamicWaypoints
    rw [check_idle env s hw (by rw [htr]; simp), check_idle env _ hw' (by rw [htr']; simp)]
    rfl

/-- The hypotheses are met: the speed is set to 2, a plan is computed and taken over, and the speed is then set to 5. The plan is the one computed with 2, the
latest computation; it is not changed, although `getSpeed` now returns 5. -/
example : Run hermiteEnv (Planner.init ⟨0, 0, 0⟩) (history1 ++ [.setSpeed 5]) (state1.setSpeed 5) ∧ (state1.setSpeed 5).getSpeed = 5 ∧
    ∃ tr, (state1.setSpeed 5).traj = some tr ∧ ComputedWithin hermiteEnv (history1 ++ [.setSpeed 5]) 0 tr ∧
      ∀ es1 es2, history1 ++ [.setSpeed 5] = es1 ++ .asyncStart :: es2 → (speedsSet es1).getLast?.getD 0 = 2 := by
  have hr : Run hermiteEnv (Planner.init ⟨0, 0, 0⟩) (history1 ++ [.setSpeed 5]) (state1.setSpeed 5) := .snoc _ state1_run rfl
  refine ⟨hr, rfl, ?_⟩
  have ht : state1.traj.isSome = true := by decide +kernel
  have hf : state1.future = .invalid := by decide +kernel
  obtain ⟨tr, htr⟩ := Option.isSome_iff_exists.mp ht
  refine ⟨tr, htr, (C125_speed_used _ _ _ _ hr tr htr).2 (fun sp h => ?_) ?_, ?_⟩
  · rw [show (state1.setSpeed 5).future = state1.future from rfl, hf] at h
    cases h
  · rintro (h | ⟨tr, h⟩) <;>
    · rw [show (state1.setSpeed 5).future = state1.future from rfl, hf] at h
      cases h
  · intro es1 es2 h
    have h1 : es1 = (history1 ++ [Event.setSpeed 5]).take es1.length := by rw [h, List.take_left]
    have h2 : (history1 ++ [Event.setSpeed 5])[es1.length]? = some .asyncStart := by rw [h]; simp
    have hl : es1.length < 14 := (List.getElem?_eq_some_iff.mp h2).1
    generalize es1.length = n at h1 h2 hl
    interval_cases n <;> first
      | (simp [history1, planEvents] at h2; done)
      | (rw [h1]; rfl)

end Verif.Properties
