import Verif.Spec.ManyPlanners
import Verif.Lemmas.PlannerPipeline

/-!
# Several planners in one process: lemmas
-/

set_option linter.unusedSectionVars false

namespace Verif.Lemmas
open Verif Verif.Spec

variable {K : Type} [Field K] [LinearOrder K] [IsStrictOrderedRing K] [FloorSemiring K] {ι : Type} [DecidableEq ι] {env : Env K}

theorem proceeds_trans {x y z : Process ι K} (h : Proceeds env x y) (h' : Proceeds env y z) : Proceeds env x z := by
  induction h' with
  | refl => exact h
  | step _ hs ih => exact .step ih hs

/-- What one planner does alone it can do in the process. -/
theorem proceeds_run (x : Process ι K) (i : ι) {es : List (Event K)} {s' : Planner K} (hes : ∀ e ∈ es, ∀ dt, e ≠ .asyncFinish dt)
    (h : Run env (x.planner i) es s') : Proceeds env x { x with planner := Function.update x.planner i s' } := by
  induction h with
  | nil => rw [Function.update_eq_self]; exact .refl
  | snoc e h1 hs ih =>
    have ih := ih (fun e he => hes e (List.mem_append_left _ he))
    refine .step ih ?_
    have := Process.Step.event (env := env) (x := { x with planner := Function.update x.planner i _ }) i e _
      (hes e (List.mem_append_right _ (List.mem_singleton.mpr rfl))) (by simpa using hs)
    simpa using this

theorem run_trans {s s' s'' : Planner K} {es es' : List (Event K)} (h : Run env s es s') (h' : Run env s' es' s'') : Run env s (es ++ es') s'' := by
  induction h' with
  | nil => simpa using h
  | snoc e _ hs ih => rw [← List.append_assoc]; exact .snoc e ih hs

theorem projection_step {x y : Process ι K} (h : x.Step env y) (i : ι) : ∃ es, Run env (x.planner i) es (y.planner i) := by
  cases h with
  | event j e p he hs =>
    by_cases hij : i = j
    · subst hij
      refine ⟨[e], ?_⟩
      simp only [Function.update_self]
      exact .snoc (es := []) e .nil hs
    · refine ⟨[], ?_⟩
      simp only [Function.update_of_ne hij]
      exact .nil
  | timer j sec v r a hr hs => exact ⟨[], .nil⟩
  | finish j dt p hd hs =>
    by_cases hij : i = j
    · subst hij
      refine ⟨[.asyncFinish dt], ?_⟩
      simp only [Function.update_self]
      exact .snoc (es := []) _ .nil hs
    · refine ⟨[], ?_⟩
      simp only [Function.update_of_ne hij]
      exact .nil

theorem projection {x y : Process ι K} (h : Proceeds env x y) (i : ι) : ∃ es, Run env (x.planner i) es (y.planner i) := by
  induction h with
  | refl => exact ⟨[], .nil⟩
  | step _ hs ih =>
    obtain ⟨es, h1⟩ := ih
    obtain ⟨es', h2⟩ := projection_step hs i
    exact ⟨es ++ es', run_trans h1 h2⟩

/-- A running computation goes on until it ends. -/
theorem running_goes_on {s s' : Planner K} {e : Event K} {v : K} (hc : Ctl s) (hf : s.future = .running v) (he : ∀ dt, e ≠ .asyncFinish dt)
    (h : s.step env e = .ok (some s')) : s'.future = .running v := by
  have hm : ∀ {s s' : Planner K}, Ctl s → s.future = .running v → Micro env e s s' → s'.future = .running v := by
    intro s s' hc hf h
    cases h with
    | takeOver _ _ new off hcomp hr he' hfit => rw [hf] at hr; cases hr
    | launch _ hp => rw [(hc.launching hp).2] at hf; cases hf
    | asyncStart _ hl => rw [hf] at hl; cases hl
    | asyncFinish _ dt => exact absurd rfl (he dt)
    | asyncFail _ dt => exact absurd rfl (he dt)
    | apply _ s1 hp ha =>
      rw [hc.idle (hc.quiet (by simp [hp]) (by simp [hp]) (by simp [hp]))] at hf
      cases hf
    | _ => exact hf
  rcases step_micro env e s s' h with rfl | h | ⟨m, h1, h2⟩
  · exact hf
  · exact hm hc hf h
  · exact hm (ctl_micro env e s m hc h1) (hm hc hf h1) h2

/-- The registry, by the position of the one timer that is not at its beginning. -/
def RegistryAt (l : List K) (r : Timing.Registry K) : TimerAt → Prop
  | .begin => (l = [] ∧ r.tags = [] ∧ r.timers = []) ∨ ∃ a, r.tags = [(solveTag, 0)] ∧ r.timers = [a] ∧ addAll Timing.window l = .ok a
  | .absent => l = [] ∧ r.tags = [] ∧ r.timers = []
  | .sized h => h = 0 ∧ l = [] ∧ r.tags = [] ∧ r.timers = []
  | .entered h => h = 0 ∧ l = [] ∧ r.tags = [(solveTag, 0)] ∧ r.timers = []
  | .appended h => h = 0 ∧ ∃ a, r.tags = [(solveTag, 0)] ∧ r.timers = [a] ∧ addAll Timing.window l = .ok a
  | .handle h => h = 0 ∧ ∃ a, r.tags = [(solveTag, 0)] ∧ r.timers = [a] ∧ addAll Timing.window l = .ok a
  | .done => ∃ a, r.tags = [(solveTag, 0)] ∧ r.timers = [a] ∧ addAll Timing.window l = .ok a

theorem registryAt_begin {l : List K} {r : Timing.Registry K} (h : RegistryAt l r .done) : RegistryAt l r .begin := .inr h

theorem registryAt_step {l : List K} {r r' : Timing.Registry K} {a a' : TimerAt} {sec : K} (h : RegistryAt l r a)
    (hs : a.step r sec = .ok (some (r', a'))) : RegistryAt (if a' = .done then l ++ [sec] else l) r' a' := by
  cases a with
  | begin =>
    simp only [TimerAt.step] at hs
    rcases h with ⟨h1, h2, h3⟩ | ⟨x, h2, h3, h4⟩
    · have : r.find solveTag = none := by simp [Timing.Registry.find, h2]
      rw [this] at hs
      cases hs
      exact ⟨h1, h2, h3⟩
    · have : r.find solveTag = some 0 := by simp [Timing.Registry.find, h2]
      rw [this] at hs
      cases hs
      exact ⟨rfl, x, h2, h3, h4⟩
  | absent =>
    cases hs
    obtain ⟨h1, h2, h3⟩ := h
    exact ⟨by rw [h3]; rfl, h1, h2, h3⟩
  | sized n =>
    cases hs
    obtain ⟨rfl, h1, h2, h3⟩ := h
    exact ⟨rfl, h1, by simp [Timing.Registry.enter, h2], h3⟩
  | entered n =>
    cases hs
    obtain ⟨rfl, rfl, h2, h3⟩ := h
    exact ⟨rfl, .init, h2, by simp [h3], rfl⟩
  | appended n =>
    cases hs
    obtain ⟨rfl, x, h2, h3, h4⟩ := h
    exact ⟨rfl, x, h2, h3, h4⟩
  | handle n =>
    obtain ⟨rfl, x, h2, h3, h4⟩ := h
    simp only [TimerAt.step, Timing.Registry.addTime, bind, Except.bind, at?, h3, List.getElem?_cons_zero] at hs
    cases hx : x.add Timing.window sec with
    | error e => rw [hx] at hs; cases hs
    | ok y =>
      rw [hx] at hs
      cases hs
      refine ⟨y, h2, rfl, ?_⟩
      rw [if_pos rfl]
      unfold addAll at h4 ⊢
      rw [List.foldlM_append, h4]
      simp only [bind, Except.bind, List.foldlM_cons, hx]
      rfl
  | done => cases hs

/-- What holds while at most one planner computes. -/
structure OneInv (x : Process ι K) (l : List K) : Prop where
  ctl : ∀ i, Ctl (x.planner i)
  active : ∀ i, x.timer i ≠ .begin → Computes x i
  one : OneComputes x
  rest : (∀ i, x.timer i = .begin) → RegistryAt l x.registry .begin
  registry : ∀ i, x.timer i ≠ .begin → RegistryAt l x.registry (x.timer i)

theorem step_not_begin {r r' : Timing.Registry K} {a a' : TimerAt} {sec : K} (hs : a.step r sec = .ok (some (r', a'))) : a' ≠ .begin := by
  rintro rfl
  cases a with
  | begin => simp only [TimerAt.step] at hs; split at hs <;> cases hs
  | handle n =>
    simp only [TimerAt.step, bind, Except.bind] at hs
    split at hs <;> cases hs
  | absent => cases hs
  | sized n => cases hs
  | entered n => cases hs
  | appended n => cases hs
  | done => cases hs

theorem oneInv {x : Process ι K} {l : List K} (h : OneAtATime env x l) : OneInv x l := by
  induction h with
  | start vehicle =>
    refine ⟨fun i => ctl_init _, fun i hi => absurd rfl hi, fun i j hi => ?_, fun _ => .inl ⟨rfl, rfl, rfl⟩, fun i hi => absurd rfl hi⟩
    obtain ⟨v, hv⟩ := hi
    cases hv
  | @event x l i e p _ he hs h1 ih =>
    refine ⟨fun j => ?_, fun j hj => ?_, h1, ih.rest, ih.registry⟩
    · by_cases hij : j = i
      · subst hij
        simp only [Function.update_self]
        exact ctl_step env e _ _ (ih.ctl j) hs
      · simp only [Function.update_of_ne hij]
        exact ih.ctl j
    · obtain ⟨v, hv⟩ := ih.active j hj
      by_cases hij : j = i
      · subst hij
        exact ⟨v, by simpa using running_goes_on (ih.ctl j) hv he hs⟩
      · exact ⟨v, by simpa [hij] using hv⟩
  | @timer x l i sec v r a _ hr hs ih =>
    have hi : Computes x i := ⟨v, hr⟩
    have hoth : ∀ j, j ≠ i → x.timer j = .begin := by
      intro j hj
      by_contra hb
      exact hj (ih.one j i (ih.active j hb) hi)
    have hreg : RegistryAt l x.registry (x.timer i) := by
      by_cases hb : x.timer i = .begin
      · rw [hb]
        exact ih.rest fun j => by
          by_cases hj : j = i
          · rw [hj, hb]
          · exact hoth j hj
      · exact ih.registry i hb
    have hnew := registryAt_step hreg hs
    have hna := step_not_begin hs
    refine ⟨ih.ctl, fun j hj => ?_, ih.one, fun hall => ?_, fun j hj => ?_⟩
    · by_cases hji : j = i
      · rw [hji]; exact hi
      · simp only [Function.update_of_ne hji] at hj
        exact absurd (hoth j hji) hj
    · have := hall i
      simp only [Function.update_self] at this
      exact absurd this hna
    · by_cases hji : j = i
      · subst hji
        simp only [Function.update_self]
        exact hnew
      · simp only [Function.update_of_ne hji] at hj
        exact absurd (hoth j hji) hj
  | @finish x l i dt p _ hd hs ih =>
    have hi : Computes x i := ih.active i (by rw [hd]; simp)
    have hoth : ∀ j, j ≠ i → x.timer j = .begin := by
      intro j hj
      by_contra hb
      exact hj (ih.one j i (ih.active j hb) hi)
    have hreg : RegistryAt l x.registry .begin := registryAt_begin (by rw [← hd]; exact ih.registry i (by rw [hd]; simp))
    have hnot : ∀ v, p.future ≠ .running v := by
      intro v hv
      simp only [Planner.step, Planner.asyncFinish] at hs
      obtain ⟨w, hw⟩ := hi
      rw [hw] at hs
      simp only at hs
      split at hs
      · cases hs; cases hv
      · cases hs; cases hv
      · cases hs
    have hcomp : ∀ j, Computes ({ x with planner := Function.update x.planner i p, timer := Function.update x.timer i .begin } : Process ι K) j →
        Computes x j := by
      rintro j ⟨v, hv⟩
      by_cases hji : j = i
      · subst hji
        simp only [Function.update_self] at hv
        exact absurd hv (hnot v)
      · simp only [Function.update_of_ne hji] at hv
        exact ⟨v, hv⟩
    refine ⟨fun j => ?_, fun j hj => ?_, fun j k hj hk => ih.one j k (hcomp j hj) (hcomp k hk), fun _ => hreg, fun j hj => ?_⟩
    · by_cases hij : j = i
      · subst hij
        simp only [Function.update_self]
        exact ctl_step env _ _ _ (ih.ctl j) hs
      · simp only [Function.update_of_ne hij]
        exact ih.ctl j
    · by_cases hji : j = i
      · subst hji; simp at hj
      · simp only [Function.update_of_ne hji] at hj
        exact absurd (hoth j hji) hj
    · by_cases hji : j = i
      · subst hji; simp at hj
      · simp only [Function.update_of_ne hji] at hj
        exact absurd (hoth j hji) hj

/-- One planner does what it could do alone, while no other computes. -/
theorem oneAtATime_run {x : Process ι K} {l : List K} (h : OneAtATime env x l) (i : ι) (ho : ∀ j, j ≠ i → ¬ Computes x j) {es : List (Event K)}
    {s' : Planner K} (hes : ∀ e ∈ es, ∀ dt, e ≠ .asyncFinish dt) (hr : Run env (x.planner i) es s') :
    OneAtATime env { x with planner := Function.update x.planner i s' } l := by
  have hone : ∀ q, OneComputes ({ x with planner := Function.update x.planner i q } : Process ι K) := by
    have : ∀ q j, Computes ({ x with planner := Function.update x.planner i q } : Process ι K) j → j = i := by
      rintro q j ⟨v, hv⟩
      by_contra hj
      simp only [Function.update_of_ne hj] at hv
      exact ho j hj ⟨v, hv⟩
    exact fun q j k hj hk => (this q j hj).trans (this q k hk).symm
  induction hr with
  | nil => rw [Function.update_eq_self]; exact h
  | @snoc es s1 s2 e h1 hs ih =>
    have ih := ih (fun e he => hes e (List.mem_append_left _ he))
    have := OneAtATime.event (env := env) (x := { x with planner := Function.update x.planner i s1 }) i e s2 ih
      (hes e (List.mem_append_right _ (List.mem_singleton.mpr rfl))) (by simpa using hs) (by simpa using hone s2)
    simpa using this

end Verif.Lemmas
