import Verif.Lemmas.PlannerSample

/-!
# Evaluating the planned trajectory (C40–C42, C61, C62)

All statements are about every state any history of events leads to. The optimizer is only known to satisfy the contract `Segmentwise`
(where assumed).
-/

set_option linter.unusedSectionVars false
set_option linter.unusedSimpArgs false

namespace Verif.Properties
open Verif Verif.Spec Verif.Lemmas

variable {K : Type*} [Field K] [LinearOrder K] [IsStrictOrderedRing K] [FloorSemiring K]

/-! ## C40 -/

theorem check_idle (env : Env K) (s : Planner K) (hw : ¬ PlanWaiting s) (ht : s.traj ≠ none) : s.checkTrajectoryGenerated env = .ok (some s) := by
  unfold Planner.checkTrajectoryGenerated
  have hr : s.future.isReady = false := by
    cases hf : s.future with
    | ready tr => exact absurd (Or.inr ⟨tr, hf⟩) hw
    | failed => exact absurd (Or.inl hf) hw
    | invalid => rfl
    | launched => rfl
    | running _ => rfl
  have hn : s.traj.isNone = false := by
    cases h : s.traj with
    | none => exact absurd h ht
    | some _ => rfl
  rw [hr, hn]
  simp

theorem evaluateNow_eq (env : Env K) (s : Planner K) (tr : Trajectory K) (htr : s.traj = some tr) (t : K) (o f : Bool) :
    s.evaluateNow env t o f = match Planner.getReferences env s tr (t + s.params.tOffset) (t - s.params.gtlg + s.params.tOffset) o with
      | .error e => .error e
      | .ok r => .ok (r, if f then s else { s with params := { s.params with lastGlobal := t, lastLocal := t - s.params.gtlg } }) := by
  have h1 : ∀ (s' : Planner K) (g l : K), s'.dyn = s.dyn → Planner.getReferences env s' tr g l o = Planner.getReferences env s tr g l o := by
    intro s' g l h
    unfold Planner.getReferences Planner.evaluateModified
    rw [h]
  unfold Planner.evaluateNow
  cases f with
  | true =>
    rw [htr]
    simp only [bind, Except.bind, if_true]
    cases Planner.getReferences env s tr (t + s.params.tOffset) (t - s.params.gtlg + s.params.tOffset) o <;> rfl
  | false =>
    simp only [htr, bind, Except.bind, Bool.false_eq_true, if_false]
    rw [h1 { s with params := { s.params with lastGlobal := t, lastLocal := t - s.params.gtlg }, traj := some tr } _ _ rfl]
    cases Planner.getReferences env s tr (t + s.params.tOffset) (t - s.params.gtlg + s.params.tOffset) o <;> rfl

/-- C40: with a plan that starts at `g` (`getMinTime`), time compensation `off` and no new plan waiting, every derivative that
`evaluateTrajectory(t)` returns is the plan's derivative at `t - g + off` (clamped) plus the compensations at `t + off`; positions are always
returned, velocities and accelerations unless only positions are asked for. -/
theorem C40_references (env : Env K) (henv : Segmentwise env) (s : Planner K) (h : Reachable env s) (tr : Trajectory K) (htr : s.traj = some tr)
    (hw : ¬ PlanWaiting s) (g : K) (hg : s.getMinTime env = .ok (some (g, s))) (t : K) (onlyPositions forPlotting : Bool) (r : References K)
    (s' : Planner K) (hr : s.evaluateTrajectory env t onlyPositions forPlotting = .ok (some (r, s'))) :
    (∀ (k : ℕ) (v : V3 K), refOrder r k = some v →
      IsReference env tr s.dyn (t - g + s.getTimeCompensation) (t + s.getTimeCompensation) k v) ∧
    (∀ k ≤ 2, (refOrder r k).isSome ↔ (k = 0 ∨ onlyPositions = false)) := by
  have hu := traj_usable env henv s (reachable_plan env henv s h) tr htr
  have hgv : g = s.params.gtlg := by
    unfold Planner.getMinTime Planner.ensureTrajectory at hg
    simp only [htr, Option.isSome_some, if_true, bind, Except.bind] at hg
    have := congrArg Prod.fst (Option.some.inj (Except.ok.inj hg))
    simp only [zero_add] at this
    exact this.symm
  subst hgv
  unfold Planner.evaluateTrajectory at hr
  rw [check_idle env s hw (by rw [htr]; simp)] at hr
  simp only [bind, Except.bind] at hr
  rw [evaluateNow_eq env s tr htr] at hr
  cases hq : Planner.getReferences env s tr (t + s.params.tOffset) (t - s.params.gtlg + s.params.tOffset) onlyPositions with
  | error e => rw [hq] at hr; cases hr
  | ok r' =>
    rw [hq] at hr
    have hrr : r' = r := congrArg Prod.fst (Option.some.inj (Except.ok.inj hr))
    subst hrr
    unfold Planner.getReferences at hq
    simp only [bind, Except.bind] at hq
    cases hp : Planner.evaluateModified env s tr (t + s.params.tOffset) (t - s.params.gtlg + s.params.tOffset) 0 with
    | error e => rw [hp] at hq; cases hq
    | ok p =>
      rw [hp] at hq
      have hp := evaluateModified_ok env s tr hu _ _ 0 p hp
      cases onlyPositions with
      | true =>
        have hq := Except.ok.inj hq
        subst hq
        refine ⟨?_, ?_⟩
        · intro k v hv
          match k, hv with
          | 0, hv => rw [← Option.some.inj hv]; exact hp
          | 1, hv => cases hv
          | 2, hv => cases hv
          | k + 3, hv => cases hv
        · intro k hk
          match k, hk with
          | 0, _ => simp [refOrder]
          | 1, _ => simp [refOrder]
          | 2, _ => simp [refOrder]
      | false =>
        simp only [Bool.false_eq_true, if_false] at hq
        cases hv : Planner.evaluateModified env s tr (t + s.params.tOffset) (t - s.params.gtlg + s.params.tOffset) 1 with
        | error e => rw [hv] at hq; cases hq
        | ok v =>
          rw [hv] at hq
          have hv := evaluateModified_ok env s tr hu _ _ 1 v hv
          cases ha : Planner.evaluateModified env s tr (t + s.params.tOffset) (t - s.params.gtlg + s.params.tOffset) 2 with
          | error e => rw [ha] at hq; cases hq
          | ok a =>
            rw [ha] at hq
            have ha := evaluateModified_ok env s tr hu _ _ 2 a ha
            have hq := Except.ok.inj hq
            subst hq
            refine ⟨?_, ?_⟩
            · intro k x hx
              match k, hx with
              | 0, hx => rw [← Option.some.inj hx]; exact hp
              | 1, hx => rw [← Option.some.inj hx]; exact hv
              | 2, hx => rw [← Option.some.inj hx]; exact ha
              | k + 3, hx => cases hx
            · intro k hk
              match k, hk with
              | 0, _ => simp [refOrder]
              | 1, _ => simp [refOrder]
              | 2, _ => simp [refOrder]

/-- C40: the call returns, unless some compensation has width zero. -/
theorem C40_returns (env : Env K) (henv : Segmentwise env) (s : Planner K) (h : Reachable env s) (tr : Trajectory K) (htr : s.traj = some tr)
    (hw : ¬ PlanWaiting s) (hz : NoZeroWidth s.dyn) (t : K) (onlyPositions forPlotting : Bool) :
    ∃ r s', s.evaluateTrajectory env t onlyPositions forPlotting = .ok (some (r, s')) := by
  have hu := traj_usable env henv s (reachable_plan env henv s h) tr htr
  unfold Planner.evaluateTrajectory
  rw [check_idle env s hw (by rw [htr]; simp)]
  simp only [bind, Except.bind]
  rw [evaluateNow_eq env s tr htr]
  obtain ⟨r, hr⟩ := getReferences_total env s tr hu hz (t + s.params.tOffset) (t - s.params.gtlg + s.params.tOffset) onlyPositions
  rw [hr]
  exact ⟨_, _, rfl⟩

/-- C40: the variant for plotting returns the same values and leaves the state alone; the other one changes only the two times of the last
evaluation. -/
theorem C40_plotting (env : Env K) (s : Planner K) (hw : ¬ PlanWaiting s) (ht : s.traj ≠ none) (t : K) (o : Bool) (r : References K)
    (s' : Planner K) : s.evaluateTrajectory env t o false = .ok (some (r, s')) →
    s.evaluateTrajectory env t o true = .ok (some (r, s)) ∧
    s' = { s with params := { s.params with lastGlobal := t, lastLocal := t - s.params.gtlg } } := by
  unfold Planner.evaluateTrajectory
  rw [check_idle env s hw ht]
  simp only [bind, Except.bind]
  cases htr : s.traj with
  | none => exact absurd htr ht
  | some tr =>
    rw [evaluateNow_eq env s tr htr, evaluateNow_eq env s tr htr]
    intro h
    cases hx : Planner.getReferences env s tr (t + s.params.tOffset) (t - s.params.gtlg + s.params.tOffset) o with
    | error e => rw [hx] at h; cases h
    | ok r' =>
      rw [hx] at h
      obtain ⟨h1, h2⟩ := Prod.mk.inj (Option.some.inj (Except.ok.inj h))
      subst h1
      refine ⟨rfl, ?_⟩
      rw [← h2]
      simp [htr]

example : ∃ tr, state1.traj = some tr ∧ ¬ PlanWaiting state1 ∧ state1.getMinTime hermiteEnv = .ok (some (0, state1)) ∧ NoZeroWidth state1.dyn := by
  refine ⟨state1.traj.get (by decide +kernel), by decide +kernel, ?_, by decide +kernel, ?_⟩
  · rintro (h | ⟨tr, h⟩)
    · have : state1.future ≠ .failed := by decide +kernel
      exact this h
    · have : state1.future = .invalid := by decide +kernel
      rw [this] at h; cases h
  · intro w hw m hm
    have : ∀ w ∈ state1.dyn, w.modifiers = [] := by decide +kernel
    rw [this w hw] at hm
    cases hm

/-! ## C41 -/

/-- C41: after any history `getSpeed` returns the value of the latest `setSpeed`, 0 if there was none. -/
theorem C41_speed (env : Env K) (vehicle : V3 K) (es : List (Event K)) (s : Planner K) (h : Run env (Planner.init vehicle) es s) :
    s.getSpeed = (speedsSet es).getLast?.getD 0 := by
  have key : s.params.speed = (speedsSet es).getLast?.getD 0 ∧ s.newParams.speed = (speedsSet es).getLast?.getD 0 := by
    refine run_induction env (Planner.init vehicle)
      (fun es s => s.params.speed = (speedsSet es).getLast?.getD 0 ∧ s.newParams.speed = (speedsSet es).getLast?.getD 0) ⟨rfl, rfl⟩ ?_ es s h
    intro es e s s' hi hs
    have hset : (speedsSet (es ++ [e])).getLast?.getD 0 = match e with
        | .setSpeed v => v
        | _ => (speedsSet es).getLast?.getD 0 := by
      unfold speedsSet
      rw [List.filterMap_append]
      cases e <;> simp
    rw [hset]
    have micro : ∀ s s', s.params.speed = s.newParams.speed → Micro env e s s' →
        (s'.params.speed = match (generalizing := false) e with | .setSpeed v => v | _ => s.params.speed) ∧ s'.newParams.speed = s'.params.speed := by
      intro s s' heq hm
      cases hm with
      | apply _ s2 hp ha =>
        obtain ⟨_, d, r, rfl, _⟩ := applyAll_rel (fun _ _ => True) (fun _ => trivial) (fun _ _ _ _ _ => trivial)
          (fun _ _ _ _ _ => trivial) _ s s2 ha
        exact ⟨rfl, heq.symm⟩
      | takeOver _ _ new off hc hr he _ =>
        refine ⟨?_, rfl⟩
        rcases he with ⟨t, o, f, rfl⟩ | rfl | rfl | rfl <;> exact heq.symm
      | _ => exact ⟨by rfl, by first | rfl | exact heq.symm⟩
    have heq : s.params.speed = s.newParams.speed := hi.1.trans hi.2.symm
    rcases step_micro env e s s' hs with rfl | hm | ⟨m, h1, h2⟩
    · cases e with
      | setSpeed v =>
        have := congrArg (fun s => s.params.speed) (Option.some.inj (Except.ok.inj hs))
        have h2 := congrArg (fun s => s.newParams.speed) (Option.some.inj (Except.ok.inj hs))
        exact ⟨this.symm, h2.symm⟩
      | _ => exact hi
    · obtain ⟨a, b⟩ := micro s s' heq hm
      rw [b]
      refine ⟨?_, ?_⟩ <;> (rw [a]; cases e <;> first | rfl | exact hi.1)
    · obtain ⟨a, b⟩ := micro s m heq h1
      obtain ⟨c, d⟩ := micro m s' b.symm h2
      rw [d]
      refine ⟨?_, ?_⟩ <;> (rw [c]; cases e <;> first | rfl | exact a.trans hi.1)
  exact key.1

example : Run hermiteEnv (Planner.init ⟨0, 0, 0⟩) history1 state1 ∧ (speedsSet history1).getLast?.getD 0 = 2 ∧ state1.getSpeed = 2 :=
  ⟨state1_run, by decide +kernel, by decide +kernel⟩

/-! ## C42 -/

/-- C42: whenever a computation is in progress (or about to be launched), its input has at least two vertices. -/
theorem C42_two_vertices (env : Env K) (s : Planner K) (h : Reachable env s) (hc : s.computing = true) :
    ∃ vs, extractVertices s.next = .ok vs ∧ 2 ≤ vs.length := by
  have h2 := (reachable_ctl env s h).next2 (Or.inr hc)
  obtain ⟨vs, hvs⟩ := extractVertices_total s.next (by rintro h; rw [h] at h2; simp at h2) (reachable_wp env s h).next
  exact ⟨vs, hvs, by rw [(extractVertices_form _ _ hvs).1]; exact h2⟩

/-- C42: a computation throws only if the optimizer throws; in particular `Not enough waypoints` is never thrown. -/
theorem C42_never_too_few (env : Env K) (henv : Segmentwise env) (s : Planner K) (h : Reachable env s) (speed dt : K)
    (hr : s.future = .running speed) (s' : Planner K) (hf : s.step env (.asyncFinish dt) = .ok (some s')) (hfail : s'.future = .failed) :
    ∃ vs, extractVertices s.next = .ok vs ∧ 2 ≤ vs.length ∧ env.optimize vs speed = .error .exc := by
  have hc := reachable_ctl env s h
  have hcomp : s.computing = true := by
    cases hcc : s.computing with
    | true => rfl
    | false => rw [hc.idle hcc] at hr; cases hr
  apply computeTrajectory_fail env henv s (reachable_wp env s h) (hc.next2 (Or.inr hcomp))
  simp only [Planner.step, Planner.asyncFinish, hr] at hf
  cases hx : s.computeTrajectory env speed with
  | ok q =>
    rw [hx] at hf
    rw [← Option.some.inj (Except.ok.inj hf)] at hfail
    cases hfail
  | error e =>
    rw [hx] at hf
    cases e with
    | exc => rfl
    | _ => cases hf

-- A computation with three vertices is running after these events.
example : ((exec hermiteEnv (Planner.init ⟨0, 0, 0⟩) (history1.take 11)).toOption.getD none).map
    (fun s => (s.computing, s.future == .running 2, s.next.length)) = some (true, true, 3) := by decide +kernel

/-! ## C61 -/

/-- C61: as long as no plan has been computed, none of the four calls returns (and nothing else happens either). -/
theorem C61_blocks (env : Env K) (s : Planner K) (hn : s.traj = none) (hw : ¬ PlanWaiting s) (t : K) (o f : Bool) :
    s.evaluateTrajectory env t o f = .ok none ∧ s.getMaxTime env = .ok none ∧ s.getMinTime env = .ok none ∧
    s.getDynamicWaypoints env = .ok none := by
  have hr : s.future.isReady = false := by
    cases hf : s.future with
    | ready tr => exact absurd (Or.inr ⟨tr, hf⟩) hw
    | failed => exact absurd (Or.inl hf) hw
    | invalid => rfl
    | launched => rfl
    | running _ => rfl
  have hc : s.checkTrajectoryGenerated env = .ok none := by
    unfold Planner.checkTrajectoryGenerated
    rw [hn, hr]; rfl
  refine ⟨?_, ?_, ?_, ?_⟩
  · unfold Planner.evaluateTrajectory; rw [hc]; rfl
  · unfold Planner.getMaxTime Planner.ensureTrajectory; rw [hn, hc]; rfl
  · unfold Planner.getMinTime Planner.ensureTrajectory; rw [hn, hc]; rfl
  · unfold Planner.getDynamicWaypoints; rw [hc]; rfl

/-- C61: conversely none of them waits once a plan was computed. -/
theorem C61_does_not_block (env : Env K) (s : Planner K) (hw : s.traj ≠ none ∨ PlanWaiting s) (t : K) (o f : Bool) :
    s.evaluateTrajectory env t o f ≠ .ok none ∧ s.getMaxTime env ≠ .ok none ∧ s.getMinTime env ≠ .ok none ∧
    s.getDynamicWaypoints env ≠ .ok none := by
  have hc : s.checkTrajectoryGenerated env ≠ .ok none := by
    unfold Planner.checkTrajectoryGenerated
    rw [if_neg]
    · split
      · simp only [bind, Except.bind]
        split
        · simp
        · intro h; cases h
      · simp
    · rcases hw with h | h | ⟨tr, h⟩
      · cases ht : s.traj with
        | none => exact absurd ht h
        | some _ => simp
      · rw [h]; simp [Future.isReady]
      · rw [h]; simp [Future.isReady]
  have he : s.ensureTrajectory env ≠ .ok none := by
    unfold Planner.ensureTrajectory
    split
    · simp
    · exact hc
  refine ⟨?_, ?_, ?_, ?_⟩
  · unfold Planner.evaluateTrajectory
    simp only [bind, Except.bind]
    split
    · simp
    · rename_i v hv
      cases v with
      | none => exact absurd hv hc
      | some s' =>
        simp only
        split
        · simp
        · intro h; cases h
  · unfold Planner.getMaxTime
    simp only [bind, Except.bind]
    split
    · simp
    · rename_i v hv
      cases v with
      | none => exact absurd hv he
      | some s' => simp only; split <;> (intro h; cases h)
  · unfold Planner.getMinTime
    simp only [bind, Except.bind]
    split
    · simp
    · rename_i v hv
      cases v with
      | none => exact absurd hv he
      | some s' => simp only; split <;> (intro h; cases h)
  · unfold Planner.getDynamicWaypoints
    simp only [bind, Except.bind]
    split
    · simp
    · rename_i v hv
      cases v with
      | none => exact absurd hv hc
      | some s' => intro h; cases h

/-- C61: complete list of the ways in which any call or any step of worker or computation can fail, in any reachable state: a compensation of
width zero evaluated at its centre (0/0); `get()` on a computation that threw (only if the optimizer threw, C42); a non-exception failure of
the optimizer. In particular there is no undefined behaviour: no missing trajectory, invalid future or empty list is ever dereferenced. -/
theorem C61_failures (env : Env K) (henv : Segmentwise env) (s : Planner K) (h : Reachable env s) (e : Event K) (x : Fail)
    (hx : s.step env e = .error x) :
    x = .nonfinite ∨ (x = .exc ∧ s.future = .failed) ∨
    (x ≠ .exc ∧ ∃ dt speed vs, e = .asyncFinish dt ∧ s.future = .running speed ∧ extractVertices s.next = .ok vs ∧
      env.optimize vs speed = .error x) := by
  have hc := reachable_ctl env s h
  have hw := reachable_wp env s h
  have hp := reachable_plan env henv s h
  have hcheck : ∀ x, s.checkTrajectoryGenerated env = .error x → x = .nonfinite ∨ (x = .exc ∧ s.future = .failed) :=
    fun x hx => check_fail env henv s hc hp x hx
  have hens : ∀ x, s.ensureTrajectory env = .error x → x = .nonfinite ∨ (x = .exc ∧ s.future = .failed) := by
    intro x hx
    unfold Planner.ensureTrajectory at hx
    split at hx
    · cases hx
    · exact hcheck x hx
  have hsome : ∀ s', s.checkTrajectoryGenerated env = .ok (some s') → s'.traj ≠ none := fun s' hs' => check_some_traj env s s' hs' hc
  have hesome : ∀ s', s.ensureTrajectory env = .ok (some s') → s'.traj ≠ none := by
    intro s' hs'
    unfold Planner.ensureTrajectory at hs'
    split at hs'
    · rename_i hi
      rw [← Option.some.inj (Except.ok.inj hs')]
      intro hn; rw [hn] at hi; cases hi
    · exact hsome s' hs'
  cases e with
  | setWaypoints ws => cases hx
  | appendWaypoint w => cases hx
  | modifyWaypoint n p g => cases hx
  | modifyWaypoints ms => cases hx
  | setSpeed v => cases hx
  | getWasTrajectoryRegenerated => cases hx
  | updateVehiclePosition p => cases hx
  | asyncStart => cases hx
  | getMaxTime =>
    rcases (hens x (by
      simp only [Planner.step, Planner.getMaxTime, bind, Except.bind] at hx
      cases he : s.ensureTrajectory env with
      | error y => rw [he] at hx; cases hx; rfl
      | ok o =>
        exfalso
        rw [he] at hx
        cases o with
        | none => cases hx
        | some s' =>
          have := hesome s' he
          simp only at hx
          cases ht : s'.traj with
          | none => exact this ht
          | some tr => simp only [ht] at hx; cases hx)) with h | h
    · exact Or.inl h
    · exact Or.inr (Or.inl h)
  | getMinTime =>
    rcases (hens x (by
      simp only [Planner.step, Planner.getMinTime, bind, Except.bind] at hx
      cases he : s.ensureTrajectory env with
      | error y => rw [he] at hx; cases hx; rfl
      | ok o =>
        exfalso
        rw [he] at hx
        cases o with
        | none => cases hx
        | some s' =>
          have := hesome s' he
          simp only at hx
          cases ht : s'.traj with
          | none => exact this ht
          | some tr => simp only [ht] at hx; cases hx)) with h | h
    · exact Or.inl h
    · exact Or.inr (Or.inl h)
  | getDynamicWaypoints =>
    rcases (hcheck x (by
      simp only [Planner.step, Planner.getDynamicWaypoints, bind, Except.bind] at hx
      cases he : s.checkTrajectoryGenerated env with
      | error y => rw [he] at hx; cases hx; rfl
      | ok o =>
        exfalso
        rw [he] at hx
        cases o with
        | none => cases hx
        | some s' => cases hx)) with h | h
    · exact Or.inl h
    · exact Or.inr (Or.inl h)
  | evaluate t o f =>
    simp only [Planner.step, Planner.evaluateTrajectory, bind, Except.bind] at hx
    cases he : s.checkTrajectoryGenerated env with
    | error y =>
      rw [he] at hx; cases hx
      rcases hcheck _ he with h | h
      · exact Or.inl h
      · exact Or.inr (Or.inl h)
    | ok opt =>
      rw [he] at hx
      cases opt with
      | none => cases hx
      | some s1 =>
        left
        simp only at hx
        have hs1 : PlanInv env s1 := by
          rcases check_micro env .getMaxTime s s1 (Or.inr (Or.inl rfl)) he with rfl | hm
          · exact hp
          · exact plan_micro env henv _ s s1 hc hw hp hm
        cases ht : s1.traj with
        | none => exact absurd ht (hsome s1 he)
        | some tr =>
          rw [evaluateNow_eq env s1 tr ht] at hx
          cases hq : Planner.getReferences env s1 tr (t + s1.params.tOffset) (t - s1.params.gtlg + s1.params.tOffset) o with
          | ok r => rw [hq] at hx; cases hx
          | error y =>
            rw [hq] at hx; cases hx
            exact getReferences_fail env s1 tr (traj_usable env henv s1 hs1 tr ht) _ _ o _ hq
  | worker =>
    left
    simp only [Planner.step, bind, Except.bind] at hx
    have hwk : s.workerStep env = .error x := by
      cases hq : s.workerStep env with
      | error y => rw [hq] at hx; cases hx; rfl
      | ok s' => rw [hq] at hx; cases hx
    unfold Planner.workerStep at hwk
    cases hpc : s.pc with
    | top => simp only [hpc] at hwk; split at hwk <;> [cases hwk; skip]; split at hwk <;> cases hwk
    | collect =>
      simp only [hpc, bind, Except.bind] at hwk
      obtain ⟨ws, hws⟩ := generateWaypoints_total s hw
      rw [hws] at hwk; cases hwk
    | collected => simp only [hpc] at hwk; split at hwk <;> cases hwk
    | snapshotted =>
      simp only [hpc, bind, Except.bind] at hwk
      split at hwk
      · rename_i hst
        cases ht : s.traj with
        | none => unfold Planner.checkStitchTrajectory at hst; rw [ht] at hst; cases hst
        | some tr =>
          cases hq : s.stitch env s.next with
          | ok ws => rw [hq] at hwk; cases hwk
          | error y =>
            rw [hq] at hwk; cases hwk
            obtain ⟨l, hl⟩ := stitch_fail env s tr ht s.next _ hq
            exact getReferences_fail env s tr (traj_usable env henv s hp tr ht) _ _ false _ hl
      · obtain ⟨r, hr⟩ := appendDrone_total s s.next
        rw [hr] at hwk; cases hwk
    | planned => simp only [hpc] at hwk; cases hwk
    | launching => simp only [hpc] at hwk; cases hwk
    | launched => simp only [hpc] at hwk; cases hwk
    | apply =>
      simp only [hpc, bind, Except.bind] at hwk
      obtain ⟨s', hs'⟩ := applyAll_total s.toModify s hw.dyn
      rw [hs'] at hwk; cases hwk
  | asyncFinish dt =>
    right; right
    simp only [Planner.step, Planner.asyncFinish] at hx
    cases hf : s.future with
    | running sp =>
      rw [hf] at hx
      simp only at hx
      have hcomp : s.computing = true := by
        cases hcc : s.computing with
        | true => rfl
        | false => have := hc.idle hcc; rw [hf] at this; cases this
      cases hq : s.computeTrajectory env sp with
      | ok q => rw [hq] at hx; cases hx
      | error y =>
        rw [hq] at hx
        obtain ⟨vs, h1, h2, h3⟩ := computeTrajectory_fail env henv s hw (hc.next2 (Or.inr hcomp)) sp y hq
        cases y with
        | exc => cases hx
        | _ => cases hx; exact ⟨by simp, dt, sp, vs, rfl, rfl, h1, h3⟩
    | _ => rw [hf] at hx; cases hx

example : Reachable hermiteEnv state1 ∧ Segmentwise (hermiteEnv : Env ℚ) := ⟨state1_reachable, hermite_segmentwise⟩

-- A fresh planner with a request: evaluation waits.
example : ((Planner.init (⟨0, 0, 0⟩ : V3 ℚ)).setWaypoints [wp "a" 1 0 0]).evaluateTrajectory hermiteEnv 0 false false = .ok none :=
  (C61_blocks _ _ rfl (by rintro (h | ⟨_, h⟩) <;> cases h) 0 false false).1

/-! ## C62 -/

/-- C62: the cumulative time of index `i` is the sum of the durations of the first `i` segments, and an index below 0 or above the number of
segments raises `out_of_range`. -/
theorem C62_cumulative_time (segs : List (Segment K)) (i : Int) :
    getCummulativeTime segs i =
      if 0 ≤ i ∧ i ≤ segs.length then .ok (((segs.take i.toNat).map (·.time)).sum) else .error .exc := by
  by_cases h : 0 ≤ i ∧ i ≤ segs.length
  · rw [if_pos h]
    obtain ⟨n, rfl⟩ := Int.eq_ofNat_of_zero_le h.1
    rw [getCummulativeTime_eq segs n (by omega)]
    rfl
  · rw [if_neg h]
    unfold getCummulativeTime
    rw [if_pos (by omega)]

example : getCummulativeTime [(⟨1, 2, []⟩ : Segment ℚ), ⟨1, 3, []⟩, ⟨1, 5, []⟩] 2 = .ok 5 := by decide +kernel
example : getCummulativeTime [(⟨1, 2, []⟩ : Segment ℚ)] 2 = .error .exc := by decide +kernel

end Verif.Properties
