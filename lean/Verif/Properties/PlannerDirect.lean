import Verif.Lemmas.PlannerDirect
import Verif.Lemmas.PlannerRate
import Verif.Lemmas.PlannerSample
import Verif.Properties.PlannerStitch
import Verif.Properties.PlannerRoute

/-!
# Property C156: what a direct call of `generateTrajectory` does
-/

set_option linter.unusedSectionVars false

namespace Verif.Properties
open Verif Verif.Spec Verif.Lemmas

variable {K : Type*} [Field K] [LinearOrder K] [IsStrictOrderedRing K] [FloorRing K]

/-- C156 in full: if the planner is doing nothing, the waypoints handed over, at least two, become the plan the next evaluation follows. -/
def C156Full (env : Env K) : Prop :=
  ∀ (s : Planner K), ReachableBy FreshEvent env s → s.pc = .top → ∀ (ws : List (Waypoint K)) (force : Bool) (s1 : Planner K),
    2 ≤ ws.length → (∀ w ∈ ws, Bookkept w ∧ w.modifiers = []) → s.generateTrajectory ws force = some s1 →
    ∀ (dt : K) (s2 : Planner K), Run env s1 [.asyncStart, .asyncFinish dt] s2 →
    ∀ (t : K) (o : Bool) (r : References K) (s3 : Planner K), s2.evaluateTrajectory env t o false = .ok (some (r, s3)) →
      s3.dyn.map (fun w => (w.name, w.current)) = ws.map fun w => (w.name, w.current)

theorem references_position {env : Env K} {s : Planner K} {tr : Trajectory K} {g l : K} {o : Bool} {r : References K}
    (h : s.getReferences env tr g l o = .ok r) : s.evaluateModified env tr g l 0 = .ok r.position := by
  unfold Planner.getReferences at h
  simp only [bind, Except.bind] at h
  split at h
  · cases h
  · rename_i p hp
    rw [hp]
    split at h
    · rw [← Except.ok.inj h]
    · split at h
      · cases h
      · split at h
        · cases h
        · rw [← Except.ok.inj h]

/-- The state after the call and the computation. -/
theorem direct_run {env : Env K} {s s1 s2 : Planner K} {ws : List (Waypoint K)} {force : Bool} {dt : K} (h1 : s.generateTrajectory ws force = some s1)
    (h2 : Run env s1 [.asyncStart, .asyncFinish dt] s2) : s.computing = false ∧
      ((∃ tr' ws', s.computeTrajectory env s.params.speed = .ok (tr', ws') ∧
        s2 = { s with computing := true, next := ws', timeConstant := dt, future := .ready tr' }) ∨
      s2 = { s with computing := true, future := .failed }) := by
  unfold Planner.generateTrajectory at h1
  split at h1
  · cases h1
  · rename_i hc
    rw [← Option.some.inj h1] at h2
    refine ⟨by simpa using hc, ?_⟩
    obtain ⟨m, k2, k3⟩ := run_snoc_inv env _ [.asyncStart] _ _ h2
    obtain ⟨m2, k4, k1⟩ := run_snoc_inv env _ [] _ _ k2
    rw [run_nil_inv env _ m2 k4] at k1
    simp only [Planner.step, Planner.asyncStart] at k1
    rw [← Option.some.inj (Except.ok.inj k1)] at k3
    simp only [Planner.step, Planner.asyncFinish] at k3
    have hcomp : ∀ sp, Planner.computeTrajectory env { s with computing := true, future := .running s.params.speed } sp = s.computeTrajectory env sp := fun _ => rfl
    rw [hcomp] at k3
    cases hx : s.computeTrajectory env s.params.speed with
    | error e =>
      rw [hx] at k3
      cases e with
      | exc => exact Or.inr (Option.some.inj (Except.ok.inj k3)).symm
      | _ => cases k3
    | ok p =>
      rw [hx] at k3
      exact Or.inl ⟨p.1, p.2, rfl, (Option.some.inj (Except.ok.inj k3)).symm⟩

/-- C156, what is true: whatever waypoints and whatever flag are handed over, the plan in force is computed again: for the same vertices, with the speed set by now.
Its waypoints have the names and planned positions of the old one, and those that had been moved are back where they were planned. And the vehicle is taken back to the
beginning: an evaluation at `t` reads the plan at the time passed since the evaluation before the call, plus a tenth of a second, plus what the time fitting finds within three
computation times of the start. -/
theorem C156_partial (env : Env K) (henv : Segmentwise env) (s : Planner K) (hr : ReachableBy FreshEvent env s) (hpc : s.pc = .top) (tr : Trajectory K)
    (htr : s.traj = some tr) (ws : List (Waypoint K)) (force : Bool) (s1 : Planner K) (h1 : s.generateTrajectory ws force = some s1) (dt : K) (s2 : Planner K)
    (h2 : Run env s1 [.asyncStart, .asyncFinish dt] s2) (t : K) (o : Bool) (r : References K) (s3 : Planner K)
    (h3 : s2.evaluateTrajectory env t o false = .ok (some (r, s3))) :
    ∃ tr', s3.traj = some tr' ∧ (∃ vs v, env.optimize vs v = .ok tr ∧ env.optimize vs s.getSpeed = .ok tr') ∧
      List.Forall₂ (fun a b => b.name = a.name ∧ b.original = a.original ∧ b.current = a.original ∧ b.modifiers = []) s.dyn s3.dyn ∧
      ∃ i : ℕ, (i = 0 ∨ (i : K) / 10 < 3 * dt) ∧
        tr'.evaluate (max 0 (min (t - s.params.lastGlobal + (i : K) / 10 + 1 / 10) tr'.maxTime)) 0 = .ok [r.position.x, r.position.y, r.position.z] := by
  have hre := reachable_of_fresh hr
  have hlo := reachable_leftover env henv s hre
  have hfr := reachable_freshInv env henv s hr
  have hwp := reachable_wp env s hre
  obtain ⟨hc, h2⟩ := direct_run h1 h2
  have hswap : ∃ s', s2.swapTrajectory env = .ok s' ∧ Planner.evaluateNow env { s'.swapDynamicWaypoints with computing := false, generateNew := false } t o false = .ok (r, s3) := by
    have hsome : s2.traj = some tr := by rcases h2 with ⟨_, _, _, rfl⟩ | rfl <;> exact htr
    have hready : s2.computing = true ∧ s2.future.isReady = true ∧ s2.future.valid = true := by
      rcases h2 with ⟨_, _, _, rfl⟩ | rfl <;> exact ⟨rfl, rfl, rfl⟩
    unfold Planner.evaluateTrajectory Planner.checkTrajectoryGenerated at h3
    rw [hsome, hready.1, hready.2.1, hready.2.2] at h3
    simp only [Option.isNone_some, Bool.false_and, Bool.false_eq_true, if_false, Bool.and_self, if_true, bind, Except.bind] at h3
    cases hs : s2.swapTrajectory env with
    | error e => rw [hs] at h3; cases h3
    | ok s' =>
      rw [hs] at h3
      simp only [pure, Except.pure] at h3
      refine ⟨s', rfl, ?_⟩
      split at h3
      · cases h3
      · rename_i x hx
        rw [hx, ← Option.some.inj (Except.ok.inj h3)]
  obtain ⟨s', hsw, hev⟩ := hswap
  rcases h2 with ⟨tr', ws', hcomp, rfl⟩ | rfl
  · obtain ⟨vs, e1, e2, e3, e4⟩ := computeTrajectory_form env s _ tr' ws' hcomp
    have hne : s.next ≠ [] := by
      intro hn
      rw [hn] at e1
      cases e1
    obtain ⟨hfrom, hsame, hg⟩ := (hlo.again ⟨hc, Or.inl hpc⟩ tr htr).resolve_left hne
    obtain ⟨vs0, v0, f1, f2⟩ := hfrom
    have hvs : vs0 = vs := Except.ok.inj (f1.symm.trans e1)
    subst hvs
    obtain ⟨new, off, hnew, ⟨target, sf, hfit, hoff, _⟩, rfl⟩ := swapTrajectory_micro env _ s' hsw
    obtain rfl : tr' = new := by simpa using hnew
    have hu : Usable tr' := (henv vs0 _ tr' e3).1
    obtain ⟨i, p, hi, hgrid, _⟩ := timeFitting_spec env _ sf tr' hu target hfit
    rw [hoff] at hi
    simp only at hi
    unfold Planner.evaluateNow Planner.swapDynamicWaypoints at hev
    simp only [Bool.false_eq_true, if_false, bind, Except.bind] at hev
    split at hev
    · cases hev
    · rename_i refs hrefs
      obtain ⟨hrr, rfl⟩ := Prod.mk.inj (Except.ok.inj hev)
      subst hrr
      have hrel : List.Forall₂ (fun a b => b.name = a.name ∧ b.original = a.original ∧ b.current = a.original ∧ b.modifiers = []) s.next ws' := by
        have hmap := assignTimes_map (fun w : Waypoint K => (w.name, w.original, w.current, w.modifiers.isEmpty))
          (fun w i t => by simp [Waypoint.setTime, Waypoint.setIndex]) _ _ _ _ _ e4
        have h : List.Forall₂ Eq (s.next.map fun w : Waypoint K => (w.name, w.original, w.current, w.modifiers.isEmpty))
            (ws'.map fun w : Waypoint K => (w.name, w.original, w.current, w.modifiers.isEmpty)) := by
          rw [hmap, List.forall₂_eq_eq_eq]
        rw [List.forall₂_map_left_iff, List.forall₂_map_right_iff] at h
        refine forall2_imp_mem h fun a ha b hab => ?_
        obtain ⟨q1, q2⟩ := Prod.mk.inj hab
        obtain ⟨q2, q3⟩ := Prod.mk.inj q2
        obtain ⟨q3, q4⟩ := Prod.mk.inj q3
        have hm := hfr.next a ha
        refine ⟨q1.symm, q2.symm, ?_, ?_⟩
        · rw [← q3]
          exact ((hwp.next a ha).2.2.2.1 hm).symm
        · rw [hm] at q4
          simpa using q4.symm
      have hdm : ∀ w ∈ ws'.map (·.copy), w.modifiers = [] := by
        intro w hw
        obtain ⟨b, hb, rfl⟩ := List.mem_map.mp hw
        obtain ⟨a, _, hab⟩ := forall₂_left hrel b hb
        exact hab.2.2.2
      refine ⟨tr', rfl, ⟨vs0, v0, f2, e3⟩, ?_, i, hgrid, ?_⟩
      · refine forall2_comp (fun a b c hab hbc => ?_) (List.Forall₂.flip hsame) (forall2_comp (fun a b c hab hbc => ?_) hrel (forall2_map_copy ws'))
          (R := fun a b => a.name = b.name ∧ a.original = b.original)
          (S := fun a b => b.name = a.name ∧ b.original = a.original ∧ b.current = a.original ∧ b.modifiers = [])
        · exact ⟨hbc.1.trans hab.1.symm, hbc.2.1.trans hab.2.symm, hbc.2.2.1.trans hab.2.symm, hbc.2.2.2⟩
        · rw [hbc]; exact hab
      · have h0 := reference_base env tr' _ hdm (evaluateModified_ok env _ tr' hu _ _ 0 _ (references_position hrefs))
        have e : t - s.newParams.gtlg + ((i : K) / 10 + 1 / 10 - (s.params.lastGlobal - s.newParams.gtlg)) = t - s.params.lastGlobal + (i : K) / 10 + 1 / 10 := by
          ring
        simp only [hi] at h0
        rw [e] at h0
        exact h0
  · obtain ⟨new, off, hnew, _⟩ := swapTrajectory_micro env _ s' hsw
    cases hnew

/-- C156 on a planner that has no plan: the computation is undefined behaviour (it takes the last element of an empty list), whatever waypoints are handed over. -/
theorem C156_no_plan (env : Env K) (henv : Segmentwise env) (s : Planner K) (hr : Reachable env s) (hpc : s.pc = .top) (htr : s.traj = none)
    (ws : List (Waypoint K)) (force : Bool) (s1 s2 : Planner K) (h1 : s.generateTrajectory ws force = some s1) (h2 : s1.step env .asyncStart = .ok (some s2))
    (dt : K) : s2.step env (.asyncFinish dt) = .error .ub := by
  unfold Planner.generateTrajectory at h1
  split at h1
  · cases h1
  · rename_i hc
    have hn := (reachable_leftover env henv s hr).nothing ⟨by simpa using hc, Or.inl hpc⟩ htr
    rw [← Option.some.inj h1] at h2
    simp only [Planner.step, Planner.asyncStart] at h2
    rw [← Option.some.inj (Except.ok.inj h2)]
    simp only [Planner.step, Planner.asyncFinish, Planner.computeTrajectory, hn]
    rfl

/-- A planner just constructed meets the hypotheses of `C156_no_plan`; the history of `C156_jumps_back` meets those of `C156_partial`. -/
example : ∃ s1 s2 : Planner ℚ, (Planner.init ⟨0, 0, 0⟩).generateTrajectory [wp "c" 5 5 5, wp "d" 6 6 6] true = some s1 ∧ s1.step hermiteEnv .asyncStart = .ok (some s2) ∧
    s2.step hermiteEnv (.asyncFinish 1) = .error .ub :=
  ⟨_, _, rfl, rfl, C156_no_plan hermiteEnv hermite_segmentwise _ ⟨_, [], fun _ h => (by cases h), .nil⟩ rfl rfl [wp "c" 5 5 5, wp "d" 6 6 6] true _ _ rfl rfl 1⟩

/-- The call, the computation (a hundredth of a second) and an evaluation in the sample system. -/
def directly? (es : List (Event ℚ)) (ws : List (Waypoint ℚ)) (t : ℚ) : Option (References ℚ × Planner ℚ) :=
  (run? es).bind fun s => (s.generateTrajectory ws true).bind fun s1 => ((exec hermiteEnv s1 [.asyncStart, .asyncFinish (1 / 100)]).toOption.getD none).bind
    fun s2 => (s2.evaluateTrajectory hermiteEnv t false false).toOption.getD none

theorem directly?_inv {es : List (Event ℚ)} {ws : List (Waypoint ℚ)} {t : ℚ} {r : References ℚ} {s3 : Planner ℚ} (h : directly? es ws t = some (r, s3)) :
    ∃ s s1 s2, run? es = some s ∧ s.generateTrajectory ws true = some s1 ∧ Run hermiteEnv s1 [.asyncStart, .asyncFinish (1 / 100)] s2 ∧
      s2.evaluateTrajectory hermiteEnv t false false = .ok (some (r, s3)) := by
  unfold directly? at h
  obtain ⟨s, h1, h⟩ := Option.bind_eq_some_iff.mp h
  obtain ⟨s1, h2, h⟩ := Option.bind_eq_some_iff.mp h
  obtain ⟨s2, h3, h⟩ := Option.bind_eq_some_iff.mp h
  refine ⟨s, s1, s2, h1, h2, exec_run _ _ _ _ ?_, ?_⟩
  · cases hx : exec hermiteEnv s1 [.asyncStart, .asyncFinish (1 / 100)] with
    | error e => rw [hx] at h3; cases h3
    | ok o => rw [hx] at h3; exact congrArg Except.ok h3
  · cases hx : s2.evaluateTrajectory hermiteEnv t false false with
    | error e => rw [hx] at h; cases h
    | ok o => rw [hx] at h; exact congrArg Except.ok h

/-- C156 in full is false: two waypoints are handed over in flight, and the plan is still the old one. -/
theorem C156_refuted : ¬ C156Full (K := ℚ) hermiteEnv := by
  intro hfull
  have hx : (directly? history1 [wp "c" 5 5 5, wp "d" 6 6 6] 2).map (fun x : References ℚ × Planner ℚ => x.2.dyn.map fun w : Waypoint ℚ => w.name) =
      some ["", "a", "b"] := by decide +kernel
  obtain ⟨⟨r, s3⟩, hd, hn⟩ := Option.map_eq_some_iff.mp hx
  obtain ⟨s, s1, s2, h1, h2, h3, h4⟩ := directly?_inv hd
  have hs : s = state1 := by
    have : run? history1 = some state1 := (Option.some_get (x := state1?) _).symm
    exact Option.some.inj (h1.symm.trans this)
  subst hs
  have := hfull state1 state1_fresh (by decide +kernel) _ true s1 (by simp) (by simp [wp_bookkept]) h2 _ s2 h3 2 false r s3 h4
  have h5 := congrArg (List.map Prod.fst) this
  rw [List.map_map] at h5
  simp only at hn
  have h6 : s3.dyn.map (Prod.fst ∘ fun w => (w.name, w.current)) = ["", "a", "b"] := hn
  rw [h6] at h5
  simp [wp] at h5

/-- C156: the vehicle is taken back. In the second half of its route it has been evaluated at an instant and would get the same position again; but after a call of
`generateTrajectory`, and a computation of a hundredth of a second, the evaluation at that instant gives a position near the start. -/
theorem C156_jumps_back : ∃ (s s0 s1 s2 s3 : Planner ℚ) (r0 r : References ℚ), ReachableBy FreshEvent hermiteEnv s ∧ s.pc = .top ∧
    s.evaluateTrajectory hermiteEnv (7 / 5) false false = .ok (some (r0, s0)) ∧ s.generateTrajectory [] true = some s1 ∧
    Run hermiteEnv s1 [.asyncStart, .asyncFinish (1 / 100)] s2 ∧ s2.evaluateTrajectory hermiteEnv (7 / 5) false false = .ok (some (r, s3)) ∧
    1 < r0.position.x ∧ r.position.x < 1 / 10 := by
  have hx : (directly? (history1 ++ [.evaluate (7 / 5) false false]) [] (7 / 5)).map (fun x : References ℚ × Planner ℚ => decide (x.1.position.x < 1 / 10)) =
      some true := by decide +kernel
  have hy : (run? (history1 ++ [.evaluate (7 / 5) false false])).map (fun s : Planner ℚ => (decide (s.pc = .top),
      ((s.evaluateTrajectory hermiteEnv (7 / 5) false false).toOption.getD none).map fun x : References ℚ × Planner ℚ => decide (1 < x.1.position.x))) =
      some (true, some true) := by decide +kernel
  obtain ⟨⟨r, s3⟩, hd, hn⟩ := Option.map_eq_some_iff.mp hx
  obtain ⟨s, s1, s2, h1, h2, h3, h4⟩ := directly?_inv hd
  rw [h1] at hy
  obtain ⟨hp, hq⟩ := Prod.mk.inj (Option.some.inj hy)
  obtain ⟨⟨r0, s0⟩, he, hr0⟩ := Option.map_eq_some_iff.mp hq
  refine ⟨s, s0, s1, s2, s3, r0, r, ⟨_, _, ?_, run?_run _ _ h1⟩, of_decide_eq_true hp, ?_, h2, h3, h4, of_decide_eq_true hr0, of_decide_eq_true hn⟩
  · intro e he
    rcases List.mem_append.mp he with he | he
    · exact history1_fresh e he
    · simp at he
      subst he
      trivial
  · cases hx : s.evaluateTrajectory hermiteEnv (7 / 5) false false with
    | error e => rw [hx] at he; cases he
    | ok o => rw [hx] at he; exact congrArg Except.ok he

/-- C156 also with a plan the call can be undefined behaviour: after the end of the flight a request that leaves nothing to plan has emptied the list. -/
theorem C156_undefined : ∃ (s s1 s2 : Planner ℚ) (tr : Trajectory ℚ), ReachableBy FreshEvent hermiteEnv s ∧ s.pc = .top ∧ s.traj = some tr ∧
    s.generateTrajectory s.dyn true = some s1 ∧ s1.step hermiteEnv .asyncStart = .ok (some s2) ∧ ∀ dt, s2.step hermiteEnv (.asyncFinish dt) = .error .ub := by
  have hx : (run? (history1 ++ [.evaluate 100 false false, .modifyWaypoint "x" ⟨0, 0, 0⟩ true, .worker, .worker, .worker])).map
      (fun s : Planner ℚ => decide (s.pc = .top ∧ s.computing = false ∧ s.traj.isSome ∧ s.next = [])) = some true := by decide +kernel
  obtain ⟨s, hrun, hs⟩ := run?_map _ _ _ hx
  obtain ⟨h1, h2, h3, h4⟩ := of_decide_eq_true hs
  obtain ⟨tr, htr⟩ := Option.isSome_iff_exists.mp h3
  refine ⟨s, _, _, tr, ⟨_, _, ?_, hrun⟩, h1, htr, by unfold Planner.generateTrajectory; rw [h2]; rfl, rfl, fun dt => ?_⟩
  · intro e he
    rcases List.mem_append.mp he with he | he
    · exact history1_fresh e he
    · simp at he
      rcases he with rfl | rfl | rfl <;> trivial
  · simp only [Planner.step, Planner.asyncFinish, Planner.computeTrajectory, h4]
    rfl

end Verif.Properties
