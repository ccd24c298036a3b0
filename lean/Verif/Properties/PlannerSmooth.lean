import Verif.Lemmas.ModifierCont
import Verif.Lemmas.PlannerSampleReal
import Verif.Properties.PlannerFloat

/-!
# References vary continuously within a plan (C121)

As long as no other plan is taken over, a vehicle that follows the references is not asked to jump.
-/

set_option linter.unusedSectionVars false

namespace Verif.Properties
open Verif Verif.Spec Verif.Lemmas Filter Topology

section
variable {K : Type*} [Field K] [LinearOrder K] [IsStrictOrderedRing K] [FloorRing K]

theorem idle_minTime (env : Env K) (s : Planner K) (tr : Trajectory K) (htr : s.traj = some tr) : s.getMinTime env = .ok (some (s.params.gtlg, s)) := by
  unfold Planner.getMinTime Planner.ensureTrajectory
  simp [htr, Bind.bind, Except.bind, pure, Except.pure]

/-- C121, without compensations: between any two instants, inside or outside the plan, position (`k = 0`), velocity (1) and acceleration (2) change in each component by at most
the largest value `V` of the next derivative along the plan times the time between them. -/
theorem C121_rate_partial (env : Env K) (henv : Segmentwise env) (hj : JoinsSmoothly env) (s : Planner K) (h : Reachable env s) (tr : Trajectory K) (htr : s.traj = some tr)
    (hw : ¬ PlanWaiting s) (hm : ∀ w ∈ s.dyn, w.modifiers = []) (t t' : K) (o f o' f' : Bool) (r r' : References K) (q q' : Planner K)
    (hr : s.evaluateTrajectory env t o f = .ok (some (r, q))) (hr' : s.evaluateTrajectory env t' o' f' = .ok (some (r', q')))
    (k : ℕ) (hk : k ≤ 4) (V : K) (hV : RateBound (k + 1) tr V) (v v' : V3 K) (hv : refOrder r k = some v) (hv' : refOrder r' k = some v') (a : Axis) :
    |comp v a - comp v' a| ≤ V * |t - t'| := by
  have hu := traj_usable env henv s (reachable_plan env henv s h) tr htr
  have hg := idle_minTime env s tr htr
  have h1 := (C40_references env henv s h tr htr hw _ hg t o f r q hr).1 k v hv
  have h2 := (C40_references env henv s h tr htr hw _ hg t' o' f' r' q' hr').1 k v' hv'
  have key := reference_rate env tr hu s.dyn hm k V (plan_joins env henv hj s h tr htr k hk) hV h1 h2 a
  rwa [show t - s.params.gtlg + s.getTimeCompensation - (t' - s.params.gtlg + s.getTimeCompensation) = t - t' by ring] at key

/-- C121: such a bound exists for every plan. -/
theorem C121_bound (env : Env K) (henv : Segmentwise env) (s : Planner K) (h : Reachable env s) (tr : Trajectory K) (htr : s.traj = some tr) (k : ℕ) :
    ∃ V, RateBound k tr V := by
  obtain ⟨-, hne, hc, hT, hR⟩ := traj_usable env henv s (reachable_plan env henv s h) tr htr
  exact rateBound_exists tr hc hne hT hR k

end

/-- C121 in full: the position reference is a continuous function of the instant while no plan is taken over. Refuted (`C121_refuted`): a compensation is cut off 3.5 widths away
from its waypoint's time, where it still has `exp(-49/8)`, about two thousandths, of its height. -/
def C121Full : Prop :=
  ∀ env : Env ℝ, Segmentwise env → JoinsSmoothly env → env.exp = Real.exp → ∀ s, Reachable env s → ¬ PlanWaiting s → NoZeroWidth s.dyn →
    ∀ ev : ℝ → References ℝ, (∀ t, ∃ o f s', s.evaluateTrajectory env t o f = .ok (some (ev t, s'))) → ∀ a, Continuous fun t => comp (ev t).position a

/-- The plan's own part of the references is continuous, and the references are this part plus the compensations' values. -/
theorem reference_split (env : Env ℝ) (henv : Segmentwise env) (hj : JoinsSmoothly env) (s : Planner ℝ) (h : Reachable env s) (tr : Trajectory ℝ) (htr : s.traj = some tr)
    (hw : ¬ PlanWaiting s) (ev : ℝ → References ℝ) (hev : ∀ t, ∃ o f s', s.evaluateTrajectory env t o f = .ok (some (ev t, s'))) (k : ℕ) (hk : k ≤ 4)
    (v : ℝ → V3 ℝ) (hv : ∀ t, refOrder (ev t) k = some (v t)) :
    ∃ b : ℝ → V3 ℝ, (∀ a, Continuous fun t => comp (b t) a) ∧ (∀ t, t + s.getTimeCompensation ≤ 0 → v t = b t) ∧
      ∀ t, 0 < t + s.getTimeCompensation → (∀ m ∈ allMods s.dyn, ∀ a, ∃ d, (comp m a).eval env.exp (t + s.getTimeCompensation) k = .ok d) ∧
        ∀ a, comp (v t) a = comp (b t) a + ((allMods s.dyn).map fun m => modVal env.exp (comp m a) k (t + s.getTimeCompensation)).sum := by
  have hu := traj_usable env henv s (reachable_plan env henv s h) tr htr
  have hg := idle_minTime env s tr htr
  have key : ∀ t, ∃ b : V3 ℝ, _ := fun t => by
    obtain ⟨o, f, s', he⟩ := hev t
    exact reference_vals env tr s.dyn ((C40_references env henv s h tr htr hw _ hg t o f _ _ he).1 k (v t) (hv t))
  choose b hb using key
  refine ⟨b, fun a => ?_, fun t => (hb t).2.1, fun t => (hb t).2.2⟩
  obtain ⟨V, hV⟩ := C121_bound env henv s h tr htr (k + 1)
  have hV0 := rateBound_nonneg tr hu (k + 1) V hV
  refine (LipschitzWith.of_dist_le_mul (K := ⟨V, hV0⟩) fun t t' => ?_).continuous
  rw [Real.dist_eq, Real.dist_eq]
  have := base_rate tr hu k V (plan_joins env henv hj s h tr htr k hk) hV (hb t).1 (hb t').1 a
  rwa [show t - s.params.gtlg + s.getTimeCompensation - (t' - s.params.gtlg + s.getTimeCompensation) = t - t' by ring] at this

theorem evaluated_plan {K : Type*} [Field K] [LinearOrder K] [IsStrictOrderedRing K] [FloorRing K] (env : Env K) (s : Planner K) (hw : ¬ PlanWaiting s) (t : K) (o f : Bool)
    (r : References K) (s' : Planner K) (h : s.evaluateTrajectory env t o f = .ok (some (r, s'))) : ∃ tr, s.traj = some tr := by
  cases htr : s.traj with
  | some tr => exact ⟨tr, rfl⟩
  | none =>
    exfalso
    unfold Planner.evaluateTrajectory Planner.checkTrajectoryGenerated at h
    have hready : s.future.isReady = false := by
      cases hf : s.future with
      | ready tr => exact absurd (Or.inr ⟨tr, hf⟩) hw
      | failed => exact absurd (Or.inl hf) hw
      | invalid => rfl
      | launched => rfl
      | running _ => rfl
    simp [htr, hready, Bind.bind, Except.bind, pure, Except.pure] at h

/-- C121: position (`k = 0`), velocity (1) and acceleration (2) references are continuous at every instant that is at no cut-off of a compensation, nor at the instant where
compensations begin to be added (global time 0). In particular everywhere without compensations, inside and outside the plan and at its vertices. -/
theorem C121_continuous_partial (env : Env ℝ) (henv : Segmentwise env) (hj : JoinsSmoothly env) (hexp : env.exp = Real.exp) (s : Planner ℝ) (h : Reachable env s)
    (hw : ¬ PlanWaiting s) (ev : ℝ → References ℝ) (hev : ∀ t, ∃ o f s', s.evaluateTrajectory env t o f = .ok (some (ev t, s'))) (k : ℕ) (hk : k ≤ 2)
    (v : ℝ → V3 ℝ) (hv : ∀ t, refOrder (ev t) k = some (v t)) (t : ℝ) (a : Axis)
    (hcut : ∀ w ∈ s.dyn, w.name ≠ "" → ∀ m ∈ w.modifiers,
      t + s.getTimeCompensation ≠ 0 ∧ |t + s.getTimeCompensation - (comp m a).mu| ≠ 7 / 2 * (comp m a).sigma) :
    ContinuousAt (fun t => comp (v t) a) t := by
  obtain ⟨o, f, s', he⟩ := hev t
  obtain ⟨tr, htr⟩ := evaluated_plan env s hw t o f _ _ he
  obtain ⟨b, hc, h1, h2⟩ := reference_split env henv hj s h tr htr hw ev hev k (by omega) v hv
  have hcut' : ∀ m ∈ allMods s.dyn, t + s.getTimeCompensation ≠ 0 ∧ |t + s.getTimeCompensation - (comp m a).mu| ≠ 7 / 2 * (comp m a).sigma := by
    intro m hm
    obtain ⟨w, hw1, hw2, hw3⟩ := mem_allMods hm
    exact hcut w hw1 hw2 m hw3
  by_cases hnil : allMods s.dyn = []
  · refine (hc a).continuousAt.congr (Eventually.of_forall fun x => ?_)
    show comp (b x) a = comp (v x) a
    rcases le_or_gt (x + s.getTimeCompensation) 0 with hx | hx
    · rw [h1 x hx]
    · rw [(h2 x hx).2 a, hnil]; simp
  obtain ⟨m0, hm0⟩ := List.exists_mem_of_ne_nil _ hnil
  rcases lt_or_gt_of_ne (hcut' m0 hm0).1 with hneg | hpos
  · refine (hc a).continuousAt.congr ?_
    have hopen : IsOpen {x : ℝ | x + s.getTimeCompensation < 0} := isOpen_lt (by fun_prop) continuous_const
    filter_upwards [hopen.mem_nhds hneg] with x hx
    show comp (b x) a = comp (v x) a
    rw [h1 x (le_of_lt hx)]
  · have hsum : ContinuousAt (fun x => comp (b x) a + ((allMods s.dyn).map fun m => modVal env.exp (comp m a) k (x + s.getTimeCompensation)).sum) t := by
      refine (hc a).continuousAt.add (sum_continuousAt _ _ t fun m hm => ?_)
      obtain ⟨d, hd⟩ := (h2 t hpos).1 m hm a
      rw [hexp] at hd ⊢
      have := modVal_continuousAt (comp m a) k hk _ d hd (hcut' m hm).2
      exact ContinuousAt.comp (g := modVal Real.exp (comp m a) k) (f := fun x => x + s.getTimeCompensation) this (by fun_prop)
    refine hsum.congr ?_
    have hopen : IsOpen {x : ℝ | 0 < x + s.getTimeCompensation} := isOpen_lt continuous_const (by fun_prop)
    filter_upwards [hopen.mem_nhds hpos] with x hx
    show _ = comp (v x) a
    rw [(h2 x hx).2 a]

/-- C121: and where a compensation is cut off the position reference jumps by at most `exp(-49/8)` (less than 0.0022) times the sum of the compensations' heights. -/
theorem C121_jump_partial (env : Env ℝ) (henv : Segmentwise env) (hj : JoinsSmoothly env) (hexp : env.exp = Real.exp) (s : Planner ℝ) (h : Reachable env s)
    (hw : ¬ PlanWaiting s) (hq : ∀ w ∈ s.dyn, ∀ m ∈ w.modifiers, ∀ a, (comp m a).sigmaSq = (comp m a).sigma * (comp m a).sigma)
    (ev : ℝ → References ℝ) (hev : ∀ t, ∃ o f s', s.evaluateTrajectory env t o f = .ok (some (ev t, s'))) (t : ℝ) (ht : 0 < t + s.getTimeCompensation) (a : Axis)
    (ε : ℝ) (hε : 0 < ε) :
    ∃ δ > 0, ∀ t', |t' - t| < δ → |comp (ev t').position a - comp (ev t).position a| ≤
      Real.exp (-(49 / 8)) * (((s.dyn.filter fun w => w.name ≠ "").flatMap (·.modifiers)).map fun m => |(comp m a).increment|).sum + ε := by
  obtain ⟨o, f, s', he⟩ := hev t
  obtain ⟨tr, htr⟩ := evaluated_plan env s hw t o f _ _ he
  obtain ⟨b, hc, h1, h2⟩ := reference_split env henv hj s h tr htr hw ev hev 0 (by omega) (fun t => (ev t).position) (fun t => rfl)
  simp only [Nat.cast_zero] at h2
  rw [hexp] at h2
  have hjump := sum_jump (allMods s.dyn) (fun m x => modVal Real.exp (comp m a) 0 x) (fun m x => inside (comp m a) 0 x)
    (fun m => Real.exp (-(49 / 8)) * |(comp m a).increment|) (t + s.getTimeCompensation) (fun m hm => by
      obtain ⟨w, hw1, _, hw3⟩ := mem_allMods hm
      obtain ⟨d, hd⟩ := (h2 t ht).1 m hm a
      exact modVal_jump (comp m a) (hq w hw1 m hw3 a) _ d hd)
  have hshift : Tendsto (fun x : ℝ => x + s.getTimeCompensation) (𝓝 t) (𝓝 (t + s.getTimeCompensation)) := by
    have : ContinuousAt (fun x : ℝ => x + s.getTimeCompensation) t := by fun_prop
    exact this
  have hjump' := hshift.eventually hjump
  -- the continuous part
  have hcont : ContinuousAt (fun x => |comp (b x) a - comp (b t) a| +
      ((allMods s.dyn).map fun m => |inside (comp m a) 0 (x + s.getTimeCompensation) - inside (comp m a) 0 (t + s.getTimeCompensation)|).sum) t := by
    refine ContinuousAt.add ?_ (sum_continuousAt _ _ t fun m _ => ?_)
    · exact (((hc a).continuousAt).sub continuousAt_const).abs
    · have := (inside_continuous (comp m a) 0).comp (continuous_id.add continuous_const : Continuous fun x : ℝ => x + s.getTimeCompensation)
      exact (this.continuousAt.sub continuousAt_const).abs
  have hsmall : ∀ᶠ x in 𝓝 t, |comp (b x) a - comp (b t) a| +
      ((allMods s.dyn).map fun m => |inside (comp m a) 0 (x + s.getTimeCompensation) - inside (comp m a) 0 (t + s.getTimeCompensation)|).sum < ε := by
    refine hcont.eventually_lt continuousAt_const ?_
    simpa using hε
  have hopen : IsOpen {x : ℝ | 0 < x + s.getTimeCompensation} := isOpen_lt continuous_const (by fun_prop)
  have hall := hjump'.and (hsmall.and (hopen.mem_nhds ht))
  obtain ⟨δ, hδ, hd⟩ := Metric.eventually_nhds_iff.mp hall
  refine ⟨δ, hδ, fun t' ht' => ?_⟩
  obtain ⟨e1, e2, e3⟩ := hd (show dist t' t < δ by rwa [Real.dist_eq])
  rw [(h2 t' e3).2 a, (h2 t ht).2 a]
  have e4 := abs_add_le (comp (b t') a - comp (b t) a) (((allMods s.dyn).map fun m => modVal Real.exp (comp m a) 0 (t' + s.getTimeCompensation)).sum -
    ((allMods s.dyn).map fun m => modVal Real.exp (comp m a) 0 (t + s.getTimeCompensation)).sum)
  have e5 : ((allMods s.dyn).map fun m => Real.exp (-(49 / 8)) * |(comp m a).increment|).sum =
      Real.exp (-(49 / 8)) * ((allMods s.dyn).map fun m => |(comp m a).increment|).sum := List.sum_map_mul_left _ _ _
  rw [e5] at e1
  unfold allMods at *
  rw [show ∀ x y z w : ℝ, x + y - (z + w) = (x - z) + (y - w) from fun _ _ _ _ => by ring]
  linarith

/-! ### Samples -/

theorem realState_idle : ¬ PlanWaiting realState := by
  rintro (h | ⟨tr, h⟩) <;> cases h

theorem realState_width : NoZeroWidth realState.dyn := by
  intro w hw m hm a
  simp only [realState, realWaypoints, List.mem_cons, List.not_mem_nil, or_false] at hw
  rcases hw with rfl | rfl
  · cases hm
  · simp only [List.mem_singleton] at hm
    subst hm
    cases a <;> norm_num [realModifier, comp]

theorem realState_evaluates : ∃ ev : ℝ → References ℝ, ∀ t, ∃ o f s', realState.evaluateTrajectory realEnv t o f = .ok (some (ev t, s')) := by
  have := fun t : ℝ => C40_returns realEnv realEnv_segmentwise realState realState_reachable realPlan rfl realState_idle realState_width t true true
  choose ev s' h using this
  exact ⟨ev, fun t => ⟨true, true, s' t, h t⟩⟩

/-- After the plan's end, where the plan's own position stands still: the reference in the sample state is the end position plus the compensation. -/
theorem realState_after (ev : ℝ → References ℝ) (hev : ∀ t, ∃ o f s', realState.evaluateTrajectory realEnv t o f = .ok (some (ev t, s'))) :
    ∃ x, ∀ t, 1 ≤ t → (ev t).position.x = x + modVal Real.exp realModifier.x 0 (t + 1 / 10) := by
  have key : ∀ t, 1 ≤ t → ∃ b : V3 ℝ, realPlan.evaluate 1 0 = .ok [b.x, b.y, b.z] ∧ (ev t).position.x = b.x + modVal Real.exp realModifier.x 0 (t + 1 / 10) := by
    intro t ht
    obtain ⟨o, f, s', he⟩ := hev t
    obtain ⟨b, hb, -, h2⟩ := reference_vals realEnv realPlan realState.dyn ((C40_references realEnv realEnv_segmentwise realState realState_reachable realPlan rfl realState_idle _
      (idle_minTime realEnv realState realPlan rfl) t o f _ _ he).1 0 (ev t).position rfl)
    have e1 : max 0 (min (t - realState.params.gtlg + realState.getTimeCompensation) realPlan.maxTime) = 1 := by
      show max 0 (min (t - 0 + 1 / 10) (1 : ℝ)) = 1
      rw [min_eq_right (by linarith), max_eq_right (by norm_num)]
    have e2 : t + realState.getTimeCompensation = t + 1 / 10 := rfl
    rw [e1] at hb
    rw [e2] at h2
    have h3 := (h2 (by linarith)).2 .x
    have e3 : allMods realState.dyn = [realModifier] := by simp [allMods, realState, realWaypoints]
    rw [e3] at h3
    refine ⟨b, hb, ?_⟩
    simpa [comp, realEnv] using h3
  obtain ⟨b, hb, _⟩ := key 1 le_rfl
  refine ⟨b.x, fun t ht => ?_⟩
  obtain ⟨b', hb', h'⟩ := key t ht
  rw [hb] at hb'
  have := Except.ok.inj hb'
  simp only [List.cons.injEq] at this
  rw [this.1]; exact h'

/-- C121: the full claim does not hold. In the sample state the position reference falls by `exp(-49/8)` metres right after 1 + 63/16 - 0.1 s. -/
theorem C121_refuted : ¬ C121Full := by
  intro hfull
  obtain ⟨ev, hev⟩ := realState_evaluates
  obtain ⟨x, hx⟩ := realState_after ev hev
  have hc := (hfull realEnv realEnv_segmentwise (hermite_joins Real.exp) rfl realState realState_reachable realState_idle realState_width ev hev .x).continuousAt (x := 79 / 16 - 1 / 10)
  have hat : (ev (79 / 16 - 1 / 10)).position.x = x + Real.exp (-(49 / 8)) := by
    rw [hx _ (by norm_num)]
    congr 1
    have e := modVal_inside (m := realModifier.x) (t := 79 / 16 - 1 / 10 + 1 / 10) (k := 0) (by omega) (by norm_num [realModifier]) (by norm_num [realModifier])
      (by norm_num [realModifier])
    simp only [Nat.cast_zero] at e
    rw [e, inside_cutoff (by norm_num [realModifier]) (by norm_num [realModifier]) (by norm_num [realModifier])]
    norm_num [realModifier]
  have hafter : ∀ t : ℝ, 79 / 16 - 1 / 10 < t → (ev t).position.x = x := by
    intro t ht
    rw [hx t (by linarith), modVal_outside, add_zero]
    show 7 / 2 * (9 / 8) < |t + 1 / 10 - 1|
    rw [abs_of_pos (by linarith)]
    linarith
  have hlim : Tendsto (fun t => (ev t).position.x) (𝓝[>] (79 / 16 - 1 / 10)) (𝓝 (ev (79 / 16 - 1 / 10)).position.x) := tendsto_nhdsWithin_of_tendsto_nhds hc
  have hlim' : Tendsto (fun t => (ev t).position.x) (𝓝[>] (79 / 16 - 1 / 10)) (𝓝 x) := by
    refine tendsto_const_nhds.congr' ?_
    filter_upwards [self_mem_nhdsWithin] with t ht
    exact (hafter t ht).symm
  have := tendsto_nhds_unique hlim hlim'
  rw [hat] at this
  linarith [Real.exp_pos (-(49 / 8))]

-- The hypotheses of `C121_continuous_partial` and `C121_jump_partial` are met by a plan with a compensation, at an instant inside its window.
example : Segmentwise realEnv ∧ JoinsSmoothly realEnv ∧ realEnv.exp = Real.exp ∧ Reachable realEnv realState ∧ ¬ PlanWaiting realState ∧
    (∃ ev : ℝ → References ℝ, ∀ t, ∃ o f s', realState.evaluateTrajectory realEnv t o f = .ok (some (ev t, s'))) ∧
    (∀ w ∈ realState.dyn, ∀ m ∈ w.modifiers, ∀ a, (comp m a).sigmaSq = (comp m a).sigma * (comp m a).sigma) ∧
    ∀ w ∈ realState.dyn, w.name ≠ "" → ∀ m ∈ w.modifiers, (1 / 2 : ℝ) + realState.getTimeCompensation ≠ 0 ∧
      |1 / 2 + realState.getTimeCompensation - (comp m .x).mu| ≠ 7 / 2 * (comp m .x).sigma := by
  refine ⟨realEnv_segmentwise, hermite_joins _, rfl, realState_reachable, realState_idle, realState_evaluates, ?_, ?_⟩
  · intro w hw m hm a
    simp only [realState, realWaypoints, List.mem_cons, List.not_mem_nil, or_false] at hw
    rcases hw with rfl | rfl
    · cases hm
    · simp only [List.mem_singleton] at hm
      subst hm
      cases a <;> norm_num [realModifier, comp]
  · intro w hw _ m hm
    simp only [realState, realWaypoints, List.mem_cons, List.not_mem_nil, or_false] at hw
    rcases hw with rfl | rfl
    · cases hm
    · simp only [List.mem_singleton] at hm
      subst hm
      norm_num [realModifier, comp, Planner.getTimeCompensation, realState, abs_of_neg]

-- The hypotheses of `C121_rate_partial` are met by the second plan of `epochState`, which has two segments.
example : Segmentwise (hermiteEnv : Env ℚ) ∧ JoinsSmoothly (hermiteEnv : Env ℚ) ∧ Reachable hermiteEnv epochState ∧ ¬ PlanWaiting epochState ∧
    (∀ w ∈ epochState.dyn, w.modifiers = []) ∧ ∃ tr, epochState.traj = some tr ∧ tr.segments.length = 2 ∧ ∃ V, RateBound 1 tr V := by
  refine ⟨hermite_segmentwise, hermite_joins _, epochState_reachable, ?_, by decide +kernel, epochState.traj.get (by decide +kernel), by decide +kernel, by decide +kernel, ?_⟩
  · rintro (h | ⟨tr, h⟩)
    · have : epochState.future ≠ .failed := by decide +kernel
      exact this h
    · have : epochState.future = .invalid := by decide +kernel
      rw [this] at h; cases h
  · exact C121_bound _ hermite_segmentwise _ epochState_reachable _ (by decide +kernel) 1

end Verif.Properties
