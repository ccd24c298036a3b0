import Verif.Lemmas.NotANumber
import Verif.Lemmas.PlannerSample

/-!
# C144: an evaluation at an instant that is not a number

One bad timestamp should spoil only the answer to the call it was passed to. What holds: the answer consists of NaNs only, the call touches nothing
but the two stored times, a call for plotting touches nothing at all, and once an evaluation at a number follows, everything is as if the bad call had not
happened. What fails: if the worker thread takes up a request before that, the plan is joined to the current one at a NaN, the estimated
segment times are NaNs, and the check of the optimisation ends the process.
-/

set_option linter.unusedSectionVars false

namespace Verif.Properties
open Verif Verif.Spec Verif.Lemmas

section
variable {K : Type*} [Field K] [LinearOrder K] [IsStrictOrderedRing K]

/-- C144, the model: at numbers the evaluation with doubles is the planner's evaluation. -/
theorem C144_numbers (env : Env K) (s : Planner K) (c : Clocks K) (t : K) (onlyPositions forPlotting : Bool) :
    s.evaluateNowDbl env c (some t) onlyPositions forPlotting
      = (s.evaluateNow env t onlyPositions forPlotting).map fun r => (asDbl r.1, if forPlotting then c else clocksOf r.2) :=
  evaluateNowDbl_some env s c t onlyPositions forPlotting

/-- C144, the model: when all evaluations were at numbers, the round with doubles is the round of the planner's worker thread. -/
theorem C144_numbers_round (env : Env K) (s : Planner K) (hpc : s.pc = .top) (hg : s.generateNew = true) (hset : SettledPlan s) :
    s.roundDbl env (clocksOf s) = (plannerRound env s).map (Option.map (List.map Vertex.toDbl)) :=
  roundDbl_some env s hpc hg hset

/-- C144, the model: the estimated times of vertices made of numbers are those of `estimateSegmentTimes`, and the check asks for positive ones. -/
theorem C144_numbers_times (vs : List (Vertex ℝ)) (h2 : 2 ≤ vs.length) (vMax aMax : ℝ) (ts : List ℝ) (h : estimateSegmentTimes vs vMax aMax = .ok ts) :
    segmentTimesDbl Real.sqrt (vs.map Vertex.toDbl) vMax aMax = if ∀ t ∈ ts, 0 < t then .ok (ts.map some) else .error .check := by
  unfold estimateSegmentTimes at h
  rw [if_neg (by omega)] at h
  unfold segmentTimesDbl
  rw [if_neg (by rw [List.length_map]; omega), nfabianLoopDbl_some, h]
  simp only [Except.map, bind, Except.bind, checkTimesDbl]
  clear h h2
  induction ts with
  | nil => simp [pure, Except.pure]
  | cons t ts ih =>
    simp only [List.map_cons, List.mapM_cons, dbl_lt, decide_eq_true_eq, List.forall_mem_cons]
    by_cases h0 : 0 < t
    · rw [if_pos h0]
      simp only [bind, Except.bind, ih, h0, true_and]
      by_cases hr : ∀ t ∈ ts, 0 < t
      · rw [if_pos hr, if_pos hr]; rfl
      · rw [if_neg hr, if_neg hr]
    · rw [if_neg h0, if_neg (fun h => h0 h.1)]
      rfl

/-- C144, first half: the evaluation at a NaN returns, every component it returns is a NaN, it changes nothing but the two stored times, and with
`for_plotting` not even those. -/
theorem C144_answer (env : Env K) (s : Planner K) (tr : Trajectory K) (htr : s.traj = some tr) (hu : Usable tr) (hN : 4 ≤ tr.N) (c : Clocks K)
    (onlyPositions forPlotting : Bool) :
    ∃ r, s.evaluateNowDbl env c none onlyPositions forPlotting = .ok (r, if forPlotting then c else ⟨none, none⟩) ∧ AllNaN r onlyPositions := by
  unfold Planner.evaluateNowDbl
  rw [htr]
  obtain ⟨r, hr, ha⟩ := getReferencesDbl_nan env s tr hu hN onlyPositions
  refine ⟨r, ?_, ha⟩
  simp only [dbl_nan_sub, dbl_nan_add, hr, bind, Except.bind]
  rfl

/-- C144, what holds: whatever the stored times are (after any number of evaluations at NaNs, say), an evaluation at a number `t` gives what it would have
given without them, and leaves the state they would have left. -/
theorem C144_partial (env : Env K) (s : Planner K) (c : Clocks K) (t : K) (onlyPositions : Bool) :
    s.evaluateNowDbl env c (some t) onlyPositions false = s.evaluateNowDbl env (clocksOf s) (some t) onlyPositions false ∧
    ∀ r c', s.evaluateNowDbl env c (some t) onlyPositions false = .ok (r, c') →
      ∃ r₀ s₀, s.evaluateNow env t onlyPositions false = .ok (r₀, s₀) ∧ r = asDbl r₀ ∧ c' = clocksOf s₀ := by
  refine ⟨by simp [C144_numbers], ?_⟩
  intro r c' h
  rw [C144_numbers] at h
  cases hs : s.evaluateNow env t onlyPositions false with
  | error e => rw [hs] at h; cases h
  | ok x =>
    rw [hs] at h
    simp only [Except.map, Bool.false_eq_true, if_false, Except.ok.injEq, Prod.mk.injEq] at h
    exact ⟨x.1, x.2, rfl, h.1.symm, h.2.symm⟩

/-- C144, what fails: a request taken up by the worker thread while the stored times are NaNs always ends the process, for every plan and every
request. Nothing holds the worker back. -/
theorem C144_ends [FloorSemiring K] (env : Env K) (henv : Segmentwise env) (s : Planner K) (hr : Reachable env s) (tr : Trajectory K) (htr : s.traj = some tr)
    (hN : 4 ≤ tr.N) (sqrt : K → K) (vMax aMax : K) (hv : vMax ≠ 0) (ha : aMax ≠ 0) :
    pursued env sqrt s ⟨none, none⟩ vMax aMax = .error .check := by
  obtain ⟨ht, ws, hc, -⟩ := (reachable_plan env henv s hr).taken tr htr
  have hne : s.dyn ≠ [] := by
    intro h
    have := ht.1
    rw [h] at this
    simp at this
  have hu : Usable tr := by
    obtain ⟨sp, vs, -, ho⟩ := hc
    exact (henv _ _ _ ho).1
  obtain ⟨v, w, l, h1, h2, h3, h4⟩ := roundDbl_nan env s (reachable_wp env s hr) tr htr hu hN hne
  unfold pursued
  simp only [h1, bind, Except.bind, segmentTimesDbl_nan sqrt vMax aMax hv ha v w l h2 h3 h4]

end

/-- C144 in full: whatever becomes of a pending request without the evaluation at a NaN, if the process survives it then it survives it also after that
evaluation. -/
def C144Full : Prop :=
  ∀ (K : Type) [Field K] [LinearOrder K] [IsStrictOrderedRing K] [FloorSemiring K] (env : Env K) (s : Planner K) (sqrt : K → K) (vMax aMax : K)
    (onlyPositions forPlotting : Bool) (r : References (Dbl K)) (c : Clocks K) (x : Option (List (Dbl K))),
    Segmentwise env → Reachable env s → SettledPlan s → s.pc = .top → s.generateNew = true → 0 < vMax → 0 < aMax → (∀ y, 0 < y → 0 < sqrt y) →
    s.evaluateNowDbl env (clocksOf s) none onlyPositions forPlotting = .ok (r, c) → pursued env sqrt s (clocksOf s) vMax aMax = .ok x →
    pursued env sqrt s c vMax aMax ≠ .error .check

/-- A plan, and a further waypoint asked for. -/
def askedAgain : List (Event ℚ) := history1 ++ [.appendWaypoint (wp "c" 3 3 3)]

theorem sample_asked : ∃ (s : Planner ℚ) (tr : Trajectory ℚ), Reachable hermiteEnv s ∧ SettledPlan s ∧ s.pc = .top ∧ s.generateNew = true ∧
    s.traj = some tr ∧ 4 ≤ tr.N ∧ ∃ x, pursued hermiteEnv id s (clocksOf s) 1 1 = .ok (some x) := by
  obtain ⟨s, hs, hx⟩ := run?_map askedAgain (fun s => s.traj.isSome && !s.computing && decide (s.pc = .top) && s.generateNew &&
    s.traj.all (fun tr => decide (4 ≤ tr.N)) &&
    (match pursued hermiteEnv id s (clocksOf s) 1 1 with | .ok (some _) => true | _ => false)) true (by decide +kernel)
  simp only [Bool.and_eq_true, Bool.not_eq_true', decide_eq_true_eq, Option.isSome_iff_exists] at hx
  obtain ⟨⟨⟨⟨⟨⟨tr, htr⟩, hc⟩, hpc⟩, hg⟩, hN⟩, hp⟩ := hx
  refine ⟨s, tr, ⟨_, _, ?_, hs⟩, ⟨by rw [htr]; rfl, hc⟩, hpc, hg, htr, ?_, ?_⟩
  · intro e he
    rcases List.mem_append.mp he with he | he
    · exact fresh_valid (history1_fresh e he)
    · rw [List.mem_singleton.mp he]; exact (wp_bookkept _ _ _ _).1
  · rw [htr] at hN; simpa using hN
  · split at hp
    · exact ⟨_, by assumption⟩
    · cases hp

theorem C144_refuted : ¬ C144Full := by
  intro h
  obtain ⟨s, tr, hr, hset, hpc, hg, htr, hN, x, hx⟩ := sample_asked
  have hseg : Segmentwise (hermiteEnv : Env ℚ) := hermite_segmentwise
  have hu : Usable tr := by
    obtain ⟨-, ws, ⟨sp, vs, -, ho⟩, -⟩ := (reachable_plan hermiteEnv hseg s hr).taken tr htr
    exact (hseg _ _ _ ho).1
  obtain ⟨r, hr', -⟩ := C144_answer hermiteEnv s tr htr hu hN (clocksOf s) false false
  exact h ℚ hermiteEnv s id 1 1 false false r _ _ hseg hr hset hpc hg (by norm_num) (by norm_num) (fun _ hy => hy) hr' hx
    (C144_ends hermiteEnv hseg s hr tr htr hN id 1 1 (by norm_num) (by norm_num))

/-- Non-vacuity of `C144_partial` and `C144_answer`: on the sample planner an evaluation at a NaN gives NaNs, and an evaluation at a number after it gives numbers
and restores the stored times. -/
example : ∃ (s : Planner ℚ), Reachable hermiteEnv s ∧ SettledPlan s ∧
    (s.evaluateNowDbl hermiteEnv (clocksOf s) none false false).map (fun x => [decide (x.1.position = ⟨none, none, none⟩),
      decide (x.1.velocity = some ⟨none, none, none⟩), decide (x.2 = ⟨none, none⟩)]) = .ok [true, true, true] ∧
    (s.evaluateNowDbl hermiteEnv ⟨none, none⟩ (some 1) false false).map (fun x => [x.1.position.x.isSome, x.1.position.y.isSome, x.1.position.z.isSome,
      decide (x.2 = ⟨some 1, some 1⟩)]) = .ok [true, true, true, true] := by
  obtain ⟨s, hs, hx⟩ := run?_map history1 (fun s => [s.traj.isSome && !s.computing,
    decide ((s.evaluateNowDbl hermiteEnv (clocksOf s) none false false).map (fun x => [decide (x.1.position = ⟨none, none, none⟩),
      decide (x.1.velocity = some ⟨none, none, none⟩), decide (x.2 = ⟨none, none⟩)]) = .ok [true, true, true]),
    decide ((s.evaluateNowDbl hermiteEnv ⟨none, none⟩ (some 1) false false).map (fun x => [x.1.position.x.isSome, x.1.position.y.isSome, x.1.position.z.isSome,
      decide (x.2 = ⟨some 1, some 1⟩)]) = .ok [true, true, true, true])]) [true, true, true] (by decide +kernel)
  simp only [List.cons.injEq, decide_eq_true_eq, and_true, Bool.and_eq_true, Bool.not_eq_true'] at hx
  exact ⟨s, ⟨_, _, fun e he => fresh_valid (history1_fresh e he), hs⟩, hx.1, hx.2.1, hx.2.2⟩

end Verif.Properties
