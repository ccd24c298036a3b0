import Verif.Model.PlannerFloat
import Verif.Lemmas.PlannerFloat
import Verif.Lemmas.PlannerRate
import Verif.Properties.PlannerEval

/-!
# Single precision in the planner's interface (C120)

`evaluateTrajectory` takes its instant as a `float`. A caller that keeps time in `double`s gets the references for the instant rounded to 24 binary digits.
-/

set_option linter.unusedSectionVars false

namespace Verif.Properties
open Verif Verif.Spec Verif.Lemmas

variable {K : Type*} [Field K] [LinearOrder K] [IsStrictOrderedRing K] [FloorRing K]

/-- C120 in full: for every instant that is a `double` the call answers as if it were not rounded. Refuted (`C120_refuted`, `C120_frozen`); what does hold is below. -/
def C120Full (K : Type*) [Field K] [LinearOrder K] [IsStrictOrderedRing K] [FloorRing K] : Prop :=
  ∀ fl : K → K, ToNearest 24 fl → ∀ env : Env K, Segmentwise env → ∀ s, Reachable env s → ∀ t, Digits 53 t → ∀ o f,
    s.evaluateTrajectoryFloat fl env t o f = s.evaluateTrajectory env t o f

/-- C120: the call answers exactly as `evaluateTrajectory` specified in C40 does for some instant `t'` that differs from the caller's by at most 2⁻²⁴ of its size, and by
nothing if the caller's instant has 24 digits; `t'` is also what is remembered as the last evaluated instant. -/
theorem C120_time_partial (fl : K → K) (hfl : ToNearest 24 fl) (env : Env K) (henv : Segmentwise env) (s : Planner K) (h : Reachable env s) (tr : Trajectory K)
    (htr : s.traj = some tr) (hw : ¬ PlanWaiting s) (g : K) (hg : s.getMinTime env = .ok (some (g, s))) (t : K) (onlyPositions forPlotting : Bool) (r : References K)
    (s' : Planner K) (hr : s.evaluateTrajectoryFloat fl env t onlyPositions forPlotting = .ok (some (r, s'))) :
    ∃ t', |t' - t| ≤ 2⁻¹ ^ 24 * |t| ∧ (Digits 24 t → t' = t) ∧
      (∀ (k : ℕ) (v : V3 K), refOrder r k = some v → IsReference env tr s.dyn (t' - g + s.getTimeCompensation) (t' + s.getTimeCompensation) k v) ∧
      (forPlotting = false → s'.params.lastGlobal = t') := by
  refine ⟨fl t, toNearest_error (by norm_num) hfl t, fun ht => toNearest_fixed hfl ht, (C40_references env henv s h tr htr hw g hg (fl t) onlyPositions forPlotting r s' hr).1,
    ?_⟩
  rintro rfl
  have := (C40_plotting env s hw (by rw [htr]; simp) (fl t) onlyPositions r s' hr).2
  rw [this]

/-- C120: how far the answer is from the one for the caller's instant. Without compensations, for a plan whose pieces meet in the derivative `k` asked for (0: position) and whose
next derivative never exceeds `V` in any component, each component is off by at most `V` times 2⁻²⁴ of the instant. -/
theorem C120_error_partial (fl : K → K) (hfl : ToNearest 24 fl) (env : Env K) (henv : Segmentwise env) (s : Planner K) (h : Reachable env s) (tr : Trajectory K)
    (htr : s.traj = some tr) (hw : ¬ PlanWaiting s) (hm : ∀ w ∈ s.dyn, w.modifiers = []) (t : K) (onlyPositions forPlotting : Bool)
    (r : References K) (s' : Planner K) (hr : s.evaluateTrajectoryFloat fl env t onlyPositions forPlotting = .ok (some (r, s')))
    (r₀ : References K) (s₀ : Planner K) (hr₀ : s.evaluateTrajectory env t onlyPositions forPlotting = .ok (some (r₀, s₀)))
    (k : ℕ) (V : K) (hj : PiecesMeet k tr) (hV : RateBound (k + 1) tr V) (v v₀ : V3 K) (hv : refOrder r k = some v) (hv₀ : refOrder r₀ k = some v₀) (a : Axis) :
    |comp v a - comp v₀ a| ≤ V * (2⁻¹ ^ 24 * |t|) := by
  obtain ⟨hD, hne, hcons, hT, hR⟩ := traj_usable env henv s (reachable_plan env henv s h) tr htr
  have hg : s.getMinTime env = .ok (some (s.params.gtlg, s)) := by
    unfold Planner.getMinTime Planner.ensureTrajectory
    simp [htr, bind, Except.bind, pure, Except.pure]
  have h1 := (C40_references env henv s h tr htr hw _ hg (fl t) onlyPositions forPlotting r s' hr).1 k v hv
  have h2 := (C40_references env henv s h tr htr hw _ hg t onlyPositions forPlotting r₀ s₀ hr₀).1 k v₀ hv₀
  have herr : |fl t - t| ≤ 2⁻¹ ^ 24 * |t| := toNearest_error (by norm_num) hfl t
  have key := reference_rate env tr ⟨hD, hne, hcons, hT, hR⟩ s.dyn hm k V hj hV h1 h2 a
  rw [show fl t - s.params.gtlg + s.getTimeCompensation - (t - s.params.gtlg + s.getTimeCompensation) = fl t - t by ring] at key
  exact key.trans (mul_le_mul_of_nonneg_left herr (rateBound_nonneg tr ⟨hD, hne, hcons, hT, hR⟩ (k + 1) V hV))

/-- C120: the references stand still. Between 2³⁰ and 2³¹ seconds (as clocks counting from 1970 read), all instants within 64 seconds of the same multiple of 128 seconds give
the same answer and leave the same state behind; in general, all instants within half a unit of the last of 24 digits. -/
theorem C120_stalls (fl : K → K) (hfl : ToNearest 24 fl) (env : Env K) (s : Planner K) (m : ℕ) (e : ℤ) (h1 : 2 ^ 23 < m) (h2 : m < 2 ^ 24) (t t' : K)
    (ht : |t - m * 2 ^ e| < 2 ^ e / 2) (ht' : |t' - m * 2 ^ e| < 2 ^ e / 2) (o f : Bool) :
    s.evaluateTrajectoryFloat fl env t o f = s.evaluateTrajectoryFloat fl env t' o f := by
  unfold Planner.evaluateTrajectoryFloat
  rw [toNearest_cell hfl m e h1 h2 (by norm_num) ht, toNearest_cell hfl m e h1 h2 (by norm_num) ht']

/-- C120: the optimizer's contracts survive the rounding of the speed, and the speed it works with differs from the one set by at most 2⁻²⁴ of it; a speed with 24 digits is
used as it is. -/
theorem C120_speed (fl : K → K) (hfl : ToNearest 24 fl) (env : Env K) :
    (Segmentwise env → Segmentwise (env.roundedSpeed fl)) ∧ (MeetsVertices env → MeetsVertices (env.roundedSpeed fl)) ∧
    (∀ vs speed, ∃ speed', (env.roundedSpeed fl).optimize vs speed = env.optimize vs speed' ∧ |speed' - speed| ≤ 2⁻¹ ^ 24 * |speed| ∧
      (Digits 24 speed → speed' = speed)) :=
  ⟨fun h vs speed tr ht => h vs (fl speed) tr ht, fun h vs speed tr ht => h vs (fl speed) tr ht,
    fun _ speed => ⟨fl speed, rfl, toNearest_error (by norm_num) hfl speed, fun hd => toNearest_fixed hfl hd⟩⟩

/-! ### Samples -/

/-- A clock that counts from 1970: a first plan is evaluated at 2³⁰ + 1280 s, a second one is then made and taken over at the same instant. -/
def epochHistory : List (Event ℚ) :=
  [.setSpeed 2, .updateVehiclePosition ⟨0, 0, 0⟩, .setWaypoints [wp "a" 1 0 0, wp "b" 2 1 0]] ++ planEvents (1 / 100) ++
    [.evaluate (2 ^ 30 + 1280) false false, .updateVehiclePosition ⟨2, 1, 0⟩, .setWaypoints [wp "c" 3 3 0, wp "d" 2 4 0]] ++ planEvents (1 / 100) ++
    [.evaluate (2 ^ 30 + 1280) false false]

def epochState : Planner ℚ := (run? epochHistory).get (by decide +kernel)

theorem epochState_reachable : Reachable hermiteEnv epochState := by
  refine reachable_of_fresh ⟨⟨0, 0, 0⟩, epochHistory, ?_, run?_run _ _ (Option.some_get _).symm⟩
  simp [epochHistory, planEvents, FreshEvent, wp_bookkept]

/-- C120: witness of the harm. In a reachable state with a plan that takes 2 seconds, from (2, 1) to (2, 4), the position returned is the same at every instant of the plan,
whichever way ties are rounded, although the plan's position at its start and at its end differ by 2.99 metres and more. -/
theorem C120_frozen (fl : ℚ → ℚ) (hfl : ToNearest 24 fl) : ∃ s : Planner ℚ, Reachable hermiteEnv s ∧ ¬ PlanWaiting s ∧ ∃ g T : ℚ,
    s.getMinTime hermiteEnv = .ok (some (g, s)) ∧ s.getMaxTime hermiteEnv = .ok (some (g + T, s)) ∧ T = 2 ∧ Digits 24 g ∧ Digits 53 (g + T) ∧
    (∃ r₀ : References ℚ, ∀ t, g ≤ t → t ≤ g + T → s.evaluateTrajectoryFloat fl hermiteEnv t true true = .ok (some (r₀, s))) ∧
    (∃ r₁ r₂ : References ℚ, s.evaluateTrajectory hermiteEnv g true true = .ok (some (r₁, s)) ∧
      s.evaluateTrajectory hermiteEnv (g + T) true true = .ok (some (r₂, s)) ∧ 299 / 100 ≤ r₂.position.y - r₁.position.y) := by
  have hw : ¬ PlanWaiting epochState := by
    rintro (h | ⟨tr, h⟩)
    · have : epochState.future ≠ .failed := by decide +kernel
      exact this h
    · have : epochState.future = .invalid := by decide +kernel
      rw [this] at h; cases h
  have hd : Digits 24 (2 ^ 30 + 1280 : ℚ) := ⟨8388618, 7, by norm_num, by norm_num⟩
  have he : ∀ t : ℚ, t = 2 ^ 30 + 1280 ∨ t = 2 ^ 30 + 1280 + 2 → ∃ r, epochState.evaluateTrajectory hermiteEnv t true true = .ok (some (r, epochState)) ∧
      r.position.y = if t = 2 ^ 30 + 1280 then 12522273 / 12500000 else 4 := by
    rintro t (rfl | rfl)
    · exact ⟨⟨⟨50022273 / 25000000, 12522273 / 12500000, 0⟩, none, none⟩, by decide +kernel, by norm_num⟩
    · exact ⟨⟨⟨2, 4, 0⟩, none, none⟩, by decide +kernel, by norm_num⟩
  obtain ⟨r₁, h1, e1⟩ := he _ (Or.inl rfl)
  obtain ⟨r₂, h2, e2⟩ := he _ (Or.inr rfl)
  refine ⟨epochState, epochState_reachable, hw, 2 ^ 30 + 1280, 2, by decide +kernel, by decide +kernel, rfl, hd,
    ⟨536871553, 1, by norm_num, by norm_num⟩, ⟨r₁, fun t ht1 ht2 => ?_⟩, r₁, r₂, h1, h2, ?_⟩
  · have hc : fl t = ((8388618 : ℕ) : ℚ) * 2 ^ (7 : ℤ) := by
      refine toNearest_cell hfl 8388618 7 (by norm_num) (by norm_num) (by norm_num) ?_
      rw [abs_lt]
      norm_num
      constructor <;> linarith
    unfold Planner.evaluateTrajectoryFloat
    rw [hc, ← h1]
    congr 1
    norm_num
  · rw [e1, e2]
    norm_num

/-- C120: the full claim does not hold. -/
theorem C120_refuted : ¬ C120Full ℚ := by
  intro hfull
  obtain ⟨fl, hfl⟩ := toNearest_exists (K := ℚ) 24 (by norm_num)
  obtain ⟨s, hs, _, g, T, _, _, hT, hd, hd', ⟨r₀, h0⟩, r₁, r₂, h1, h2, hlt⟩ := C120_frozen fl hfl
  obtain ⟨m, e, hm, hg⟩ := hd
  have e1 := hfull fl hfl hermiteEnv hermite_segmentwise s hs g ⟨m, e, hm.trans (by norm_num), hg⟩ true true
  have e2 := hfull fl hfl hermiteEnv hermite_segmentwise s hs (g + T) hd' true true
  rw [h0 g le_rfl (by rw [hT]; linarith), h1] at e1
  rw [h0 (g + T) (by rw [hT]; linarith) le_rfl, h2] at e2
  rw [← (Prod.mk.inj (Option.some.inj (Except.ok.inj e1))).1, ← (Prod.mk.inj (Option.some.inj (Except.ok.inj e2))).1, sub_self] at hlt
  norm_num at hlt

-- The hypotheses of `C120_time_partial` and `C120_error_partial` are met: a plan of two segments, no compensations, the segments meet, and the velocity is bounded.
example : ∃ fl : ℚ → ℚ, ToNearest 24 fl ∧ Segmentwise (hermiteEnv : Env ℚ) ∧ Reachable hermiteEnv epochState ∧ ∃ tr, epochState.traj = some tr ∧ tr.segments.length = 2 ∧
    (∀ w ∈ epochState.dyn, w.modifiers = []) ∧ PiecesMeet 0 tr ∧ ∃ V, RateBound 1 tr V := by
  obtain ⟨fl, hfl⟩ := toNearest_exists (K := ℚ) 24 (by norm_num)
  have htr : epochState.traj = some (epochState.traj.get (by decide +kernel)) := by decide +kernel
  obtain ⟨-, hne, hc, hT, hR⟩ := traj_usable hermiteEnv hermite_segmentwise epochState (reachable_plan hermiteEnv hermite_segmentwise _ epochState_reachable) _ htr
  refine ⟨fl, hfl, hermite_segmentwise, epochState_reachable, _, htr, by decide +kernel, by decide +kernel, ?_, rateBound_exists _ hc hne hT hR 1⟩
  intro i s s' h1 h2
  have hl : (epochState.traj.get (by decide +kernel)).segments.length = 2 := by decide +kernel
  have hi : i = 0 := by
    have := (List.getElem?_eq_some_iff.mp h2).1
    omega
  subst hi
  have hp : ∀ s ∈ (epochState.traj.get (by decide +kernel)).segments, ∀ p ∈ s.polys, p.length ≤ 22 := fun s hs p hp => ((hR s hs).1 p hp).trans_le (hR s hs).2
  have e : ((epochState.traj.get (by decide +kernel)).segments[0]?.map fun s => (s.evaluate s.time 0).toOption) =
      ((epochState.traj.get (by decide +kernel)).segments[0 + 1]?.map fun s => (s.evaluate 0 0).toOption) := by decide +kernel
  rw [h1, h2, Option.map_some, Option.map_some, segment_evaluate_eq s _ 0 (hp s (List.mem_of_getElem? h1)), segment_evaluate_eq s' _ 0 (hp s' (List.mem_of_getElem? h2))] at e
  exact Option.some.inj (Option.some.inj e)

end Verif.Properties
