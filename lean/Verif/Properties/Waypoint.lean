import Mathlib.Analysis.SpecialFunctions.ExpDeriv
import Mathlib.Analysis.Calculus.Deriv.Pow
import Verif.Lemmas.Waypoint

/-!
# Waypoint updates and the compensation they add to the trajectory (C33–C39)

`K = ℝ`, exact arithmetic, `exp = Real.exp`.
-/

set_option linter.unusedSectionVars false
set_option linter.unusedSimpArgs false

namespace Verif.Properties
open Verif Verif.Spec Verif.Lemmas

/-- A waypoint at the origin, named `w`, to be reached at time 10. -/
noncomputable def sampleWaypoint : Waypoint ℝ :=
  { vertex := ⟨3, [(0, [0, 0, 0])]⟩, original := ⟨0, 0, 0⟩, current := ⟨0, 0, 0⟩, time := 10, name := "w", index := 1,
    modifiers := [], lastSigma := 3 / 2 }

/-! ## C33 -/

theorem width_pos (T τ s : ℝ) (hs : 0 < s) (h : 0 < τ → τ < T) (a : Axis) : 0 < width T τ s a := by
  unfold width sigmaCoefficient
  by_cases hτ : 0 < τ
  · have := h hτ
    cases a <;> simp only [hτ, if_true] <;> linarith
  · cases a <;> simp only [hτ, if_false] <;> positivity

theorem tracked_inv {w0 w : Waypoint ℝ} (h : Tracked w0 w) (hm : w0.modifiers = []) (hs : 0 < w0.lastSigma)
    (ho : w0.original = w0.current) :
    0 < w.lastSigma ∧ w.original = w0.original ∧
    (∀ m ∈ w.modifiers, ∀ a, 0 < (comp m a).sigma ∧ (comp m a).sigmaSq ≠ 0 ∧ (comp m a).mu = w.time ∧
      ((comp m a).increment = 0 ∨ 2 / 100 ≤ |(comp m a).increment|)) ∧
    ∀ a, (w.modifiers.map (fun m => (comp m a).increment)).sum = comp w.current a - comp w.original a := by
  induction h with
  | refl => exact ⟨hs, rfl, by simp [hm], by simp [hm, ho]⟩
  | @update w' w'' p τ _ hstep htime hset ih =>
    obtain ⟨i1, i2, i3, i4⟩ := ih
    obtain ⟨v, m, _, rfl, hma⟩ := setCurrentPosition_spec w' w'' p τ hset
    have hw := width_pos w'.time τ w'.lastSigma i1 htime
    refine ⟨?_, i2, ?_, ?_⟩
    · by_cases hτ : 0 < τ
      · simpa [hτ] using i1
      · simp only [hτ, if_false, sigmaCoefficient]; positivity
    · intro m' hm' a
      rcases List.mem_append.mp hm' with h | h
      · exact i3 m' h a
      · rw [List.mem_singleton.mp h, hma a]
        refine ⟨hw a, (mul_pos (hw a) (hw a)).ne', rfl, ?_⟩
        rcases hstep a with h | h
        · left; simp [h]
        · right; exact h
    · intro a
      simp only [List.map_append, List.map_cons, List.map_nil, List.sum_append, List.sum_cons, List.sum_nil, hma a, i4 a]
      ring
  | retime t _ ih =>
    obtain ⟨i1, i2, i3, i4⟩ := ih
    refine ⟨i1, i2, ?_, ?_⟩
    · intro m hm a
      obtain ⟨m', hm', rfl⟩ := List.mem_map.mp hm
      obtain ⟨j1, j2, _, j4⟩ := i3 m' hm' a
      cases a <;> exact ⟨j1, j2, rfl, j4⟩
    · intro a
      simp only [Waypoint.setTime, List.map_map]
      rw [← i4 a]
      congr 1
      apply List.map_congr_left
      intro m _
      cases a <;> rfl

/-- C33: after any history of updates and re-timings, the compensation at the waypoint's time is current minus planned position. -/
theorem C33_waypoint_is_reached (w0 w : Waypoint ℝ) (h : Tracked w0 w) (hm : w0.modifiers = []) (hs : 0 < w0.lastSigma)
    (ho : w0.original = w0.current) :
    w.trajectoryCompensation Real.exp w.time 0 = .ok (w.current.sub w0.original) := by
  obtain ⟨_, i2, i3, i4⟩ := tracked_inv h hm hs ho
  obtain ⟨r, hr, hra⟩ := compensationLoop_ok Real.exp w.time 0 (fun m a => (comp m a).increment) w.modifiers
    (fun m hm a => by
      obtain ⟨j1, j2, j3, j4⟩ := i3 m hm a
      exact eval_at_center _ j1 j2 _ j3.symm j4) V3.zero
  unfold Waypoint.trajectoryCompensation
  rw [hr]
  congr 1
  apply comp_ext
  intro a
  rw [hra a, i4 a, i2]
  cases a <;> simp [comp, V3.zero, V3.sub]

/-- C33: and such an update of a three-dimensional waypoint never fails. -/
theorem C33_update_succeeds (w : Waypoint ℝ) (h : w.vertex.D = 3) (p : V3 ℝ) (τ : ℝ) : ∃ w', w.setCurrentPosition p τ = .ok w' ∧
    w'.vertex.D = 3 ∧ w'.current = p ∧ w'.time = w.time := by
  obtain ⟨w', hw'⟩ := setCurrentPosition_ok w p τ h
  obtain ⟨v, m, hv, rfl, _⟩ := setCurrentPosition_spec w w' p τ hw'
  exact ⟨_, hw', by rw [← h]; exact (addConstraint_inv hv).2.1, rfl, rfl⟩

/-- `n` updates of one centimetre each along the first axis. -/
inductive SmallSteps : ℕ → Waypoint ℝ → Waypoint ℝ → Prop
  | zero (w : Waypoint ℝ) : SmallSteps 0 w w
  | succ {n : ℕ} {w w' w'' : Waypoint ℝ} : SmallSteps n w w' →
      w'.setCurrentPosition ⟨w'.current.x + 1 / 100, w'.current.y, w'.current.z⟩ 1 = .ok w'' → SmallSteps (n + 1) w w''

/-- C33: without the 2 cm condition the claim is false, and the error is unbounded: 100 n updates of one centimetre move the waypoint by
n metres and the compensation stays zero at all times. -/
theorem C33_small_updates_never_applied (n : ℕ) : ∃ w, SmallSteps (100 * n) sampleWaypoint w ∧ w.current.x - w.original.x = n ∧
    ∀ t k, w.trajectoryCompensation Real.exp t k = .ok V3.zero := by
  have key : ∀ k : ℕ, ∃ w, SmallSteps k sampleWaypoint w ∧ w.vertex.D = 3 ∧ w.original = ⟨0, 0, 0⟩ ∧
      w.current.x = k / 100 ∧ ∀ t j, w.trajectoryCompensation Real.exp t j = .ok V3.zero := by
    intro k
    induction k with
    | zero => exact ⟨sampleWaypoint, .zero _, rfl, rfl, by simp [sampleWaypoint], fun t j => rfl⟩
    | succ k ih =>
      obtain ⟨w, h1, h2, h3, h4, h5⟩ := ih
      obtain ⟨w', hw'⟩ := setCurrentPosition_ok w ⟨w.current.x + 1 / 100, w.current.y, w.current.z⟩ 1 h2
      have hstep := SmallSteps.succ h1 hw'
      obtain ⟨v, m, hv, rfl, hma⟩ := setCurrentPosition_spec _ _ _ _ hw'
      refine ⟨_, hstep, (addConstraint_inv hv).2.1.trans h2, h3, ?_, ?_⟩
      · simp only [h4]; push_cast; ring
      · intro t j
        rw [compensation_append Real.exp w _ m rfl t j V3.zero (h5 t j) V3.zero]
        · simp [V3.add, V3.zero]
        · intro a
          rw [hma a]
          rw [eval_small]
          · cases a <;> rfl
          · cases a <;> simp [comp] <;> norm_num [abs_of_pos]
  obtain ⟨w, h1, _, h3, h4, h5⟩ := key (100 * n)
  refine ⟨w, h1, ?_, h5⟩
  rw [h3, h4]; push_cast; ring

-- Two updates and a re-timing of the sample waypoint satisfy the hypotheses.
example : ∃ w, Tracked sampleWaypoint w ∧ w.current = ⟨1, 1, 0⟩ ∧ w.time = 12 := by
  obtain ⟨w1, h1, d1, c1, t1⟩ := C33_update_succeeds sampleWaypoint rfl ⟨1, 0, 0⟩ 4
  obtain ⟨w2, h2, _, c2, _⟩ := C33_update_succeeds w1 d1 ⟨1, 1, 0⟩ 0
  refine ⟨w2.setTime 12, .retime 12 (.update _ _ (.update _ _ (.refl _) ?_ ?_ h1) ?_ ?_ h2), c2, rfl⟩
  · intro a; cases a <;> simp [comp, sampleWaypoint]; norm_num
  · intro _; simp [sampleWaypoint]; norm_num
  · intro a; rw [c1]; cases a <;> simp [comp]; norm_num
  · intro h; exact absurd h (lt_irrefl _)

/-! ## C34 -/

/-- Width of the bump an update at time `τ` (0: unknown) creates on each axis of a waypoint with time `T` and sigma memory `s`. -/
noncomputable def updateWidth (T τ s : ℝ) (a : Axis) : ℝ :=
  if 0 < τ then (T - τ) / 3 else s * (3 / 4) ^ (match a with | .x => 1 | .y => 2 | .z => 3)

theorem updateWidth_eq (T τ s : ℝ) (a : Axis) : width T τ s a = updateWidth T τ s a := by
  unfold width updateWidth sigmaCoefficient
  cases a <;> dsimp only <;> (by_cases h : 0 < τ) <;> simp only [h, if_true, if_false] <;> ring

/-- C34: closed form of the effect of one update: a Gaussian bump cut off at 3.5 widths, on the axes that move by at least 2 cm. -/
theorem C34_effect_of_update (w w' : Waypoint ℝ) (p : V3 ℝ) (τ : ℝ) (h : w.setCurrentPosition p τ = .ok w') (t : ℝ) (c c' : V3 ℝ)
    (hpos : ∀ a, updateWidth w.time τ w.lastSigma a ≠ 0)
    (hc : w.trajectoryCompensation Real.exp t 0 = .ok c) (hc' : w'.trajectoryCompensation Real.exp t 0 = .ok c') (a : Axis) :
    comp c' a - comp c a =
      if |comp p a - comp w.current a| < 2 / 100 ∨ 7 / 2 * updateWidth w.time τ w.lastSigma a < |t - w.time| then 0
      else bump w.time (updateWidth w.time τ w.lastSigma a) (comp p a - comp w.current a) t := by
  obtain ⟨v, m, _, hw', hma⟩ := setCurrentPosition_spec w w' p τ h
  have hmod : w'.modifiers = w.modifiers ++ [m] := by rw [hw']
  let g : Axis → ℝ := fun a =>
    if |comp p a - comp w.current a| < 2 / 100 ∨ 7 / 2 * updateWidth w.time τ w.lastSigma a < |t - w.time| then 0
      else bump w.time (updateWidth w.time τ w.lastSigma a) (comp p a - comp w.current a) t
  have hev : ∀ a, (comp m a).eval Real.exp t 0 = .ok (comp (⟨g .x, g .y, g .z⟩ : V3 ℝ) a) := by
    intro a
    have hg : comp (⟨g .x, g .y, g .z⟩ : V3 ℝ) a = g a := by cases a <;> rfl
    rw [hg, hma a, updateWidth_eq]
    by_cases h1 : |comp p a - comp w.current a| < 2 / 100
    · rw [eval_small _ _ _ _ h1]
      simp only [g, h1, true_or, if_true]
    · by_cases h2 : 7 / 2 * updateWidth w.time τ w.lastSigma a < |t - w.time|
      · rw [eval_outside _ _ _ _ h2]
        simp only [g, h2, or_true, if_true]
      · rw [(eval_active Real.exp _ t (not_lt.mp h1) (not_lt.mp h2) (mul_ne_zero (hpos a) (hpos a))).1]
        simp only [g, h1, h2, or_self, if_false, bump]
        rw [mul_comm]
        congr 3
        ring
  have := compensation_append Real.exp w w' m hmod t 0 c hc _ hev
  rw [hc'] at this
  rw [Except.ok.inj this]
  cases a <;> simp [comp, V3.add, g]

theorem bump_le (T σ δ t : ℝ) : |bump T σ δ t| ≤ |δ| := by
  unfold bump
  rw [abs_mul, abs_of_pos (Real.exp_pos _)]
  have h : Real.exp (-((t - T) ^ 2 / (2 * σ ^ 2))) ≤ 1 := by
    rw [Real.exp_le_one_iff, neg_nonpos]; positivity
  exact mul_le_of_le_one_right (abs_nonneg _) h

/-- C34: no update ever moves the trajectory by more than the waypoint itself moved. -/
theorem C34_bounded (w w' : Waypoint ℝ) (p : V3 ℝ) (τ : ℝ) (h : w.setCurrentPosition p τ = .ok w') (t : ℝ) (c c' : V3 ℝ)
    (hpos : ∀ a, updateWidth w.time τ w.lastSigma a ≠ 0)
    (hc : w.trajectoryCompensation Real.exp t 0 = .ok c) (hc' : w'.trajectoryCompensation Real.exp t 0 = .ok c') (a : Axis) :
    |comp c' a - comp c a| ≤ |comp p a - comp w.current a| := by
  rw [C34_effect_of_update w w' p τ h t c c' hpos hc hc' a]
  split
  · simp
  · exact bump_le _ _ _ _

/-- C34: outside 3.5 widths around the waypoint's time nothing changes, for every derivative order. -/
theorem C34_local (w w' : Waypoint ℝ) (p : V3 ℝ) (τ : ℝ) (h : w.setCurrentPosition p τ = .ok w') (t : ℝ) (k : Int)
    (hout : ∀ a, 7 / 2 * updateWidth w.time τ w.lastSigma a < |t - w.time|) (c : V3 ℝ)
    (hc : w.trajectoryCompensation Real.exp t k = .ok c) : w'.trajectoryCompensation Real.exp t k = .ok c := by
  obtain ⟨v, m, _, hw', hma⟩ := setCurrentPosition_spec w w' p τ h
  rw [compensation_append Real.exp w w' m (by rw [hw']) t k c hc V3.zero]
  · simp [V3.add, V3.zero]
  · intro a
    rw [hma a, updateWidth_eq, eval_outside _ _ _ _ (hout a)]
    cases a <;> rfl

/-- C34: an update at a known time before the waypoint changes nothing earlier than half a sigma (a sixth of the time left) before the
update. -/
theorem C34_nothing_before_the_update (w w' : Waypoint ℝ) (p : V3 ℝ) (τ : ℝ) (h : w.setCurrentPosition p τ = .ok w') (hτ : 0 < τ)
    (hlt : τ < w.time) (t : ℝ) (ht : t < τ - (w.time - τ) / 6) (k : Int) (c : V3 ℝ)
    (hc : w.trajectoryCompensation Real.exp t k = .ok c) : w'.trajectoryCompensation Real.exp t k = .ok c := by
  apply C34_local w w' p τ h t k _ c hc
  intro a
  unfold updateWidth
  rw [if_pos hτ, abs_of_neg (by linarith)]
  linarith

/-- C34: at the cut-off itself the change is exactly `exp (-6.125)` of the increment, so the jump there is that small. -/
theorem C34_jump_at_cutoff (w w' : Waypoint ℝ) (p : V3 ℝ) (τ : ℝ) (h : w.setCurrentPosition p τ = .ok w') (t : ℝ) (c c' : V3 ℝ)
    (hpos : ∀ a, 0 < updateWidth w.time τ w.lastSigma a)
    (hc : w.trajectoryCompensation Real.exp t 0 = .ok c) (hc' : w'.trajectoryCompensation Real.exp t 0 = .ok c') (a : Axis)
    (hcut : |t - w.time| = 7 / 2 * updateWidth w.time τ w.lastSigma a) (hbig : 2 / 100 ≤ |comp p a - comp w.current a|) :
    comp c' a - comp c a = (comp p a - comp w.current a) * Real.exp (-(49 / 8)) := by
  rw [C34_effect_of_update w w' p τ h t c c' (fun a => (hpos a).ne') hc hc' a]
  rw [if_neg (by rw [not_or]; exact ⟨not_lt.mpr hbig, not_lt.mpr hcut.le⟩)]
  unfold bump
  have hp := hpos a
  have : (t - w.time) ^ 2 = (7 / 2 * updateWidth w.time τ w.lastSigma a) ^ 2 := by rw [← hcut, sq_abs]
  rw [this]
  congr 3
  field_simp
  norm_num

-- the hypotheses are met by an update at time 4 of the sample waypoint (time 10), observed inside, outside and at the cut-off
example : ∃ w', sampleWaypoint.setCurrentPosition ⟨1, 0, 0⟩ 4 = .ok w' ∧
    (∀ a, updateWidth sampleWaypoint.time 4 sampleWaypoint.lastSigma a = 2) ∧
    (∀ t, ∃ c', w'.trajectoryCompensation Real.exp t 0 = .ok c') := by
  obtain ⟨w', h, -⟩ := C33_update_succeeds sampleWaypoint rfl ⟨1, 0, 0⟩ 4
  refine ⟨w', h, ?_, ?_⟩
  · intro a; unfold updateWidth; norm_num [sampleWaypoint]
  · intro t
    obtain ⟨v, m, _, hw', hma⟩ := setCurrentPosition_spec _ _ _ _ h
    have key : ∀ a, ∃ d, (comp m a).eval Real.exp t 0 = .ok d := by
      intro a
      rw [hma a]
      unfold Modifier.eval
      split
      · exact ⟨_, rfl⟩
      · rw [if_pos rfl, if_neg]
        · exact ⟨_, rfl⟩
        · have := (width_pos sampleWaypoint.time 4 sampleWaypoint.lastSigma (by norm_num [sampleWaypoint])
            (by norm_num [sampleWaypoint]) a).ne'
          exact mul_ne_zero this this
    choose d hd using key
    exact ⟨_, compensation_append Real.exp sampleWaypoint w' m (by rw [hw']) t 0 V3.zero rfl ⟨d .x, d .y, d .z⟩
      (by intro a; rw [hd a]; cases a <;> rfl)⟩

/-! ## C35 -/

/-- All bumps of the waypoint have a positive width, as every update before the waypoint's time creates. -/
def ProperModifiers (w : Waypoint ℝ) : Prop :=
  ∀ m ∈ w.modifiers, ∀ a, 0 < (comp m a).sigma ∧ (comp m a).sigmaSq = (comp m a).sigma * (comp m a).sigma

theorem modifier_total (m : Modifier ℝ) (hs : 0 < m.sigma) (hq : m.sigmaSq = m.sigma * m.sigma) (t : ℝ) (k : Int) :
    ∃ d, m.eval Real.exp t k = .ok d := by
  have hq' : m.sigmaSq ≠ 0 := by rw [hq]; positivity
  unfold Modifier.eval
  simp only [if_neg hq']
  split
  · exact ⟨_, rfl⟩
  · split
    · exact ⟨_, rfl⟩
    · split
      · exact ⟨_, rfl⟩
      · split <;> exact ⟨_, rfl⟩

theorem modifier_hasDeriv (m : Modifier ℝ) (hs : 0 < m.sigma) (hq : m.sigmaSq = m.sigma * m.sigma) (f : ℝ → ℝ)
    (hf : ∀ s, m.eval Real.exp s 0 = .ok (f s)) (t d : ℝ) (hd : m.eval Real.exp t 1 = .ok d)
    (hne : |t - m.mu| ≠ 7 / 2 * m.sigma) : HasDerivAt f d t := by
  have hq' : m.sigmaSq ≠ 0 := by rw [hq]; positivity
  by_cases hsmall : |m.increment| < 2 / 100
  · have hf0 : f = fun _ => 0 := by
      funext s
      have := hf s
      rw [eval_small _ _ _ _ hsmall] at this
      exact (Except.ok.inj this).symm
    rw [eval_small _ _ _ _ hsmall] at hd
    rw [hf0, ← Except.ok.inj hd]
    exact hasDerivAt_const t 0
  · have hbig := not_lt.mp hsmall
    rcases lt_or_gt_of_ne hne with hin | hout
    · -- inside the window
      rw [(eval_active Real.exp m t hbig hin.le hq').2.1] at hd
      rw [← Except.ok.inj hd]
      have hev : f =ᶠ[nhds t] fun s => Real.exp (-1 * (s - m.mu) * (s - m.mu) / (2 * m.sigmaSq)) * m.increment := by
        have hopen : IsOpen {s : ℝ | |s - m.mu| < 7 / 2 * m.sigma} := isOpen_lt (by fun_prop) continuous_const
        filter_upwards [hopen.mem_nhds hin] with s hs'
        have := hf s
        rw [(eval_active Real.exp m s hbig (le_of_lt hs') hq').1] at this
        exact (Except.ok.inj this).symm
      refine HasDerivAt.congr_of_eventuallyEq ?_ hev
      have h1 : HasDerivAt (fun s : ℝ => s - m.mu) 1 t := (hasDerivAt_id t).sub_const _
      have h2 : HasDerivAt (fun s : ℝ => -1 * (s - m.mu) * (s - m.mu) / (2 * m.sigmaSq)) (-((t - m.mu) / m.sigmaSq)) t := by
        refine (((h1.const_mul (-1)).mul h1).div_const (2 * m.sigmaSq)).congr_deriv ?_
        field_simp
        ring
      refine ((h2.exp).mul_const m.increment).congr_deriv ?_
      have : -1 * (t - m.mu) * (t - m.mu) / (2 * m.sigmaSq) = -((t - m.mu) * (t - m.mu)) / (2 * m.sigmaSq) := by ring
      rw [this]; ring
    · rw [eval_outside _ _ _ _ hout] at hd
      rw [← Except.ok.inj hd]
      have hev : f =ᶠ[nhds t] fun _ => 0 := by
        have hopen : IsOpen {s : ℝ | 7 / 2 * m.sigma < |s - m.mu|} := isOpen_lt continuous_const (by fun_prop)
        filter_upwards [hopen.mem_nhds hout] with s hs'
        have := hf s
        rw [eval_outside _ _ _ _ hs'] at this
        exact (Except.ok.inj this).symm
      exact (hasDerivAt_const t (0 : ℝ)).congr_of_eventuallyEq hev

/-- C35 (first half): away from the cut-off instants the order-1 compensation is the time derivative of the order-0 compensation.
Missing from the full property: the order-2 compensation, see `C35_refuted`. -/
theorem C35_velocity_partial (w : Waypoint ℝ) (hw : ProperModifiers w) (c : ℝ → V3 ℝ)
    (hc : ∀ s, w.trajectoryCompensation Real.exp s 0 = .ok (c s)) (t : ℝ) (v : V3 ℝ)
    (hv : w.trajectoryCompensation Real.exp t 1 = .ok v) (a : Axis)
    (hne : ∀ m ∈ w.modifiers, |t - (comp m a).mu| ≠ 7 / 2 * (comp m a).sigma) :
    HasDerivAt (fun s => comp (c s) a) (comp v a) t := by
  unfold Waypoint.trajectoryCompensation at hc hv
  -- the loop with an arbitrary accumulator
  have key : ∀ (ms : List (V3 (Modifier ℝ))), (∀ m ∈ ms, ∀ a, 0 < (comp m a).sigma ∧ (comp m a).sigmaSq = (comp m a).sigma * (comp m a).sigma) →
      (∀ m ∈ ms, |t - (comp m a).mu| ≠ 7 / 2 * (comp m a).sigma) → ∀ (A : ℝ → V3 ℝ) (B : V3 ℝ),
      HasDerivAt (fun s => comp (A s) a) (comp B a) t → ∀ (c : ℝ → V3 ℝ) (v : V3 ℝ),
      (∀ s, Waypoint.compensationLoop Real.exp s 0 ms (A s) = .ok (c s)) →
      Waypoint.compensationLoop Real.exp t 1 ms B = .ok v → HasDerivAt (fun s => comp (c s) a) (comp v a) t := by
    intro ms
    induction ms with
    | nil =>
      intro _ _ A B hAB c v hc hv
      rw [← Except.ok.inj hv]
      have : A = c := by funext s; exact Except.ok.inj (hc s)
      rw [← this]; exact hAB
    | cons m ms ih =>
      intro hp hn A B hAB c v hc hv
      have tot : ∀ a s k, ∃ d, (comp m a).eval Real.exp s k = .ok d := fun a s k =>
        modifier_total _ (hp m (by simp) a).1 (hp m (by simp) a).2 s k
      choose d hd using tot
      let D : ℝ → Int → V3 ℝ := fun s k => ⟨d .x s k, d .y s k, d .z s k⟩
      have hD : ∀ s k a, (comp m a).eval Real.exp s k = .ok (comp (D s k) a) := by
        intro s k a; rw [hd a s k]; cases a <;> rfl
      refine ih (fun m' h' => hp m' (by simp [h'])) (fun m' h' => hn m' (by simp [h']))
        (fun s => (A s).add (D s 0)) (B.add (D t 1)) ?_ c v ?_ ?_
      · have h1 : HasDerivAt (fun s => comp (D s 0) a) (comp (D t 1) a) t :=
          modifier_hasDeriv (comp m a) (hp m (by simp) a).1 (hp m (by simp) a).2 _ (fun s => hD s 0 a) t _ (hD t 1 a) (hn m (by simp))
        have := hAB.add h1
        cases a <;> exact this
      · intro s
        rw [← comp_eval_cons Real.exp s 0 m ms (A s) (D s 0) (hD s 0)]
        exact hc s
      · rw [← comp_eval_cons Real.exp t 1 m ms B (D t 1) (hD t 1)]
        exact hv
  refine key w.modifiers hw hne (fun _ => V3.zero) V3.zero ?_ c v hc hv
  have : (fun _ : ℝ => comp (V3.zero : V3 ℝ) a) = fun _ => 0 := by funext _; cases a <;> rfl
  rw [this]
  have h0 : comp (V3.zero : V3 ℝ) a = 0 := by cases a <;> rfl
  rw [h0]
  exact hasDerivAt_const t 0

/-- The full statement of C35 for the second half. -/
def C35Full : Prop :=
  ∀ (w : Waypoint ℝ), ProperModifiers w → ∀ (v : ℝ → V3 ℝ), (∀ s, w.trajectoryCompensation Real.exp s 1 = .ok (v s)) →
    ∀ (t : ℝ) (acc : V3 ℝ), w.trajectoryCompensation Real.exp t 2 = .ok acc → ∀ a,
      (∀ m ∈ w.modifiers, |t - (comp m a).mu| ≠ 7 / 2 * (comp m a).sigma) → HasDerivAt (fun s => comp (v s) a) (comp acc a) t

/-- C35: inside the window the true derivative of the order-1 value is the order-2 value minus `value / sigma²`. -/
theorem C35_acceleration_error (m : Modifier ℝ) (hs : 0 < m.sigma) (hq : m.sigmaSq = m.sigma * m.sigma)
    (hbig : 2 / 100 ≤ |m.increment|) (f : ℝ → ℝ) (hf : ∀ s, m.eval Real.exp s 1 = .ok (f s)) (t x d : ℝ)
    (hin : |t - m.mu| < 7 / 2 * m.sigma) (hx : m.eval Real.exp t 0 = .ok x) (hd : m.eval Real.exp t 2 = .ok d) :
    HasDerivAt f (d - x / m.sigma ^ 2) t := by
  have hq' : m.sigmaSq ≠ 0 := by rw [hq]; positivity
  have hs' := hs.ne'
  rw [(eval_active Real.exp m t hbig hin.le hq').2.2] at hd
  rw [(eval_active Real.exp m t hbig hin.le hq').1] at hx
  rw [← Except.ok.inj hd, ← Except.ok.inj hx]
  have hev : f =ᶠ[nhds t] fun s => -((s - m.mu) / m.sigmaSq) * Real.exp (-((s - m.mu) * (s - m.mu)) / (2 * m.sigmaSq)) * m.increment := by
    have hopen : IsOpen {s : ℝ | |s - m.mu| < 7 / 2 * m.sigma} := isOpen_lt (by fun_prop) continuous_const
    filter_upwards [hopen.mem_nhds hin] with s hs'
    have := hf s
    rw [(eval_active Real.exp m s hbig (le_of_lt hs') hq').2.1] at this
    exact (Except.ok.inj this).symm
  refine HasDerivAt.congr_of_eventuallyEq ?_ hev
  have h1 : HasDerivAt (fun s : ℝ => s - m.mu) 1 t := (hasDerivAt_id t).sub_const _
  have h2 : HasDerivAt (fun s : ℝ => -((s - m.mu) * (s - m.mu)) / (2 * m.sigmaSq)) (-((t - m.mu) / m.sigmaSq)) t := by
    refine (((h1.mul h1).neg).div_const (2 * m.sigmaSq)).congr_deriv ?_
    field_simp
    ring
  have h3 : HasDerivAt (fun s : ℝ => -((s - m.mu) / m.sigmaSq)) (-(1 / m.sigmaSq)) t := (h1.div_const _).neg
  refine (((h3.mul h2.exp)).mul_const m.increment).congr_deriv ?_
  have : -1 * (t - m.mu) * (t - m.mu) / (2 * m.sigmaSq) = -((t - m.mu) * (t - m.mu)) / (2 * m.sigmaSq) := by ring
  rw [this, hq]
  field_simp
  ring

/-- A modifier of height 1 and width 1 centred at 10. -/
noncomputable def unitModifier : Modifier ℝ := ⟨1, 1, 10, 1⟩

/-- A waypoint whose first axis was moved by 1 m with width 1. -/
noncomputable def movedWaypoint : Waypoint ℝ :=
  { sampleWaypoint with modifiers := [⟨unitModifier, ⟨1, 1, 10, 0⟩, ⟨1, 1, 10, 0⟩⟩], current := ⟨1, 0, 0⟩ }

theorem movedWaypoint_proper : ProperModifiers movedWaypoint := by
  intro m hm a
  simp only [movedWaypoint, List.mem_singleton] at hm
  subst hm
  cases a <;> simp [comp, unitModifier]

theorem movedWaypoint_eval (s : ℝ) (k : Int) : ∃ d, unitModifier.eval Real.exp s k = .ok d ∧
    movedWaypoint.trajectoryCompensation Real.exp s k = .ok ⟨d, 0, 0⟩ := by
  obtain ⟨d, hd⟩ := modifier_total unitModifier (by norm_num [unitModifier]) (by norm_num [unitModifier]) s k
  refine ⟨d, hd, ?_⟩
  unfold Waypoint.trajectoryCompensation
  simp only [movedWaypoint]
  rw [comp_eval_cons Real.exp s k _ [] V3.zero ⟨d, 0, 0⟩]
  · simp [Waypoint.compensationLoop, V3.add, V3.zero]
  · intro a
    cases a
    · exact hd
    · exact eval_small _ _ _ _ (by norm_num [comp])
    · exact eval_small _ _ _ _ (by norm_num [comp])

/-- C35: the second half fails; at the waypoint's own time the code reports acceleration 0 where the derivative is -1. -/
theorem C35_refuted : ¬ C35Full := by
  intro H
  choose d hd hdw using movedWaypoint_eval
  have h2 : d 10 2 = 0 := by
    have := hd 10 2
    rw [(eval_active Real.exp unitModifier 10 (by norm_num [unitModifier]) (by norm_num [unitModifier])
      (by norm_num [unitModifier])).2.2] at this
    rw [← Except.ok.inj this]
    norm_num [unitModifier]
  have hx : unitModifier.eval Real.exp 10 0 = .ok 1 := by
    rw [(eval_active Real.exp unitModifier 10 (by norm_num [unitModifier]) (by norm_num [unitModifier])
      (by norm_num [unitModifier])).1]
    norm_num [unitModifier]
  have h := H movedWaypoint movedWaypoint_proper (fun s => ⟨d s 1, 0, 0⟩) (fun s => hdw s 1) 10 ⟨d 10 2, 0, 0⟩ (hdw 10 2) .x (by
    intro m hm
    simp only [movedWaypoint, List.mem_singleton] at hm
    subst hm
    norm_num [comp, unitModifier])
  have h' := C35_acceleration_error unitModifier (by norm_num [unitModifier]) (by norm_num [unitModifier])
    (by norm_num [unitModifier]) (fun s => d s 1) (fun s => hd s 1) 10 1 (d 10 2) (by norm_num [unitModifier]) hx (hd 10 2)
  have := h.unique h'
  simp only [comp, unitModifier] at this
  norm_num at this
  linarith

-- the hypotheses of C35_velocity_partial are met by the moved waypoint at every non-cut-off time
example : ∃ c : ℝ → V3 ℝ, (∀ s, movedWaypoint.trajectoryCompensation Real.exp s 0 = .ok (c s)) ∧
    ∃ v, movedWaypoint.trajectoryCompensation Real.exp 11 1 = .ok v ∧ v.x ≠ 0 := by
  choose d hd hdw using movedWaypoint_eval
  refine ⟨fun s => ⟨d s 0, 0, 0⟩, fun s => hdw s 0, _, hdw 11 1, ?_⟩
  have := hd 11 1
  rw [(eval_active Real.exp unitModifier 11 (by norm_num [unitModifier]) (by norm_num [unitModifier])
      (by norm_num [unitModifier])).2.1] at this
  simp only
  rw [← Except.ok.inj this]
  norm_num [unitModifier]

/-! ## C36 -/

/-- C36: an update issued after the waypoint's time has no effect, at any time and for any derivative order. -/
theorem C36_late_update_no_effect (w w' : Waypoint ℝ) (p : V3 ℝ) (τ : ℝ) (h : w.setCurrentPosition p τ = .ok w') (hτ : 0 < τ)
    (hlate : w.time < τ) (t : ℝ) (k : Int) : w'.trajectoryCompensation Real.exp t k = w.trajectoryCompensation Real.exp t k := by
  obtain ⟨v, m, _, hw', hma⟩ := setCurrentPosition_spec w w' p τ h
  cases hc : w.trajectoryCompensation Real.exp t k with
  | ok c =>
    rw [compensation_append Real.exp w w' m (by rw [hw']) t k c hc V3.zero]
    · simp [V3.add, V3.zero]
    · intro a
      rw [hma a, updateWidth_eq, eval_outside]
      · cases a <;> rfl
      · simp only [updateWidth, if_pos hτ]
        have : 0 ≤ |t - w.time| := abs_nonneg _
        linarith
  | error e =>
    unfold Waypoint.trajectoryCompensation at hc ⊢
    rw [hw']
    simp only
    rw [compensationLoop_append, hc]
    rfl

/-- C36: an update issued exactly at the waypoint's time: 0/0 at that instant, no effect at any other. -/
theorem C36_update_at_waypoint_time (w w' : Waypoint ℝ) (p : V3 ℝ) (h : w.setCurrentPosition p w.time = .ok w') (hT : 0 < w.time)
    (hbig : ∃ a, 2 / 100 ≤ |comp p a - comp w.current a|) (t : ℝ) (k : Int) (hk : k = 0 ∨ k = 1 ∨ k = 2) (c : V3 ℝ)
    (hc : w.trajectoryCompensation Real.exp t k = .ok c) :
    w'.trajectoryCompensation Real.exp t k = if t = w.time then .error .nonfinite else .ok c := by
  obtain ⟨v, m, _, hw', hma⟩ := setCurrentPosition_spec w w' p w.time h
  have hw0 : ∀ a, width w.time w.time w.lastSigma a = 0 := by
    intro a; rw [updateWidth_eq]; simp [updateWidth, hT]
  by_cases ht : t = w.time
  · rw [if_pos ht]
    unfold Waypoint.trajectoryCompensation at hc ⊢
    rw [hw']
    simp only
    rw [compensationLoop_append, hc]
    simp only [bind, Except.bind, Waypoint.compensationLoop]
    have hev : ∀ a, (comp m a).eval Real.exp t k = if 2 / 100 ≤ |comp p a - comp w.current a| then .error .nonfinite else .ok 0 := by
      intro a
      rw [hma a]
      unfold Modifier.eval
      by_cases hb : 2 / 100 ≤ |comp p a - comp w.current a|
      · rw [if_pos hb, if_neg]
        · rcases hk with rfl | rfl | rfl <;> simp [hw0]
        · rw [not_or]
          refine ⟨not_lt.mpr hb, ?_⟩
          simp [hw0, ht]
      · rw [if_neg hb, if_pos (Or.inl (not_le.mp hb))]
    have hx : m.x.eval Real.exp t k = if 2 / 100 ≤ |p.x - w.current.x| then .error .nonfinite else .ok 0 := hev .x
    have hy : m.y.eval Real.exp t k = if 2 / 100 ≤ |p.y - w.current.y| then .error .nonfinite else .ok 0 := hev .y
    have hz : m.z.eval Real.exp t k = if 2 / 100 ≤ |p.z - w.current.z| then .error .nonfinite else .ok 0 := hev .z
    rw [hx, hy, hz]
    obtain ⟨a, ha⟩ := hbig
    by_cases h1 : 2 / 100 ≤ |p.x - w.current.x|
    · rw [if_pos h1]
    by_cases h2 : 2 / 100 ≤ |p.y - w.current.y|
    · rw [if_neg h1, if_pos h2]
    by_cases h3 : 2 / 100 ≤ |p.z - w.current.z|
    · rw [if_neg h1, if_neg h2, if_pos h3]
    · cases a
      · exact absurd ha h1
      · exact absurd ha h2
      · exact absurd ha h3
  · rw [if_neg ht]
    rw [compensation_append Real.exp w w' m (by rw [hw']) t k c hc V3.zero]
    · simp [V3.add, V3.zero]
    · intro a
      rw [hma a, eval_outside]
      · cases a <;> rfl
      · simp only [hw0, mul_zero]
        exact abs_pos.mpr (sub_ne_zero.mpr ht)

example : ∃ w', sampleWaypoint.setCurrentPosition ⟨1, 0, 0⟩ 11 = .ok w' := (setCurrentPosition_ok _ _ _ rfl)
example : ∃ w', sampleWaypoint.setCurrentPosition ⟨1, 0, 0⟩ sampleWaypoint.time = .ok w' := (setCurrentPosition_ok _ _ _ rfl)

/-! ## C37 -/

/-- The full statement of C37: axes moved by the same (effective) amount get the same compensation. -/
def C37Full : Prop :=
  ∀ (w w' : Waypoint ℝ) (p : V3 ℝ) (τ : ℝ), w.modifiers = [] → 0 < w.lastSigma → (0 < τ → τ < w.time) →
    w.setCurrentPosition p τ = .ok w' → ∀ (a b : Axis), 2 / 100 ≤ |comp p a - comp w.current a| →
      comp p a - comp w.current a = comp p b - comp w.current b → ∀ (t : ℝ) (c : V3 ℝ),
        w'.trajectoryCompensation Real.exp t 0 = .ok c → comp c a = comp c b

/-- C37: true for updates at a known time. Missing: updates before any evaluation time is known, see `C37_refuted`. -/
theorem C37_known_time_partial (w w' : Waypoint ℝ) (p : V3 ℝ) (τ : ℝ) (hm : w.modifiers = []) (hτ : 0 < τ) (hlt : τ < w.time)
    (h : w.setCurrentPosition p τ = .ok w') (a b : Axis) (hab : comp p a - comp w.current a = comp p b - comp w.current b)
    (t : ℝ) (c : V3 ℝ) (hc : w'.trajectoryCompensation Real.exp t 0 = .ok c) : comp c a = comp c b := by
  have h0 : w.trajectoryCompensation Real.exp t 0 = .ok V3.zero := by
    unfold Waypoint.trajectoryCompensation; rw [hm]; rfl
  have hpos : ∀ a, updateWidth w.time τ w.lastSigma a ≠ 0 := by
    intro a; simp only [updateWidth, if_pos hτ]; intro h; linarith
  have ha := C34_effect_of_update w w' p τ h t _ c hpos h0 hc a
  have hb := C34_effect_of_update w w' p τ h t _ c hpos h0 hc b
  have hz : ∀ a, comp (V3.zero : V3 ℝ) a = 0 := by intro a; cases a <;> rfl
  rw [hz, sub_zero] at ha hb
  rw [ha, hb, ← hab]
  simp only [updateWidth, if_pos hτ]

/-- C37: what each axis gets, whatever the time of the update: a bump of the axis' own displacement whose width is the same on the three axes if the time is
known, and `3/4`, `9/16` and `27/64` of the remembered width on x, y and z if it is not. -/
theorem C37_exact_partial (w w' : Waypoint ℝ) (p : V3 ℝ) (τ : ℝ) (hm : w.modifiers = []) (hs : 0 < w.lastSigma) (hlt : 0 < τ → τ < w.time)
    (h : w.setCurrentPosition p τ = .ok w') (t : ℝ) :
    ∃ c, w'.trajectoryCompensation Real.exp t 0 = .ok c ∧ ∀ a,
      comp c a = if |comp p a - comp w.current a| < 2 / 100 ∨ 7 / 2 * updateWidth w.time τ w.lastSigma a < |t - w.time| then 0
        else bump w.time (updateWidth w.time τ w.lastSigma a) (comp p a - comp w.current a) t := by
  have h0 : w.trajectoryCompensation Real.exp t 0 = .ok V3.zero := by
    unfold Waypoint.trajectoryCompensation; rw [hm]; rfl
  have hpos : ∀ a, 0 < updateWidth w.time τ w.lastSigma a := by
    intro a
    unfold updateWidth
    split_ifs with hτ
    · have := hlt hτ; linarith
    · positivity
  obtain ⟨v, m, _, hwm, hma⟩ := setCurrentPosition_spec _ _ _ _ h
  have key : ∀ a, ∃ d, (comp m a).eval Real.exp t 0 = .ok d := by
    intro a
    rw [hma a]
    exact modifier_total _ (by simp only; rw [updateWidth_eq]; exact hpos a) rfl _ _
  choose d hd using key
  have hc := compensation_append Real.exp w w' m (by rw [hwm]) t 0 V3.zero h0 ⟨d .x, d .y, d .z⟩
    (by intro a; rw [hd a]; cases a <;> rfl)
  refine ⟨_, hc, fun a => ?_⟩
  have ha := C34_effect_of_update w w' p τ h t _ _ (fun a => (hpos a).ne') h0 hc a
  have hz : comp (V3.zero : V3 ℝ) a = 0 := by cases a <;> rfl
  rw [hz, sub_zero] at ha
  exact ha

example : ∃ w', sampleWaypoint.setCurrentPosition ⟨1, 1, 1⟩ 0 = .ok w' ∧ sampleWaypoint.modifiers = [] ∧ 0 < sampleWaypoint.lastSigma := by
  obtain ⟨w', h⟩ := setCurrentPosition_ok sampleWaypoint ⟨1, 1, 1⟩ 0 rfl
  exact ⟨w', h, rfl, by norm_num [sampleWaypoint]⟩

/-- C37: fails when the time is unknown: moving the waypoint by (1, 1, 1) moves x and y differently at other instants. -/
theorem C37_refuted : ¬ C37Full := by
  intro H
  obtain ⟨w', hw'⟩ := setCurrentPosition_ok sampleWaypoint ⟨1, 1, 1⟩ 0 rfl
  have hpos : ∀ a, 0 < updateWidth sampleWaypoint.time 0 sampleWaypoint.lastSigma a := by
    intro a
    unfold updateWidth
    rw [if_neg (lt_irrefl _)]
    cases a <;> norm_num [sampleWaypoint]
  -- 3.5 * 9/8 = 63/16 after the waypoint: x is still moved, y is not (3.5 * 27/32 = 189/64)
  obtain ⟨v, m, _, hwm, hma⟩ := setCurrentPosition_spec _ _ _ _ hw'
  have key : ∀ a, ∃ d, (comp m a).eval Real.exp (10 + 63 / 16) 0 = .ok d := by
    intro a
    rw [hma a]
    exact modifier_total _ (by simp only; rw [updateWidth_eq]; exact hpos a) rfl _ _
  choose d hd using key
  have hc := compensation_append Real.exp sampleWaypoint w' m (by rw [hwm]) (10 + 63 / 16) 0 V3.zero rfl ⟨d .x, d .y, d .z⟩
    (by intro a; rw [hd a]; cases a <;> rfl)
  set c := V3.zero.add ⟨d .x, d .y, d .z⟩
  have := H sampleWaypoint w' ⟨1, 1, 1⟩ 0 rfl (by norm_num [sampleWaypoint]) (fun h => absurd h (lt_irrefl _)) hw' .x .y
    (by norm_num [comp, sampleWaypoint]) (by norm_num [comp, sampleWaypoint]) (10 + 63 / 16) c hc
  have hx := C34_jump_at_cutoff sampleWaypoint w' ⟨1, 1, 1⟩ 0 hw' (10 + 63 / 16) V3.zero c hpos rfl hc .x
    (by norm_num [updateWidth, sampleWaypoint, abs_of_pos]) (by norm_num [comp, sampleWaypoint])
  have hy := C34_effect_of_update sampleWaypoint w' ⟨1, 1, 1⟩ 0 hw' (10 + 63 / 16) V3.zero c (fun a => (hpos a).ne') rfl hc .y
  rw [if_pos (Or.inr (by norm_num [updateWidth, sampleWaypoint, abs_of_pos]))] at hy
  rw [this] at hx
  have hz : ∀ a, comp (V3.zero : V3 ℝ) a = 0 := by intro a; cases a <;> rfl
  rw [hz, sub_zero] at hx hy
  rw [hy] at hx
  have hp := Real.exp_pos (-(49 / 8))
  simp only [comp, sampleWaypoint] at hx
  norm_num at hx
  linarith

/-! ## C38 -/

section
variable {K : Type*} [Field K] [LinearOrder K] [IsStrictOrderedRing K]

/-- C38: the bookkeeping holds after every history of operations on a waypoint made from a three-dimensional vertex. -/
theorem C38_bookkeeping (v : Vertex K) (name : String) (hD : v.D = 3) (hwf : WellFormed v) (w0 w : Waypoint K)
    (h0 : Waypoint.ofVertex v name = .ok w0) (ops : List (WaypointOp K)) (h : runOps ops w0 = .ok w) : Bookkept w := by
  have hb := ofVertex_bookkept v name hD hwf w0 h0
  clear h0
  induction ops generalizing w0 with
  | nil => rw [← Except.ok.inj h]; exact hb
  | cons o os ih =>
    simp only [runOps, bind, Except.bind] at h
    cases ho : o.run w0 with
    | error e => rw [ho] at h; cases h
    | ok w1 =>
      rw [ho] at h
      exact ih w1 h (step_bookkept o w0 w1 ho hb)

/-- C38: and no history of operations on such a waypoint fails. -/
theorem C38_never_fails (w0 : Waypoint K) (hD : w0.vertex.D = 3) (ops : List (WaypointOp K)) :
    ∃ w, runOps ops w0 = .ok w ∧ w.vertex.D = 3 := by
  induction ops generalizing w0 with
  | nil => exact ⟨w0, rfl, hD⟩
  | cons o os ih =>
    have step : ∃ w1, o.run w0 = .ok w1 ∧ w1.vertex.D = 3 := by
      cases o with
      | update p τ =>
        obtain ⟨v, hv, hD'⟩ := addConstraint3 w0.vertex 0 p hD
        simp only [WaypointOp.run, Waypoint.setCurrentPosition, hv, bind, Except.bind]
        exact ⟨_, rfl, hD'⟩
      | setTime t => exact ⟨_, rfl, hD⟩
      | setIndex i => exact ⟨_, rfl, hD⟩
      | displaceIndex d => exact ⟨_, rfl, hD⟩
      | setName n => exact ⟨_, rfl, hD⟩
      | resetCurrent =>
        obtain ⟨v, hv, hD'⟩ := addConstraint3 w0.vertex 0 w0.current hD
        simp only [WaypointOp.run, Waypoint.resetWithCurrent, hv, bind, Except.bind]
        exact ⟨_, rfl, hD'⟩
      | reset p =>
        obtain ⟨v, hv, hD'⟩ := addConstraint3 w0.vertex 0 p hD
        simp only [WaypointOp.run, Waypoint.reset, Waypoint.resetWithCurrent, hv, bind, Except.bind]
        exact ⟨_, rfl, hD'⟩
      | constrain k c =>
        simp only [WaypointOp.run, Waypoint.setConstraint]
        split
        · obtain ⟨v, hv, hD'⟩ := addConstraint3 w0.vertex 0 c hD
          simp only [Waypoint.reset, Waypoint.resetWithCurrent, hv, bind, Except.bind]
          exact ⟨_, rfl, hD'⟩
        · obtain ⟨v, hv, hD'⟩ := addConstraint3 w0.vertex k c hD
          simp only [hv, bind, Except.bind]
          exact ⟨_, rfl, hD'⟩
      | copy => exact ⟨_, rfl, hD⟩
    obtain ⟨w1, h1, hD1⟩ := step
    obtain ⟨w, h2, hD2⟩ := ih w1 hD1
    refine ⟨w, ?_, hD2⟩
    simp only [runOps, bind, Except.bind, h1, h2]

/-- C38: constructing a waypoint from a vertex without a position is undefined behaviour. -/
theorem C38_no_position_ub (v : Vertex K) (name : String) (h : v.hasConstraint 0 = false) :
    Waypoint.ofVertex v name = .error .ub := by
  unfold Vertex.hasConstraint at h
  unfold Waypoint.ofVertex Vertex.getConstraint
  cases hf : IntMap.find 0 v.constraints with
  | none => rfl
  | some p => rw [hf] at h; cases h

end

-- a history touching every kind of operation
example : (do
    let w ← Waypoint.ofVertex (⟨3, [(0, [0, 0, 0])]⟩ : Vertex ℚ) "w"
    let w ← runOps [.setTime 10, .update ⟨1, 0, 0⟩ 4, .constrain 1 ⟨0, 0, 0⟩, .copy, .update ⟨1, 2, 0⟩ 0, .setTime 12, .setIndex 2,
      .displaceIndex 1, .setName "v"] w
    return decide (w.current = ⟨1, 2, 0⟩ ∧ w.original = ⟨0, 0, 0⟩ ∧ w.index = 3 ∧ w.vertex.getConstraint 0 = some [1, 2, 0] ∧
      w.modifiers.map (fun m => (m.x.mu, m.x.increment, m.y.increment)) = [(12, 1, 0), (12, 0, 2)]) : Res Bool) = .ok true := by
  decide +kernel

/-! ## C39 -/

section
variable {K : Type*} [Field K] [LinearOrder K] [IsStrictOrderedRing K]

/-- Everything the accessors of a waypoint return agrees (in particular all compensations, which depend on these data only). -/
def SameObservable (w w' : Waypoint K) : Prop :=
  w.vertex = w'.vertex ∧ w.original = w'.original ∧ w.current = w'.current ∧ w.time = w'.time ∧ w.name = w'.name ∧
  w.index = w'.index ∧ ∀ (exp : K → K) t k, w.trajectoryCompensation exp t k = w'.trajectoryCompensation exp t k

/-- The full statement of C39: at any point of a waypoint's history copy it, and go on with the original and the copy in the same way. -/
def C39Full (K : Type*) [Field K] [LinearOrder K] [IsStrictOrderedRing K] : Prop :=
  ∀ (v : Vertex K) (name : String) (before after : List (WaypointOp K)) (w0 w w1 w2 : Waypoint K),
    Waypoint.ofVertex v name = .ok w0 → runOps before w0 = .ok w →
    runOps after w = .ok w1 → runOps after w.copy = .ok w2 → SameObservable w1 w2

theorem step_copy (o : WaypointOp K) (ho : ∀ p τ, o = .update p τ → 0 < τ) (w w1 : Waypoint K) (s : K) (h : o.run w = .ok w1) :
    ∃ s', o.run { w with lastSigma := s } = .ok { w1 with lastSigma := s' } := by
  cases o with
  | update p τ =>
    have hτ := ho p τ rfl
    obtain ⟨v, hv, rfl⟩ := setCurrentPosition_eq w w1 p τ h
    refine ⟨s, ?_⟩
    simp only [WaypointOp.run, Waypoint.setCurrentPosition, hv, bind, Except.bind, Waypoint.axisModifier, gt_iff_lt, hτ, if_true]
    rfl
  | setTime t => rw [← Except.ok.inj h]; exact ⟨s, rfl⟩
  | setIndex i => rw [← Except.ok.inj h]; exact ⟨s, rfl⟩
  | displaceIndex i => rw [← Except.ok.inj h]; exact ⟨s, rfl⟩
  | setName i => rw [← Except.ok.inj h]; exact ⟨s, rfl⟩
  | resetCurrent =>
    refine ⟨s, ?_⟩
    simp only [WaypointOp.run, Waypoint.resetWithCurrent, bind, Except.bind] at h ⊢
    cases hv : w.vertex.addConstraint 0 w.current.toList with
    | error e => rw [hv] at h; cases h
    | ok v => rw [hv] at h; simp only at h ⊢; rw [← Except.ok.inj h]; rfl
  | reset p =>
    refine ⟨s, ?_⟩
    simp only [WaypointOp.run, Waypoint.reset, Waypoint.resetWithCurrent, bind, Except.bind] at h ⊢
    cases hv : w.vertex.addConstraint 0 p.toList with
    | error e => rw [hv] at h; cases h
    | ok v => rw [hv] at h; simp only at h ⊢; rw [← Except.ok.inj h]; rfl
  | constrain k c =>
    refine ⟨s, ?_⟩
    simp only [WaypointOp.run, Waypoint.setConstraint] at h ⊢
    split
    · rename_i hk
      rw [if_pos hk] at h
      simp only [Waypoint.reset, Waypoint.resetWithCurrent, bind, Except.bind] at h ⊢
      cases hv : w.vertex.addConstraint 0 c.toList with
      | error e => rw [hv] at h; cases h
      | ok v => rw [hv] at h; simp only at h ⊢; rw [← Except.ok.inj h]; rfl
    · rename_i hk
      rw [if_neg hk] at h
      simp only [bind, Except.bind] at h ⊢
      cases hv : w.vertex.addConstraint k c.toList with
      | error e => rw [hv] at h; cases h
      | ok v => rw [hv] at h; simp only at h ⊢; rw [← Except.ok.inj h]; rfl
  | copy => rw [← Except.ok.inj h]; exact ⟨sigmaFixed, rfl⟩

/-- C39: a copy behaves like the original as long as no update with unknown time follows. Missing: those updates, see `C39_refuted`. -/
theorem C39_known_times_partial (w : Waypoint K) (ops : List (WaypointOp K)) (hops : ∀ o ∈ ops, ∀ p τ, o = .update p τ → 0 < τ)
    (w1 w2 : Waypoint K) (h1 : runOps ops w = .ok w1) (h2 : runOps ops w.copy = .ok w2) : SameObservable w1 w2 := by
  suffices H : ∀ s, runOps ops { w with lastSigma := s } = .ok w2 → SameObservable w1 w2 from H _ h2
  clear h2
  induction ops generalizing w with
  | nil =>
    intro s h2
    rw [← Except.ok.inj h1, ← Except.ok.inj h2]
    exact ⟨rfl, rfl, rfl, rfl, rfl, rfl, fun _ _ _ => rfl⟩
  | cons o os ih =>
    intro s h2
    simp only [runOps, bind, Except.bind] at h1 h2
    cases ho : o.run w with
    | error e => rw [ho] at h1; cases h1
    | ok w' =>
      rw [ho] at h1
      obtain ⟨s', hs'⟩ := step_copy o (hops o (by simp)) w w' s ho
      rw [hs'] at h2
      exact ih w' (fun o' ho' => hops o' (by simp [ho'])) h1 s' h2

/-- C39: a copy of a waypoint whose sigma memory is fresh (no update with unknown time so far) is the waypoint itself. -/
theorem C39_fresh_copy_identical (w : Waypoint K) (h : w.lastSigma = 3 / 2) : w.copy = w := by
  cases w
  simp only at h
  subst h
  rfl

end

/-- C39: false in general. After an update with unknown time, the next one is narrower in the original than in the copy. -/
theorem C39_refuted : ¬ C39Full ℚ := by
  intro H
  let v : Vertex ℚ := ⟨3, [(0, [0, 0, 0])]⟩
  let w0 : Waypoint ℚ := (Waypoint.ofVertex v "w").toOption.get (by decide +kernel)
  let w : Waypoint ℚ := (runOps [.setTime 10, .update ⟨1, 0, 0⟩ 0] w0).toOption.get (by decide +kernel)
  let ops : List (WaypointOp ℚ) := [.update ⟨2, 0, 0⟩ 0]
  have h := H v "w" [.setTime 10, .update ⟨1, 0, 0⟩ 0] ops w0 w ((runOps ops w).toOption.get (by decide +kernel))
    ((runOps ops w.copy).toOption.get (by decide +kernel))
    (by decide +kernel) (by decide +kernel) (by decide +kernel) (by decide +kernel)
  -- one second before the waypoint both compensations are active in the original and in the copy, with different widths
  have := h.2.2.2.2.2.2 (fun x => x) 9 0
  revert this
  decide +kernel

end Verif.Properties
