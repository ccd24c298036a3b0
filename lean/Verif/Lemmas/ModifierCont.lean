import Verif.Lemmas.Waypoint
import Verif.Lemmas.PlannerRate
import Mathlib.Topology.Algebra.Monoid
import Mathlib.Topology.MetricSpace.Lipschitz

/-!
# Continuity of compensations

Helper lemmas for C121: away from its two cut-off instants a compensation is continuous; at a cut-off its value jumps by at most exp(-49/8) of its height.
-/

set_option linter.unusedSectionVars false

namespace Verif.Lemmas
open Verif Verif.Spec Filter Topology

section
variable {K : Type*} [Field K] [LinearOrder K] [IsStrictOrderedRing K]

/-- The value of a compensation, 0 where it is not a number. -/
def modVal (exp : K → K) (m : Modifier K) (k : Int) (t : K) : K := ((m.eval exp t k).toOption).getD 0

theorem modVal_eq {exp : K → K} {m : Modifier K} {k : Int} {t x : K} (h : m.eval exp t k = .ok x) : modVal exp m k t = x := by
  unfold modVal; rw [h]; rfl

theorem bind_ok_split {α β : Type*} {x : Res α} {f : α → Res β} {y : β} (hx : (x.bind f) = .ok y) : ∃ a, x = .ok a ∧ f a = .ok y := by
  cases x with
  | error e => cases hx
  | ok a => exact ⟨a, rfl, hx⟩

theorem loop_vals (exp : K → K) (t : K) (k : Int) (ms : List (V3 (Modifier K))) : ∀ (acc c : V3 K), Waypoint.compensationLoop exp t k ms acc = .ok c →
    (∀ m ∈ ms, ∀ a, ∃ d, (comp m a).eval exp t k = .ok d) ∧ ∀ a, comp c a = comp acc a + (ms.map fun m => modVal exp (comp m a) k t).sum := by
  induction ms with
  | nil =>
    intro acc c h
    rw [← Except.ok.inj h]
    simp
  | cons m ms ih =>
    intro acc c h
    unfold Waypoint.compensationLoop at h
    obtain ⟨x, hx, h⟩ := bind_ok_split h
    obtain ⟨y, hy, h⟩ := bind_ok_split h
    obtain ⟨z, hz, h⟩ := bind_ok_split h
    obtain ⟨h1, h2⟩ := ih _ _ h
    refine ⟨?_, ?_⟩
    · intro m' hm' a
      rcases List.mem_cons.mp hm' with rfl | hm'
      · cases a
        · exact ⟨x, hx⟩
        · exact ⟨y, hy⟩
        · exact ⟨z, hz⟩
      · exact h1 m' hm' a
    · intro a
      rw [h2 a, List.map_cons, List.sum_cons, ← add_assoc]
      congr 1
      cases a
      · show acc.x + x = acc.x + modVal exp m.x k t
        rw [modVal_eq hx]
      · show acc.y + y = acc.y + modVal exp m.y k t
        rw [modVal_eq hy]
      · show acc.z + z = acc.z + modVal exp m.z k t
        rw [modVal_eq hz]

/-- All compensations of the named waypoints. -/
def allMods (ws : List (Waypoint K)) : List (V3 (Modifier K)) := (ws.filter fun w => w.name ≠ "").flatMap (·.modifiers)

theorem mem_allMods {ws : List (Waypoint K)} {m : V3 (Modifier K)} (h : m ∈ allMods ws) : ∃ w ∈ ws, w.name ≠ "" ∧ m ∈ w.modifiers := by
  obtain ⟨w, hw, hm⟩ := List.mem_flatMap.mp h
  obtain ⟨h1, h2⟩ := List.mem_filter.mp hw
  exact ⟨w, h1, by simpa using h2, hm⟩

theorem reference_vals (env : Env K) (tr : Trajectory K) (ws : List (Waypoint K)) {tl tg : K} {k : ℕ} {v : V3 K} (h : IsReference env tr ws tl tg k v) :
    ∃ b : V3 K, tr.evaluate (max 0 (min tl tr.maxTime)) k = .ok [b.x, b.y, b.z] ∧ (tg ≤ 0 → v = b) ∧
      (0 < tg → (∀ m ∈ allMods ws, ∀ a, ∃ d, (comp m a).eval env.exp tg k = .ok d) ∧
        ∀ a, comp v a = comp b a + ((allMods ws).map fun m => modVal env.exp (comp m a) k tg).sum) := by
  obtain ⟨b, hb, h1, h2⟩ := h
  refine ⟨b, hb, h1, fun hpos => ?_⟩
  obtain ⟨cs, hcs, hsum⟩ := h2 hpos
  have key : (∀ m ∈ allMods ws, ∀ a, ∃ d, (comp m a).eval env.exp tg k = .ok d) ∧
      ∀ a, (cs.map fun c => comp c a).sum = ((allMods ws).map fun m => modVal env.exp (comp m a) k tg).sum := by
    clear hsum h2 h1 hb
    unfold allMods
    generalize (ws.filter fun w => w.name ≠ "") = l at hcs ⊢
    induction hcs with
    | nil => simp
    | cons hwc _ ih =>
      obtain ⟨i1, i2⟩ := ih
      obtain ⟨l1, l2⟩ := loop_vals _ _ _ _ _ _ hwc
      refine ⟨?_, ?_⟩
      · intro m hm a
        rw [List.flatMap_cons, List.mem_append] at hm
        rcases hm with hm | hm
        · exact l1 m hm a
        · exact i1 m hm a
      · intro a
        rw [List.map_cons, List.sum_cons, i2 a, l2 a, List.flatMap_cons, List.map_append, List.sum_append]
        congr 1
        have : comp (V3.zero : V3 K) a = 0 := by cases a <;> rfl
        rw [this, zero_add]
  exact ⟨key.1, fun a => by rw [hsum a, key.2 a]⟩

end

theorem modVal_small {m : Modifier ℝ} (h : |m.increment| < 2 / 100) (k : Int) (t : ℝ) : modVal Real.exp m k t = 0 := modVal_eq (eval_small _ _ _ _ h)

theorem modVal_outside {m : Modifier ℝ} {t : ℝ} (h : 7 / 2 * m.sigma < |t - m.mu|) (k : Int) : modVal Real.exp m k t = 0 := modVal_eq (eval_outside _ _ _ _ h)

theorem sigmaSq_ne {m : Modifier ℝ} {t d : ℝ} {k : ℕ} (hk : k ≤ 2) (hbig : 2 / 100 ≤ |m.increment|) (hin : |t - m.mu| ≤ 7 / 2 * m.sigma)
    (hd : m.eval Real.exp t k = .ok d) : m.sigmaSq ≠ 0 := by
  intro h0
  unfold Modifier.eval at hd
  have h : ¬ (|m.increment| < 2 / 100 ∨ |t - m.mu| > 7 / 2 * m.sigma) := by
    rw [not_or]; exact ⟨not_lt.mpr hbig, not_lt.mpr hin⟩
  interval_cases k <;> simp [h, h0] at hd

/-- What the compensation is inside its window. -/
noncomputable def inside (m : Modifier ℝ) (k : ℕ) (t : ℝ) : ℝ :=
  match k with
  | 0 => Real.exp (-1 * (t - m.mu) * (t - m.mu) / (2 * m.sigmaSq)) * m.increment
  | 1 => -((t - m.mu) / m.sigmaSq) * Real.exp (-((t - m.mu) * (t - m.mu)) / (2 * m.sigmaSq)) * m.increment
  | _ => ((t - m.mu) / m.sigmaSq) * ((t - m.mu) / m.sigmaSq) * Real.exp (-((t - m.mu) * (t - m.mu)) / (2 * m.sigmaSq)) * m.increment

theorem inside_continuous (m : Modifier ℝ) (k : ℕ) : Continuous (inside m k) := by
  unfold inside
  rcases k with _ | _ | k <;> simp only <;> fun_prop

theorem modVal_inside {m : Modifier ℝ} {t : ℝ} {k : ℕ} (hk : k ≤ 2) (hbig : 2 / 100 ≤ |m.increment|) (hin : |t - m.mu| ≤ 7 / 2 * m.sigma) (hs : m.sigmaSq ≠ 0) :
    modVal Real.exp m k t = inside m k t := by
  obtain ⟨h0, h1, h2⟩ := eval_active Real.exp m t hbig hin hs
  interval_cases k
  · exact modVal_eq h0
  · exact modVal_eq h1
  · exact modVal_eq h2

theorem modVal_continuousAt (m : Modifier ℝ) (k : ℕ) (hk : k ≤ 2) (t d : ℝ) (hd : m.eval Real.exp t k = .ok d) (hne : |t - m.mu| ≠ 7 / 2 * m.sigma) :
    ContinuousAt (modVal Real.exp m k) t := by
  by_cases hsmall : |m.increment| < 2 / 100
  · have : modVal Real.exp m k = fun _ => 0 := funext fun s => modVal_small hsmall k s
    rw [this]
    exact continuousAt_const
  · have hbig := not_lt.mp hsmall
    rcases lt_or_gt_of_ne hne with hin | hout
    · have hs := sigmaSq_ne hk hbig hin.le hd
      refine (inside_continuous m k).continuousAt.congr ?_
      have hopen : IsOpen {s : ℝ | |s - m.mu| < 7 / 2 * m.sigma} := isOpen_lt (by fun_prop) continuous_const
      filter_upwards [hopen.mem_nhds hin] with s hs'
      exact (modVal_inside hk hbig (le_of_lt hs') hs).symm
    · have hopen : IsOpen {s : ℝ | 7 / 2 * m.sigma < |s - m.mu|} := isOpen_lt continuous_const (by fun_prop)
      refine (continuousAt_const (y := (0 : ℝ))).congr ?_
      filter_upwards [hopen.mem_nhds hout] with s hs'
      exact (modVal_outside hs' k).symm

theorem sum_continuousAt {α : Type*} (l : List α) (f : α → ℝ → ℝ) (t : ℝ) (h : ∀ x ∈ l, ContinuousAt (f x) t) :
    ContinuousAt (fun s => (l.map fun x => f x s).sum) t := by
  induction l with
  | nil => exact continuousAt_const
  | cons x l ih =>
    simp only [List.map_cons, List.sum_cons]
    exact (h x (by simp)).add (ih fun y hy => h y (by simp [hy]))

/-- At a cut-off the position compensation is `exp(-49/8)` of its height. -/
theorem inside_cutoff {m : Modifier ℝ} {t : ℝ} (hq : m.sigmaSq = m.sigma * m.sigma) (hs : m.sigmaSq ≠ 0) (h : |t - m.mu| = 7 / 2 * m.sigma) :
    inside m 0 t = Real.exp (-(49 / 8)) * m.increment := by
  have hs' : m.sigma ≠ 0 := by
    intro h0; apply hs; rw [hq, h0, mul_zero]
  unfold inside
  simp only
  congr 2
  have h2 : (t - m.mu) * (t - m.mu) = 49 / 4 * (m.sigma * m.sigma) := by
    have := congrArg (fun x => x * x) h
    simp only [abs_mul_abs_self] at this
    rw [this]; ring
  rw [show -1 * (t - m.mu) * (t - m.mu) = -((t - m.mu) * (t - m.mu)) by ring, h2, hq]
  field_simp
  norm_num

/-- Near any instant the position compensation changes by at most `exp(-49/8)` of its height, apart from its continuous change. -/
theorem modVal_jump (m : Modifier ℝ) (hq : m.sigmaSq = m.sigma * m.sigma) (t d : ℝ) (hd : m.eval Real.exp t 0 = .ok d) :
    ∀ᶠ s in 𝓝 t, |modVal Real.exp m 0 s - modVal Real.exp m 0 t| ≤ |inside m 0 s - inside m 0 t| + Real.exp (-(49 / 8)) * |m.increment| := by
  have hE : 0 ≤ Real.exp (-(49 / 8)) * |m.increment| := by positivity
  by_cases hsmall : |m.increment| < 2 / 100
  · refine Eventually.of_forall fun s => ?_
    rw [modVal_small hsmall, modVal_small hsmall, sub_zero, abs_zero]
    positivity
  · have hbig := not_lt.mp hsmall
    rcases lt_trichotomy |t - m.mu| (7 / 2 * m.sigma) with hin | hat | hout
    · have hs := sigmaSq_ne (k := 0) (by omega) hbig hin.le hd
      have hopen : IsOpen {s : ℝ | |s - m.mu| < 7 / 2 * m.sigma} := isOpen_lt (by fun_prop) continuous_const
      filter_upwards [hopen.mem_nhds hin] with s hs'
      have e1 := modVal_inside (k := 0) (by omega) hbig (le_of_lt hs') hs
      have e2 := modVal_inside (k := 0) (by omega) hbig hin.le hs
      simp only [Nat.cast_zero] at e1 e2
      rw [e1, e2]
      linarith
    · have hs := sigmaSq_ne (k := 0) (by omega) hbig hat.le hd
      have e2 := modVal_inside (k := 0) (by omega) hbig hat.le hs
      simp only [Nat.cast_zero] at e2
      refine Eventually.of_forall fun s => ?_
      rcases le_or_gt |s - m.mu| (7 / 2 * m.sigma) with hin | hout
      · have e1 := modVal_inside (k := 0) (by omega) hbig hin hs
        simp only [Nat.cast_zero] at e1
        rw [e1, e2]
        linarith
      · rw [modVal_outside hout, e2, zero_sub, abs_neg]
        have := inside_cutoff hq hs hat
        have h2 : |inside m 0 t| = Real.exp (-(49 / 8)) * |m.increment| := by rw [this, abs_mul, abs_of_pos (Real.exp_pos _)]
        rw [h2]
        linarith [abs_nonneg (inside m 0 s - inside m 0 t)]
    · have hopen : IsOpen {s : ℝ | 7 / 2 * m.sigma < |s - m.mu|} := isOpen_lt continuous_const (by fun_prop)
      filter_upwards [hopen.mem_nhds hout] with s hs'
      rw [modVal_outside hs', modVal_outside hout, sub_zero, abs_zero]
      positivity

theorem sum_jump {α : Type*} (l : List α) (f g : α → ℝ → ℝ) (c : α → ℝ) (t : ℝ) (h : ∀ x ∈ l, ∀ᶠ s in 𝓝 t, |f x s - f x t| ≤ |g x s - g x t| + c x) :
    ∀ᶠ s in 𝓝 t, |(l.map fun x => f x s).sum - (l.map fun x => f x t).sum| ≤ (l.map fun x => |g x s - g x t|).sum + (l.map c).sum := by
  induction l with
  | nil => exact Eventually.of_forall fun s => by simp
  | cons x l ih =>
    filter_upwards [h x (by simp), ih fun y hy => h y (by simp [hy])] with s h1 h2
    simp only [List.map_cons, List.sum_cons]
    have h3 := abs_add_le (f x s - f x t) ((l.map fun x => f x s).sum - (l.map fun x => f x t).sum)
    rw [show f x s + (l.map fun x => f x s).sum - (f x t + (l.map fun x => f x t).sum) =
      (f x s - f x t) + ((l.map fun x => f x s).sum - (l.map fun x => f x t).sum) by ring]
    linarith

end Verif.Lemmas
