import Mathlib.Analysis.Calculus.Deriv.MeanValue
import Mathlib.Analysis.SpecialFunctions.ExpDeriv
import Mathlib.Analysis.Calculus.Deriv.Pow
import Mathlib.Data.Nat.Factorial.Basic
import Mathlib.Algebra.BigOperators.Fin
import Verif.Model.TaylorBench

/-!
# The series that stands for a Gaussian (C148)

For all means, widths and arguments; sums of any number of series.
-/

set_option linter.unusedSectionVars false

namespace Verif.Properties
open Verif Verif.TaylorBench Finset

/-- The partial sums of `exp (-y)`: the first `n` terms. -/
noncomputable def expTerms (n : ℕ) (y : ℝ) : ℝ := ∑ k ∈ range n, (-y) ^ k / (k.factorial : ℝ)

theorem expTerms_deriv (n : ℕ) (y : ℝ) : HasDerivAt (expTerms (n + 1)) (-expTerms n y) y := by
  induction n with
  | zero =>
    have : expTerms 1 = fun _ => (1 : ℝ) := by funext z; simp [expTerms]
    rw [this]
    simpa [expTerms] using hasDerivAt_const y (1 : ℝ)
  | succ n ih =>
    have e : expTerms (n + 1 + 1) = fun z => expTerms (n + 1) z + (-z) ^ (n + 1) / ((n + 1).factorial : ℝ) := by
      funext z; unfold expTerms; rw [sum_range_succ]
    rw [e]
    have h1 : HasDerivAt (fun z : ℝ => (-z) ^ (n + 1) / ((n + 1).factorial : ℝ)) ((((n + 1 : ℕ) : ℝ) * (-y) ^ n * (-1)) / ((n + 1).factorial : ℝ)) y := by
      have := (HasDerivAt.pow (hasDerivAt_neg y) (n + 1)).div_const ((n + 1).factorial : ℝ)
      simpa using this
    have h2 := HasDerivAt.add ih h1
    refine h2.congr_deriv ?_
    unfold expTerms
    rw [sum_range_succ, Nat.factorial_succ]
    have : ((n.factorial : ℕ) : ℝ) ≠ 0 := by positivity
    have : ((n : ℝ) + 1) ≠ 0 := by positivity
    push_cast
    field_simp
    ring

/-- For `y ≥ 0` the partial sums lie above `exp (-y)` and below it in turn. -/
theorem expTerms_alternate (n : ℕ) : ∀ y : ℝ, 0 ≤ y → 0 ≤ (-1) ^ n * (Real.exp (-y) - expTerms n y) := by
  induction n with
  | zero => intro y _; simp [expTerms, Real.exp_nonneg]
  | succ n ih =>
    intro y hy
    set f : ℝ → ℝ := fun z => (-1) ^ (n + 1) * (Real.exp (-z) - expTerms (n + 1) z) with hf
    have hd : ∀ z, HasDerivAt f ((-1) ^ n * (Real.exp (-z) - expTerms n z)) z := by
      intro z
      have h1 : HasDerivAt (fun z : ℝ => Real.exp (-z)) (-Real.exp (-z)) z := by
        simpa using (hasDerivAt_neg z).exp
      have h2 := (h1.sub (expTerms_deriv n z)).const_mul ((-1) ^ (n + 1) : ℝ)
      refine h2.congr_deriv ?_
      rw [pow_succ]; ring
    have hmono : MonotoneOn f (Set.Ici 0) := by
      apply monotoneOn_of_deriv_nonneg (convex_Ici 0)
      · exact fun z _ => (hd z).continuousAt.continuousWithinAt
      · exact fun z _ => (hd z).differentiableAt.differentiableWithinAt
      · intro z hz
        rw [interior_Ici] at hz
        rw [(hd z).deriv]
        exact ih z (le_of_lt hz)
    have h0 : f 0 = 0 := by
      simp [hf, expTerms, sum_range_succ']
    have := hmono (Set.mem_Ici.mpr le_rfl) (Set.mem_Ici.mpr hy) hy
    rw [h0] at this
    exact this

/-- C148, one series: wherever the Gaussian has a value, the series lies on or above it, by at most the next term of the expansion. -/
theorem C148_one (mean sigma x : ℝ) (h : sigma ≠ 0) :
    ∃ g s, Gaussian.eval Real.exp ⟨mean, sigma⟩ x = .ok g ∧ Series.make mean sigma = .ok s ∧ g ≤ s.eval x ∧
      s.eval x - g ≤ ((x - mean) ^ 2 / (2 * sigma ^ 2)) ^ 5 / 120 := by
  have h2 : 2 * sigma ^ 2 ≠ 0 := by positivity
  set y := (x - mean) ^ 2 / (2 * sigma ^ 2) with hy
  have hy0 : 0 ≤ y := by positivity
  have hs : ∀ s, Series.make mean sigma = .ok s → s.eval x = expTerms 5 y := by
    intro s hs
    unfold Series.make at hs
    rw [if_neg h] at hs
    rw [← Except.ok.inj hs, hy]
    simp only [Series.eval, expTerms, sum_range_succ, sum_range_zero, Nat.factorial]
    push_cast
    field_simp
    ring
  refine ⟨Real.exp (-y), _, ?_, by unfold Series.make; rw [if_neg h], ?_, ?_⟩
  · unfold Gaussian.eval
    rw [if_neg h2, hy, neg_div]
  · rw [hs _ (by unfold Series.make; rw [if_neg h])]
    have := expTerms_alternate 5 y hy0
    norm_num at this
    linarith
  · rw [hs _ (by unfold Series.make; rw [if_neg h])]
    have := expTerms_alternate 6 y hy0
    have e : expTerms 6 y = expTerms 5 y - y ^ 5 / 120 := by
      simp only [expTerms, sum_range_succ, sum_range_zero, Nat.factorial]
      push_cast
      ring
    rw [e] at this
    norm_num at this
    linarith

/-- C148, one series: neither of the two has a value if the width is zero. -/
theorem C148_zero_width (exp : ℝ → ℝ) (mean x : ℝ) :
    Gaussian.eval exp ⟨mean, 0⟩ x = .error .nonfinite ∧ Series.make mean (0 : ℝ) = .error .nonfinite := by
  simp [Gaussian.eval, Series.make]

/-- C148, the claim: a sum of series has everywhere the value of the sum of their values. -/
def C148Full : Prop :=
  ∀ (m s : ℚ) (rest : List (ℚ × ℚ)) (x : ℚ), s ≠ 0 → (∀ p ∈ rest, p.2 ≠ 0) → ∀ first others, Series.make m s = .ok first →
    List.Forall₂ (fun p o => Series.make p.1 p.2 = .ok o) rest others → addSeries first others x = first.eval x + (others.map (Series.eval · x)).sum

section
variable {K : Type*} [Field K] [DecidableEq K]

theorem add_eval (s o : Series K) (x : K) : (s.add o).eval x = s.eval x + o.eval (x + (o.mean - s.mean)) := by
  unfold Series.add Series.eval
  rw [show x + (o.mean - s.mean) - o.mean = x - s.mean by ring]
  ring

/-- C148, exactly: every series but the first is taken as if its mean were the first one's. -/
theorem C148_exact_partial (first : Series K) (others : List (Series K)) (x : K) :
    addSeries first others x = first.eval x + (others.map fun o => o.eval (x + (o.mean - first.mean))).sum := by
  unfold addSeries
  induction others generalizing first with
  | nil => simp
  | cons o os ih =>
    rw [List.foldl_cons, ih (first.add o), add_eval]
    simp only [List.map_cons, List.sum_cons]
    rw [show (first.add o).mean = first.mean from rfl]
    ring

/-- C148, where it holds: all series have the same mean. -/
theorem C148_partial (first : Series K) (others : List (Series K)) (x : K) (h : ∀ o ∈ others, o.mean = first.mean) :
    addSeries first others x = first.eval x + (others.map (Series.eval · x)).sum := by
  rw [C148_exact_partial]
  congr 2
  apply List.map_congr_left
  intro o ho
  rw [h o ho]
  simp

end

/-- C148 is false of the code: two series of width one with means 0 and 1, at 1. -/
theorem C148_refuted : ¬ C148Full := by
  intro h
  have := h 0 1 [(1, 1)] 1 (by norm_num) (by simp) ⟨0, 1, 1, -1 / 2, 1 / 8, -1 / 48, 1 / 384⟩ [⟨1, 1, 1, -1 / 2, 1 / 8, -1 / 48, 1 / 384⟩]
    (by unfold Series.make; norm_num) (by
      refine .cons ?_ .nil
      unfold Series.make; norm_num)
  norm_num [addSeries, Series.add, Series.eval] at this

/-- C148, together: series of one mean, whatever their widths, add up to the sum of the Gaussians, from above and within the sum of the next terms. -/
theorem C148_gaussians_partial (mean s0 : ℝ) (sigmas : List ℝ) (x : ℝ) (h0 : s0 ≠ 0) (h : ∀ s ∈ sigmas, s ≠ 0) :
    ∃ first others g, Series.make mean s0 = .ok first ∧ List.Forall₂ (fun s o => Series.make mean s = .ok o) sigmas others ∧
      addGaussians Real.exp ((s0 :: sigmas).map (⟨mean, ·⟩)) x = .ok g ∧ g ≤ addSeries first others x ∧
      addSeries first others x - g ≤ ((s0 :: sigmas).map fun s => ((x - mean) ^ 2 / (2 * s ^ 2)) ^ 5 / 120).sum := by
  have key : ∀ (l : List ℝ), (∀ s ∈ l, s ≠ 0) → ∀ acc : ℝ, ∃ os g, List.Forall₂ (fun s o => Series.make mean s = .ok o) l os ∧
      (l.map (Gaussian.mk mean)).foldlM (fun acc g => do return acc + (← g.eval Real.exp x) : ℝ → Gaussian ℝ → Res ℝ) acc = .ok (acc + g) ∧
      (∀ o ∈ os, o.mean = mean) ∧ g ≤ (os.map (Series.eval · x)).sum ∧
      (os.map (Series.eval · x)).sum - g ≤ (l.map fun s => ((x - mean) ^ 2 / (2 * s ^ 2)) ^ 5 / 120).sum := by
    intro l
    induction l with
    | nil => intro _ acc; exact ⟨[], 0, .nil, by simp [pure, Except.pure], by simp, by simp, by simp⟩
    | cons s l ih =>
      intro hl acc
      obtain ⟨g, o, e1, e2, e3, e4⟩ := C148_one mean s x (hl s (by simp))
      obtain ⟨os, gs, f1, f2, f3, f4, f5⟩ := ih (fun a ha => hl a (by simp [ha])) (acc + g)
      refine ⟨o :: os, g + gs, .cons e2 f1, ?_, ?_, ?_, ?_⟩
      · simp only [List.map_cons, List.foldlM_cons, bind, Except.bind, e1, pure, Except.pure] at f2 ⊢
        rw [f2, add_assoc]
      · intro a ha
        rcases List.mem_cons.mp ha with rfl | ha
        · unfold Series.make at e2
          rw [if_neg (hl s (by simp))] at e2
          rw [← Except.ok.inj e2]
        · exact f3 a ha
      · simp only [List.map_cons, List.sum_cons]; linarith
      · simp only [List.map_cons, List.sum_cons]; linarith
  obtain ⟨os, g, f1, f2, f3, f4, f5⟩ := key (s0 :: sigmas) (by
    intro s hs
    rcases List.mem_cons.mp hs with rfl | hs
    · exact h0
    · exact h s hs) 0
  cases f1 with
  | @cons _ first _ others e1 e2 =>
    have hm := f3 first (by simp)
    have hsum := C148_partial first others x (fun o ho => by rw [f3 o (by simp [ho]), hm])
    simp only [List.map_cons, List.sum_cons] at f4
    rw [List.map_cons (f := fun o => Series.eval o x), List.sum_cons] at f5
    refine ⟨first, others, g, e1, e2, ?_, by rw [hsum]; exact f4, by rw [hsum]; exact f5⟩
    unfold addGaussians
    rw [zero_add] at f2
    exact f2

/-- Non-vacuity: widths 1, 2 and 3 about the mean 5. -/
example : (1 : ℝ) ≠ 0 ∧ ∀ s ∈ [(2 : ℝ), 3], s ≠ 0 := by
  constructor
  · norm_num
  · intro s hs
    simp only [List.mem_cons, List.not_mem_nil, or_false] at hs
    rcases hs with rfl | rfl <;> norm_num

/-- The bound at one width from the mean: less than three tenths of a thousandth. -/
example : ((6 - 5 : ℝ) ^ 2 / (2 * 1 ^ 2)) ^ 5 / 120 < 3 / 10000 := by norm_num

end Verif.Properties
