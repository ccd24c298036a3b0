import Mathlib.Analysis.Calculus.LocalExtr.Basic
import Mathlib.Analysis.Calculus.MeanValue
import Mathlib.Analysis.Calculus.Deriv.Polynomial
import Mathlib.Topology.Order.Compact
import Verif.Lemmas.Polynomial

namespace Verif

open Polynomial Spec

/-- A differentiable function on a compact interval attains its minimum in any set of points that contains the end points and the
interior zeros of the derivative. -/
theorem exists_min_candidate {f g : ℝ → ℝ} {a b : ℝ} (hab : a ≤ b) (hf : ∀ x, HasDerivAt f (g x) x)
    {S : Set ℝ} (ha : a ∈ S) (hb : b ∈ S) (hS : (∃ x, g x ≠ 0) → ∀ x ∈ Set.Icc a b, g x = 0 → x ∈ S) :
    ∃ x ∈ S, x ∈ Set.Icc a b ∧ ∀ y ∈ Set.Icc a b, f x ≤ f y := by
  have hcont : ContinuousOn f (Set.Icc a b) := fun x _ => (hf x).continuousAt.continuousWithinAt
  obtain ⟨x, hx, hmin⟩ := isCompact_Icc.exists_isMinOn (Set.nonempty_Icc.mpr hab) hcont
  by_cases hg : ∃ x, g x ≠ 0
  · by_cases hxa : x = a
    · subst hxa; exact ⟨x, ha, hx, fun y hy => hmin hy⟩
    by_cases hxb : x = b
    · subst hxb; exact ⟨x, hb, hx, fun y hy => hmin hy⟩
    have hloc : IsLocalMin f x := hmin.isLocalMin
      (Icc_mem_nhds (lt_of_le_of_ne hx.1 (Ne.symm hxa)) (lt_of_le_of_ne hx.2 hxb))
    have h0 : g x = 0 := hloc.hasDerivAt_eq_zero (hf x)
    exact ⟨x, hS hg x hx h0, hx, fun y hy => hmin hy⟩
  · push Not at hg
    have hd : Differentiable ℝ f := fun x => (hf x).differentiableAt
    have hconst := is_const_of_deriv_eq_zero hd (fun x => by rw [(hf x).deriv, hg x])
    exact ⟨a, ha, Set.left_mem_Icc.mpr hab, fun y _ => (hconst a y).le⟩

/-- Same for the maximum. -/
theorem exists_max_candidate {f g : ℝ → ℝ} {a b : ℝ} (hab : a ≤ b) (hf : ∀ x, HasDerivAt f (g x) x)
    {S : Set ℝ} (ha : a ∈ S) (hb : b ∈ S) (hS : (∃ x, g x ≠ 0) → ∀ x ∈ Set.Icc a b, g x = 0 → x ∈ S) :
    ∃ x ∈ S, x ∈ Set.Icc a b ∧ ∀ y ∈ Set.Icc a b, f y ≤ f x := by
  obtain ⟨x, hxS, hx, h⟩ := exists_min_candidate (f := fun x => - f x) (g := fun x => - g x) hab
    (fun x => (hf x).neg) ha hb (fun ⟨x, hx⟩ y hy h0 => hS ⟨x, by simpa using hx⟩ y hy (by simpa using h0))
  exact ⟨x, hxS, hx, fun y hy => by simpa using h y hy⟩

theorem hasDerivAt_derivAt (c : List ℝ) (k : ℕ) (t : ℝ) :
    HasDerivAt (derivAt c k) (derivAt c (k + 1) t) t := by
  unfold derivAt
  rw [Function.iterate_succ_apply']
  exact (derivative^[k] (ofCoeffs c)).hasDerivAt t

theorem ofCoeffs_eval (c : List ℝ) (t : ℝ) : (ofCoeffs c).eval t = derivAt c 0 t := rfl

/-- The min/max loop over candidates whose values all lie within the range of `double`. -/
theorem minMaxLoop_spec (c : Poly ℝ) (d : ℕ) (hc : c.length ≤ kMaxConvolutionSize) (S : Set ℝ) (ts : List ℝ)
    (hts : ∀ t ∈ ts, t ∈ S) (st : (ℝ × ℝ) × (ℝ × ℝ)) (h1 : st.1.1 ∈ S) (h2 : st.2.1 ∈ S) :
    ∃ r, Poly.minMaxLoop c d ts st = .ok r ∧ r.1.1 ∈ S ∧ r.2.1 ∈ S ∧
      (r.1 = st.1 ∨ (r.1.1 ∈ ts ∧ r.1.2 = derivAt c d r.1.1)) ∧
      (r.2 = st.2 ∨ (r.2.1 ∈ ts ∧ r.2.2 = derivAt c d r.2.1)) ∧
      r.1.2 ≤ st.1.2 ∧ st.2.2 ≤ r.2.2 ∧
      (∀ t ∈ ts, r.1.2 ≤ derivAt c d t) ∧ (∀ t ∈ ts, derivAt c d t ≤ r.2.2) := by
  induction ts generalizing st with
  | nil => exact ⟨st, rfl, h1, h2, Or.inl rfl, Or.inl rfl, le_refl _, le_refl _, by simp, by simp⟩
  | cons t ts ih =>
    set v := derivAt c d t with hv
    have htS : t ∈ S := hts t (by simp)
    obtain ⟨r, hr, a1, a2, a3, a4, a5, a6, a7, a8⟩ := ih (fun s hs => hts s (by simp [hs])) (Poly.minMaxStep st t v)
      (by unfold Poly.minMaxStep; simp only; split <;> assumption)
      (by unfold Poly.minMaxStep; simp only; split <;> assumption)
    refine ⟨r, ?_, a1, a2, ?_, ?_, ?_, ?_, ?_, ?_⟩
    · unfold Poly.minMaxLoop
      rw [evaluate_eq c t d hc]
      exact hr
    · rcases a3 with a3 | ⟨a3, a3'⟩
      · by_cases hlt : v < st.1.2
        · right
          have e : (Poly.minMaxStep st t v).1 = (t, v) := by simp [Poly.minMaxStep, hlt]
          rw [a3, e]; exact ⟨by simp, hv⟩
        · left
          rw [a3]; simp [Poly.minMaxStep, hlt]
      · exact Or.inr ⟨by simp [a3], a3'⟩
    · rcases a4 with a3 | ⟨a3, a3'⟩
      · by_cases hlt : st.2.2 < v
        · right
          have e : (Poly.minMaxStep st t v).2 = (t, v) := by simp [Poly.minMaxStep, hlt]
          rw [a3, e]; exact ⟨by simp, hv⟩
        · left
          rw [a3]; simp [Poly.minMaxStep, hlt]
      · exact Or.inr ⟨by simp [a3], a3'⟩
    · refine a5.trans ?_
      unfold Poly.minMaxStep; simp only; split
      · rename_i h; exact h.le
      · exact le_refl _
    · refine le_trans ?_ a6
      unfold Poly.minMaxStep; simp only; split
      · rename_i h; exact h.le
      · exact le_refl _
    · intro s hs
      rcases List.mem_cons.mp hs with rfl | hs
      · refine a5.trans ?_
        unfold Poly.minMaxStep; simp only; split
        · exact le_refl _
        · rename_i h; exact not_lt.mp h
      · exact a7 s hs
    · intro s hs
      rcases List.mem_cons.mp hs with rfl | hs
      · refine le_trans ?_ a6
        unfold Poly.minMaxStep; simp only; split
        · exact le_refl _
        · rename_i h; exact not_lt.mp h
      · exact a8 s hs

end Verif
