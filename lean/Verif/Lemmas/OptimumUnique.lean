import Mathlib.Algebra.Polynomial.Taylor
import Mathlib.Algebra.Polynomial.RingDivision
import Mathlib.Algebra.Polynomial.Roots
import Mathlib.RingTheory.Polynomial.Basic
import Mathlib.Topology.Algebra.Polynomial
import Mathlib.RingTheory.Polynomial.DegreeLT
import Mathlib.LinearAlgebra.FiniteDimensional.Lemmas
import Mathlib.LinearAlgebra.Dimension.Constructions
import Verif.Lemmas.LinearOptCost

/-!
# How much of a polynomial is determined by values of its derivatives at several places
-/

namespace Verif.Lemmas

open Polynomial

theorem iterate_derivative_taylor (r : ℝ) (f : ℝ[X]) (k : ℕ) : derivative^[k] (taylor r f) = taylor r (derivative^[k] f) := by
  induction k with
  | zero => rfl
  | succ k ih =>
    rw [Function.iterate_succ_apply', Function.iterate_succ_apply', ih, taylor_apply, taylor_apply, derivative_comp]
    simp

theorem eval_iterate_zero (f : ℝ[X]) (k : ℕ) : (derivative^[k] f).eval 0 = k.factorial * f.coeff k := by
  rw [← coeff_zero_eq_eval_zero, coeff_iterate_derivative, zero_add, Nat.descFactorial_self, nsmul_eq_mul]

/-- The coefficients from `d` on vanish. -/
def Below (d : ℕ) (f : ℝ[X]) : Prop := ∀ n, d ≤ n → f.coeff n = 0

theorem below_iff (d : ℕ) (f : ℝ[X]) : Below d f ↔ derivative^[d] f = 0 := by
  constructor
  · intro h
    ext n
    rw [coeff_iterate_derivative, h _ (by omega)]
    simp
  · intro h n hn
    have := congrArg (fun p => p.coeff (n - d)) h
    simp only [coeff_iterate_derivative, coeff_zero, Nat.sub_add_cancel hn, nsmul_eq_mul, mul_eq_zero, Nat.cast_eq_zero] at this
    exact this.resolve_left (by rw [Nat.descFactorial_eq_zero_iff_lt]; omega)

theorem below_taylor {d : ℕ} {f : ℝ[X]} (r : ℝ) (h : Below d f) : Below d (taylor r f) := by
  rw [below_iff] at h ⊢
  rw [iterate_derivative_taylor, h, map_zero]

theorem below_ext {d : ℕ} {f g : ℝ[X]} (r : ℝ) (hf : Below d f) (hg : Below d g)
    (h : ∀ k < d, (derivative^[k] f).eval r = (derivative^[k] g).eval 0) : g = taylor r f := by
  ext n
  by_cases hn : d ≤ n
  · rw [hg n hn, below_taylor r hf n hn]
  · have := h n (by omega)
    rw [eval_iterate_zero] at this
    have e : (derivative^[n] f).eval r = (derivative^[n] (taylor r f)).eval 0 := by
      rw [iterate_derivative_taylor, taylor_eval, zero_add]
    rw [e, eval_iterate_zero] at this
    exact (mul_left_cancel₀ (Nat.cast_ne_zero.mpr n.factorial_ne_zero) this).symm

/-- A polynomial with fewer than `d` coefficients and `d` zeros, counted with multiplicities, vanishes. -/
theorem below_zeros {d : ℕ} {f : ℝ[X]} {ι : Type*} [Fintype ι] (τ : ι → ℝ) (hτ : Function.Injective τ) (m : ι → ℕ) (hf : Below d f)
    (hz : ∀ i, ∀ k < m i, (derivative^[k] f).eval (τ i) = 0) (hm : d ≤ ∑ i, m i) : f = 0 := by
  by_contra hne
  have hdvd : ∏ i, (X - C (τ i)) ^ m i ∣ f := by
    refine Finset.prod_dvd_of_coprime ?_ ?_
    · intro i _ j _ hij
      exact (IsCoprime.pow (pairwise_coprime_X_sub_C hτ hij))
    · intro i _
      rcases Nat.eq_zero_or_pos (m i) with h0 | h0
      · rw [h0, pow_zero]; exact one_dvd _
      · rw [← le_rootMultiplicity_iff hne]
        have := (lt_rootMultiplicity_iff_isRoot_iterate_derivative (p := f) (t := τ i) (n := m i - 1) hne).mpr (by
          intro k hk
          exact hz i k (by omega))
        omega
  have h1 := natDegree_le_of_dvd hdvd hne
  rw [natDegree_prod_of_monic _ _ (fun i _ => (monic_X_sub_C _).pow _)] at h1
  simp only [natDegree_pow, natDegree_X_sub_C, mul_one] at h1
  exact hne (leadingCoeff_eq_zero.mp (hf _ (hm.trans h1)))

/-- Fewer than `d` conditions leave a polynomial with fewer than `d` coefficients undetermined. -/
theorem below_exists {d : ℕ} (S : Finset (ℝ × ℕ)) (hS : S.card < d) : ∃ f : ℝ[X], f ≠ 0 ∧ Below d f ∧ ∀ x ∈ S, (derivative^[x.2] f).eval x.1 = 0 := by
  let L : degreeLT ℝ d →ₗ[ℝ] (S → ℝ) :=
    { toFun := fun f x => (derivative^[x.1.2] f.1).eval x.1.1
      map_add' := by intro f g; funext x; simp
      map_smul' := by intro c f; funext x; simp [iterate_derivative_smul] }
  have hlt : Module.finrank ℝ (S → ℝ) < Module.finrank ℝ (degreeLT ℝ d) := by
    rw [Module.finrank_fintype_fun_eq_card, (degreeLTEquiv ℝ d).finrank_eq, Module.finrank_fintype_fun_eq_card]
    simpa using hS
  have : FiniteDimensional ℝ (degreeLT ℝ d) := (degreeLTEquiv ℝ d).symm.finiteDimensional
  obtain ⟨f, hf, hne⟩ := Submodule.exists_mem_ne_zero_of_ne_bot (LinearMap.ker_ne_bot_of_finrank_lt hlt (f := L))
  refine ⟨f.1, fun h => hne (Subtype.ext h), ?_, ?_⟩
  · intro n hn
    exact (mem_degreeLT.mp f.2) |> fun h => coeff_eq_zero_of_degree_lt (lt_of_lt_of_le h (by exact_mod_cast hn))
  · intro x hx
    exact congrFun (LinearMap.mem_ker.mp hf) ⟨x, hx⟩

/-- A polynomial whose squared derivative has no integral has no such derivative. -/
theorem energy_zero {d : ℕ} {t : ℝ} (ht : 0 < t) (f : ℝ[X]) (h : ∫ x in (0 : ℝ)..t, (derivative^[d] f).eval x ^ 2 ≤ 0) : Below d f := by
  rw [below_iff]
  have hzero : ∀ x ∈ Set.Icc 0 t, (derivative^[d] f).eval x = 0 := by
    by_contra hne
    push Not at hne
    obtain ⟨x, hx, hne⟩ := hne
    have := intervalIntegral.integral_pos (f := fun x => (derivative^[d] f).eval x ^ 2) ht ((derivative^[d] f).continuous.pow 2).continuousOn (fun x _ => sq_nonneg _)
      ⟨x, hx, by positivity⟩
    linarith
  exact eq_zero_of_infinite_isRoot _ (Set.Infinite.mono (fun x hx => hzero x hx) (Set.Icc_infinite ht))

/-- The coefficients below `n` as a list. -/
noncomputable def toCoeffs (n : ℕ) (f : ℝ[X]) : List ℝ := (List.range n).map f.coeff

theorem ofCoeffs_toCoeffs {n : ℕ} {f : ℝ[X]} (h : Below n f) : Spec.ofCoeffs (toCoeffs n f) = f := by
  ext i
  rw [coeff_ofCoeffs, toCoeffs, List.getD_eq_getElem?_getD, List.getElem?_map]
  by_cases hi : i < n
  · rw [List.getElem?_range hi]; rfl
  · rw [List.getElem?_eq_none (by simp; omega), h i (by omega)]; rfl

theorem below_ofCoeffs {n : ℕ} {p : List ℝ} (h : p.length ≤ n) : Below n (Spec.ofCoeffs p) := by
  intro i hi
  rw [coeff_ofCoeffs, getD_of_le _ _ (by omega)]

end Verif.Lemmas
