import Mathlib.Algebra.Polynomial.Eval.Degree
import Mathlib.Algebra.Polynomial.Derivative
import Mathlib.Data.Real.Basic

/-!
# Specification of polynomial objects

Independent of the model: the mathematical polynomial of a coefficient list and its derivatives, from Mathlib.
-/

namespace Verif.Spec

variable {K : Type*} [CommRing K]

/-- The polynomial `c₀ + c₁ X + ... + c_{N-1} X^{N-1}` of a coefficient list. -/
noncomputable def ofCoeffs (c : List K) : Polynomial K :=
  ∑ i ∈ Finset.range c.length, Polynomial.C (c.getD i 0) * Polynomial.X ^ i

/-- Value at `t` of the `k`-th derivative of the polynomial with coefficient list `c`. -/
noncomputable def derivAt (c : List K) (k : ℕ) (t : K) : K :=
  (Polynomial.derivative^[k] (ofCoeffs c)).eval t

/-- Contract of the root finder on one coefficient list: unless the polynomial is zero, every real root is in the list with an
imaginary part that the code accepts as zero. Additional or inexact entries are allowed. -/
def FindsRealRoots (coeffs : List ℝ) (roots : List (ℝ × ℝ)) : Prop :=
  ofCoeffs coeffs ≠ 0 → ∀ x, (ofCoeffs coeffs).eval x = 0 → ∃ z ∈ roots, z.1 = x ∧ |z.2| ≤ 1 / 2 ^ 52

/-- Contract of a root finder that is accurate up to `ε`: unless the polynomial is zero, every real root has an entry of the list near it, with an imaginary part
that the code accepts as zero. -/
def FindsRealRootsWithin (ε : ℝ) (coeffs : List ℝ) (roots : List (ℝ × ℝ)) : Prop :=
  ofCoeffs coeffs ≠ 0 → ∀ x, (ofCoeffs coeffs).eval x = 0 → ∃ z ∈ roots, |z.1 - x| ≤ ε ∧ |z.2| ≤ 1 / 2 ^ 52

end Verif.Spec
