import Mathlib.Algebra.Polynomial.Eval.Degree
import Mathlib.Data.Complex.Basic
import Mathlib.Analysis.Complex.Norm
import Verif.Spec.Polynomial

/-!
# What the answer of the root finder means

Everything is said about polynomials of Mathlib and complex numbers; nothing of the algorithm is mentioned.
-/

namespace Verif.Spec

open Polynomial

/-- A complex number given by its real and imaginary part. -/
def toC (z : ℝ × ℝ) : ℂ := ⟨z.1, z.2⟩

/-- The polynomial `p 0 X^N + … + p N`. -/
noncomputable def descending (p : ℕ → ℝ) (N : ℕ) : ℝ[X] := ∑ i ∈ Finset.range (N + 1), C (p i) * X ^ (N - i)

/-- The sum of the absolute values of the terms of `P` at `x`: the natural measure for the size of the value of `P` at a point of modulus `x`. -/
noncomputable def absEval (P : ℝ[X]) (x : ℝ) : ℝ := ∑ k ∈ Finset.range (P.natDegree + 1), |P.coeff k| * x ^ k

/-- The roots at which one division step may split off factors of `P`, with the quotient `Q`. The value of `P` at the real root, or at the second of two roots, is
tiny (a multiple of the machine precision) compared with the size of the terms of `P` there. Two roots are conjugate, or real and of nearly the same
modulus. -/
inductive SplitsOff (P : ℝ[X]) : List ℂ → ℝ[X] → Prop
  | one (s r : ℝ) (Q : ℝ[X]) : P = (X - C s) * Q + C r →
      |P.eval s| ≤ 40 / 2 ^ 52 * (P.natDegree + 1) * absEval P |s| → SplitsOff P [(s : ℂ)] Q
  | two (s l : ℂ) (Q R : ℝ[X]) : P.map Complex.ofRealHom = (X - C s) * (X - C l) * Q.map Complex.ofRealHom + R.map Complex.ofRealHom →
      R.natDegree ≤ 1 → (l = (starRingEnd ℂ) s ∨ (s.im = 0 ∧ l.im = 0 ∧ |(‖s‖ - ‖l‖)| ≤ 1 / 100 * ‖l‖)) →
      ‖(P.map Complex.ofRealHom).eval l‖ ≤ 290 / 2 ^ 52 * ((P.natDegree + 1) * (P.natDegree + 2)) * absEval P (max ‖s‖ ‖l‖) →
      SplitsOff P [s, l] Q

/-- `Answer P zs complete`: the list `zs` is an answer for the polynomial `P` of positive degree or a non-zero constant: zeros at the origin; the exact zeros of what is
left when that has degree at most two; zeros split off one or two at a time; or, when the search is given up, nothing more. -/
inductive Answer : ℝ[X] → List ℂ → Bool → Prop
  | origin {Q : ℝ[X]} {zs : List ℂ} {b : Bool} : Answer Q zs b → Answer (X * Q) (0 :: zs) b
  | exact (P : ℝ[X]) (zs : List ℂ) : P ≠ 0 → P.natDegree ≤ 2 →
      P.map Complex.ofRealHom = C (P.leadingCoeff : ℂ) * (zs.map fun z => X - C z).prod → Answer P zs true
  | split {P Q : ℝ[X]} {zs zs' : List ℂ} {b : Bool} : 3 ≤ P.natDegree → SplitsOff P zs Q → Q.natDegree + zs.length = P.natDegree →
      Q.leadingCoeff = P.leadingCoeff → Answer Q zs' b → Answer P (zs ++ zs') b
  | gaveUp (P : ℝ[X]) : 3 ≤ P.natDegree → Answer P [] false

/-- `t` is the list of coefficients `c` without the negligible ones (below the smallest normal number `2⁻¹⁰²²`) at its end. -/
def Trimmed (c t : List ℝ) : Prop :=
  ∃ d, c = t ++ d ∧ (∀ x ∈ d, |x| < 1 / 2 ^ 1022) ∧ ∀ x ∈ t.getLast?, 1 / 2 ^ 1022 ≤ |x|

/-- The complex numbers `zs` are exactly the zeros of `P`, with multiplicity. -/
def ExactZeros (P : ℝ[X]) (zs : List ℂ) : Prop :=
  P.map Complex.ofRealHom = C (P.leadingCoeff : ℂ) * (zs.map fun z => X - C z).prod

end Verif.Spec
