import Mathlib.Analysis.Calculus.Deriv.Basic
import Verif.Spec.Trajectory
import Verif.Spec.Polynomial

/-!
# Specification: root finding for the extrema of one segment
-/

namespace Verif.Spec

open Polynomial

/-- The polynomial whose zeros are the places where the magnitude can be extremal: for one dimension the next derivative, for several dimensions half the
derivative of the squared magnitude. -/
noncomputable def critical (s : Segment ℝ) (k : ℕ) : List ℕ → ℝ[X]
  | [d] => derivative^[k + 1] (ofCoeffs (s.polys.getD d []))
  | dims => (dims.map fun d => derivative^[k] (ofCoeffs (s.polys.getD d [])) * derivative^[k + 1] (ofCoeffs (s.polys.getD d []))).sum

/-- The root finder locates, up to `ε`, the real zeros of the one polynomial that matters for derivative `k` of segment `s`. Nothing is asked about other
polynomials. -/
def FindsExtrema (rf : Poly.RootFinder ℝ) (ε : ℝ) (s : Segment ℝ) (dims : List ℕ) (k : ℕ) : Prop :=
  ∀ r, ofCoeffs r = critical s k dims → r.length ≤ 2 * s.N → FindsRealRootsWithin ε r (rf r)

/-- `M` bounds the second time derivative of the squared magnitude on the segment. -/
def CurvatureBound (s : Segment ℝ) (dims : List ℕ) (k : ℕ) (a b M : ℝ) : Prop :=
  ∀ τ ∈ Set.Icc a b, |deriv (deriv fun t => magnitude s dims k t ^ 2) τ| ≤ M

end Verif.Spec
