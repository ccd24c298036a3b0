import Mathlib.MeasureTheory.Integral.IntervalIntegral.Basic
import Mathlib.Analysis.Calculus.ContDiff.Basic
import Verif.Spec.LinearOpt

/-!
# Specification of the cost: the integral of a squared derivative
-/

namespace Verif.Spec

/-- Integral over `[0, t]` of the square of derivative `d` of one polynomial. -/
noncomputable def polyEnergy (d : ℕ) (t : ℝ) (p : Poly ℝ) : ℝ := ∫ x in (0 : ℝ)..t, derivAt p d x ^ 2

/-- Integral over all segments and dimensions of the square of derivative `d`. -/
noncomputable def energy (d : ℕ) (segs : List (Segment ℝ)) : ℝ :=
  (segs.map fun s => (s.polys.map (polyEnergy d s.time)).sum).sum

/-- A piecewise polynomial for the problem: one segment per time, lasting that time, with polynomials of at most `N = h + h` coefficients in
each of the `dim` dimensions, meeting the constraints of the vertices, and smooth up to order `h - 1` at the joints. -/
structure Candidate (h dim : ℕ) (q : Problem ℝ) (segs : List (Segment ℝ)) : Prop where
  times : segs.map (·.time) = q.times
  dims : ∀ s ∈ segs, s.polys.length = dim
  degree : ∀ s ∈ segs, ∀ p ∈ s.polys, p.length ≤ h + h
  constraints : MeetsConstraints h q.vertices segs
  smooth : SmoothJoints h segs

end Verif.Spec
