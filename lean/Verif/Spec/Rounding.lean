import Verif.Model.Rounding
import Verif.Spec.Trajectory
import Mathlib.Algebra.BigOperators.Group.Finset.Basic
import Mathlib.Algebra.Order.Round
import Mathlib.Data.Int.Log

/-!
# Specification: rounding
-/

namespace Verif.Spec

/-- Rounding with relative error at most `u`. -/
def RelativeError (u : ℝ) (rnd : ℝ → ℝ) : Prop := ∀ x, |rnd x - x| ≤ u * |x|

/-- What rounding to a set of numbers always satisfies: it keeps the order and changes nothing the second time. -/
def OrderedRounding (rnd : ℝ → ℝ) : Prop := Monotone rnd ∧ ∀ x, rnd (rnd x) = rnd x

/-- Numbers with `p` significant bits and any exponent. -/
def HasBits (p : ℕ) (x : ℝ) : Prop := ∃ (m e : ℤ), |m| < 2 ^ p ∧ x = m * (2 : ℝ) ^ e

/-- Rounding a nonnegative number to the nearest number with `p` significant bits (ties upwards): the last bit of `x` is worth `2 ^ (⌊log₂ x⌋ - p + 1)`. -/
noncomputable def nearestNonneg (p : ℕ) (x : ℝ) : ℝ := round (x / 2 ^ (Int.log 2 x - p + 1)) * 2 ^ (Int.log 2 x - p + 1)

/-- Rounding to the nearest number with `p` significant bits (ties away from zero; `double` has `p = 53`). -/
noncomputable def nearest (p : ℕ) (x : ℝ) : ℝ := if 0 ≤ x then nearestNonneg p x else -nearestNonneg p (-x)

/-- Sum of the absolute values of the terms of the `d`-th derivative at `t` of the polynomial with coefficients `c`: `Σ j (j-1) ⋯ (j-d+1) |c_j| |t|^(j-d)`. -/
noncomputable def absTerms (c : List ℝ) (d : ℕ) (t : ℝ) : ℝ :=
  ∑ j ∈ Finset.Ico d c.length, (j.descFactorial d : ℝ) * |c.getD j 0| * |t| ^ (j - d)

/-- The sum of numbers from left to right with rounding. -/
def roundedSum (rnd : ℝ → ℝ) (l : List ℝ) : ℝ := l.foldl (fun acc x => rnd (acc + x)) 0

/-- The computed time at which segment `j` starts. -/
def roundedStart (rnd : ℝ → ℝ) (segs : List (Segment ℝ)) (j : ℕ) : ℝ := roundedSum rnd ((segs.take j).map (·.time))

/-- The components of `vs` are almost those of the `k`-th derivative of the segment at local time `τ`. -/
def NearDerivative (u : ℝ) (s : Segment ℝ) (k : ℕ) (τ : ℝ) (vs : List ℝ) : Prop :=
  vs.length = s.polys.length ∧ ∀ (d : ℕ) p v, s.polys[d]? = some p → vs[d]? = some v → |v - derivAt p k τ| ≤ ((1 + u) ^ (2 * (s.N - k) - 1) - 1) * absTerms p k τ

/-- Sample number `i` (its time and value) of sampling from `tStart` in steps of `dt`, if the first sampling time is `a₀`: the sampling time is almost `a₀ + i dt`, and the value is
almost the derivative of segment `j` at a time which is almost `tStart + i dt` minus the start of the segment. `B` bounds the times that occur. -/
structure NearSample (u : ℝ) (segs : List (Segment ℝ)) (tStart dt a₀ B : ℝ) (k i : ℕ) (x : ℝ × List ℝ) : Prop where
  time : |x.1 - (a₀ + i * dt)| ≤ ((1 + u) ^ i - 1) * (a₀ + i * dt)
  value : ∃ j s τ, segs[j]? = some s ∧ τ ≤ s.time ∧ NearDerivative u s k τ x.2 ∧ |τ - (tStart + i * dt - startOf segs j)| ≤ ((1 + u) ^ (3 + i + j) - 1) * B

end Verif.Spec
