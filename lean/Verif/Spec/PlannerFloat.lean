import Verif.Spec.Planner
import Mathlib.Algebra.Order.Round
import Mathlib.Data.Int.Log

/-!
# Specification: numbers of limited precision
-/

namespace Verif.Spec

variable {K : Type*} [Field K] [LinearOrder K] [IsStrictOrderedRing K]

/-- `x` can be written with `p` significant binary digits (`float`: 24, `double`: 53). -/
def Digits (p : ℕ) (x : K) : Prop := ∃ (m e : ℤ), |m| < 2 ^ p ∧ x = m * (2 : K) ^ e

/-- Rounding to a nearest number with `p` digits; how ties are broken is left open. -/
def ToNearest (p : ℕ) (fl : K → K) : Prop := ∀ x, Digits p (fl x) ∧ ∀ y, Digits p y → |fl x - x| ≤ |y - x|

/-- Consecutive segments meet in derivative `k`: where one ends the next one begins. -/
def PiecesMeet (k : ℕ) (tr : Trajectory K) : Prop :=
  ∀ (i : ℕ) (s s' : Segment K), tr.segments[i]? = some s → tr.segments[i + 1]? = some s' → segDeriv s k s.time = segDeriv s' k 0

/-- No component of derivative `k` exceeds `V` at any time of the trajectory. -/
def RateBound (k : ℕ) (tr : Trajectory K) (V : K) : Prop :=
  ∀ t, 0 ≤ t → t ≤ tr.maxTime → ∀ v, tr.evaluate t k = .ok v → ∀ x ∈ v, |x| ≤ V

/-- Contract of the optimizer: the pieces of the trajectories it returns meet in position, velocity, acceleration, jerk and snap. Proved of the modelled optimizer
(`C85_smooth`). -/
def JoinsSmoothly (env : Env K) : Prop := ∀ vs speed tr, env.optimize vs speed = .ok tr → ∀ k ≤ 4, PiecesMeet k tr

end Verif.Spec
