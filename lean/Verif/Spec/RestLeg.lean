import Verif.Spec.SampledExtrema
import Verif.Spec.LinearOpt

/-!
# Specification: a leg from rest to rest

How far a leg has progressed after the part `σ` of its duration, in parts of its length, and the first two derivatives of that.
-/

namespace Verif.Spec

/-- Progress after the part `σ` of the duration. -/
noncomputable def restProgress (σ : ℝ) : ℝ := 126 * σ ^ 5 - 420 * σ ^ 6 + 540 * σ ^ 7 - 315 * σ ^ 8 + 70 * σ ^ 9

/-- Its derivative. -/
noncomputable def restSpeed (σ : ℝ) : ℝ := 630 * (σ * (1 - σ)) ^ 4

/-- Its second derivative. -/
noncomputable def restAcceleration (σ : ℝ) : ℝ := 2520 * (σ * (1 - σ)) ^ 3 * (1 - 2 * σ)

/-- The distance of two points. -/
noncomputable def legLength (a b : List ℝ) : ℝ := euclid (List.zipWith (fun x y => y - x) a b)

end Verif.Spec
