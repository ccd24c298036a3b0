import Verif.Model.SampledExtrema

/-!
# Maximum velocities and accelerations in the tests of the optimisation

Source: `subpackages/mav_trajectory_generation/test/test_polynomial_optimization.cpp`.
-/

namespace Verif

namespace MaxCheck

/-- Lines 199-216 `getMaxVelocityAndAccelerationAnalytical`: velocity and acceleration. `D` is the member of the fixture. The flags returned are ignored. -/
noncomputable def maxAnalytical (rf : Poly.RootFinder ℝ) (D : ℕ) (tr : Trajectory ℝ) : Res (ℝ × ℝ) := do
  let dims : List Int := (List.range D).map Int.ofNat
  let v ← tr.computeMinMaxMagnitude rf 1 dims ⟨0, 0, 0⟩ ⟨0, 0, 0⟩
  let a ← tr.computeMinMaxMagnitude rf 2 dims ⟨0, 0, 0⟩ ⟨0, 0, 0⟩
  return (v.2.2.value, a.2.2.value)

/-- Lines 218-224 `getMaxVelocityAndAccelerationNumerical`. The sampling interval, 0.01 by default in line 44 of `test_utils.h`, is the parameter `dt`. -/
noncomputable def maxNumerical (fuel : ℕ) (dt : ℝ) (tr : Trajectory ℝ) : Res (ℝ × ℝ) := do
  let v ← getMaximumMagnitude fuel tr 1 dt
  let a ← getMaximumMagnitude fuel tr 2 dt
  return (v, a)

end MaxCheck

end Verif
