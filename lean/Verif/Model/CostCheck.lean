import Verif.Model.SampledExtrema

/-!
# The check of costs in the tests of the optimisation

Source: `subpackages/mav_trajectory_generation/test/test_polynomial_optimization.cpp`.
-/

namespace Verif

namespace CostCheck

open Classical in
/-- Lines 176-197 `checkCost`. The sampling interval, 0.001 in line 182, is the parameter `dt`; `fuel` bounds the rounds of the loop of `computeCostNumeric`. The first
`CHECK` holds of every `size_t`. -/
noncomputable def checkCost (fuel : ℕ) (dt cost : ℝ) (tr : Trajectory ℝ) (derivative : ℕ) (tolerance : ℝ) : Res Bool :=
  if 0 ≤ tolerance ∧ tolerance ≤ 1 then do
    let numeric ← computeCostNumeric fuel tr derivative dt
    return if |numeric - cost| > numeric * tolerance then false else true
  else .error .check

end CostCheck

end Verif
