import Verif.Model.Planner

/-!
# Single precision in the planner's interface

The instant to evaluate is passed to `evaluateTrajectory` as `const float &t` (`include/dynamic_trajectory_generator/dynamic_trajectory.hpp` 176, `src/dynamic_trajectory.cpp`
115, cited as `dt.cpp`): the caller's `double` is rounded to single precision, and only then widened again (121, 123). The speed is rounded when a plan is computed: `float max_speed =
parameters_.speed` (302). In `Model/Planner.lean` both are exact; here `fl` is the rounding. Overflow and subnormal numbers are left out.
-/

namespace Verif

variable {K : Type*} [Field K] [LinearOrder K] [IsStrictOrderedRing K] [FloorSemiring K]

/-- `dt.cpp` 115-139: `evaluateTrajectory` as called with a `double`. -/
def Planner.evaluateTrajectoryFloat (fl : K → K) (env : Env K) (s : Planner K) (t : K) (onlyPositions forPlotting : Bool) :
    Res (Option (References K × Planner K)) :=
  s.evaluateTrajectory env (fl t) onlyPositions forPlotting

/-- `dt.cpp` 302: the optimisation gets the rounded speed. -/
def Env.roundedSpeed (fl : K → K) (env : Env K) : Env K := { env with optimize := fun vs speed => env.optimize vs (fl speed) }

end Verif
