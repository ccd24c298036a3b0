import Verif.Model.PlannerAftermath
import Verif.Spec.Planner

/-!
# Specification vocabulary for the time after a failed computation
-/

namespace Verif.Spec

variable {K : Type*} [Field K] [LinearOrder K] [IsStrictOrderedRing K] [FloorSemiring K]

/-- A history from `x` to `y`: calls of any threads that return or are left by an exception, steps of the worker and the computation, and
computations that throw, in any order. -/
inductive GoesOn (env : Env K) (x : Shaken K) : Shaken K → Prop
  | refl : GoesOn env x x
  | returned {y z : Shaken K} (c : ℕ) (e : Event K) : GoesOn env x y → y.step env c e = .ok (.returned z) → GoesOn env x z
  | threw {y z : Shaken K} (c : ℕ) (e : Event K) : GoesOn env x y → y.step env c e = .ok (.threw z) → GoesOn env x z
  | throws {y z : Shaken K} : GoesOn env x y → y.throws = some z → GoesOn env x z

/-- A state some history leads to. -/
def Possible (env : Env K) (x : Shaken K) : Prop := ∃ vehicle, GoesOn env (.init vehicle) x

/-- The calls that return what the plan says: the evaluation, the waypoints. -/
def Evaluating : Event K → Prop
  | .evaluate _ _ _ => True
  | .getDynamicWaypoints => True
  | _ => False

/-- The calls that hand something over or report something else, and the times of the plan. -/
def OtherCall : Event K → Prop
  | .setWaypoints _ => True
  | .appendWaypoint _ => True
  | .modifyWaypoint _ _ _ => True
  | .modifyWaypoints _ => True
  | .getMaxTime => True
  | .getMinTime => True
  | .setSpeed _ => True
  | .getWasTrajectoryRegenerated => True
  | .updateVehiclePosition _ => True
  | _ => False

end Verif.Spec
