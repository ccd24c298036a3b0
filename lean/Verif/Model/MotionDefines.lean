/-!
# Derivative names

Source: `subpackages/mav_trajectory_generation/src/motion_defines.cpp` (`md.cpp`) and `include/mav_trajectory_generation/motion_defines.h` 27-40. `int`
is `Int`.
-/

namespace Verif.MotionDefines

/-- `md.cpp` 25-34 `positionDerivativeToString`: `text[derivative]`. -/
def positionDerivativeToString (derivative : Int) : String :=
  if 0 ≤ derivative ∧ derivative ≤ 4 then
    ["position", "velocity", "acceleration", "jerk", "snap"][derivative.toNat]?.getD ""
  else "invalid"

/-- `md.cpp` 36-51 `positionDerivativeToInt`; `INVALID` is -1. -/
def positionDerivativeToInt (string : String) : Int :=
  if string = "position" then 0
  else if string = "velocity" then 1
  else if string = "acceleration" then 2
  else if string = "jerk" then 3
  else if string = "snap" then 4
  else -1

/-- `md.cpp` 53-62 `orintationDerivativeToString`. -/
def orintationDerivativeToString (derivative : Int) : String :=
  if 0 ≤ derivative ∧ derivative ≤ 2 then
    ["orientation", "angular_velocity", "angular_acceleration"][derivative.toNat]?.getD ""
  else "invalid"

/-- `md.cpp` 64-75 `orientationDerivativeToInt`. -/
def orientationDerivativeToInt (string : String) : Int :=
  if string = "orientation" then 0
  else if string = "angular_velocity" then 1
  else if string = "angular_acceleration" then 2
  else -1

end Verif.MotionDefines
