import Verif.Model.Planner

/-!
# `generateTrajectory` called by the user

`src/dynamic_trajectory.cpp` 369-376. The function is public; the worker calls it too (`workerStep`, phases `planned` and `launching`).
-/

namespace Verif.Planner
variable {K : Type*}

/-- `dt.cpp` 369-376 `generateTrajectory`, called when no computation is in progress: a computation is launched. `force` is not read; the waypoints are copied for the
computation (375), which does not read them either (305-306 reads the member instead). `none`: a computation is in progress; the assignment of the future would then
wait for it while the second one runs beside it, which is not modelled. -/
def generateTrajectory (s : Planner K) (_waypoints : List (Waypoint K)) (_force : Bool) : Option (Planner K) :=
  if s.computing then none else some { s with computing := true, future := .launched }

end Verif.Planner
