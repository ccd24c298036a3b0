import Verif.Spec.Requests

/-! # Points of a plan that the planner made itself (C147) -/

namespace Verif.Spec

variable {K : Type*} [Field K] [LinearOrder K] [IsStrictOrderedRing K]

/-- The names the planner gives to the points it adds to a plan: "" to the position the vehicle starts at (`dt.cpp` 467-477) and
"stitching_point" to the two points joining a new plan to the old one (`dt.cpp` 478-533). -/
def PlannerName (n : String) : Prop := n = "" ∨ n = "stitching_point"

instance (n : String) : Decidable (PlannerName n) := inferInstanceAs (Decidable (_ ∨ _))

/-- How many points of a plan bear such a name. -/
def plannerPoints (ws : List (Waypoint K)) : ℕ := ws.countP fun w => decide (PlannerName w.name)

/-- The user names the waypoints, and not as the planner names its own. -/
def NamedEvent : Event K → Prop
  | .setWaypoints ws => ∀ w ∈ ws, ¬ PlannerName w.name
  | .appendWaypoint w => ¬ PlannerName w.name
  | _ => True

/-- How many computations of a plan have ended. -/
def computed (es : List (Event K)) : ℕ := es.countP fun e => match e with
  | .asyncFinish _ => true
  | _ => false

/-- How many of the waypoints, not counting the planner's own points, lie after the instant `t`. -/
def askedAhead (ws : List (Waypoint K)) (t : K) : ℕ := ws.countP fun w => decide (¬ PlannerName w.name ∧ t < w.time)

end Verif.Spec
