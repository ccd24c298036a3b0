import Verif.Spec.Waypoint

/-!
# What a waypoint says about itself
-/

namespace Verif.Spec

/-- What can be read from a waypoint: its name, index, time, planned and current position, whether it has compensations, and the constraints of its vertex by order. -/
structure ToldWaypoint (K : Type*) where
  name : String
  index : Int
  time : K
  planned : V3 K
  current : V3 K
  moved : Bool
  constraint : Int → Option (V3 K)

variable {K : Type*}

/-- The record with the constraint of order `k` set to `c`. -/
def ToldWaypoint.constrained (r : ToldWaypoint K) (k : Int) (c : V3 K) : ToldWaypoint K := { r with constraint := fun j => if j = k then some c else r.constraint j }

/-- The record with the waypoint planned anew at `p`. -/
def ToldWaypoint.replanned (r : ToldWaypoint K) (p : V3 K) : ToldWaypoint K := { r.constrained 0 p with planned := p, current := p, moved := false }

/-- What the record becomes by an operation. -/
def ToldWaypoint.after (r : ToldWaypoint K) : WaypointOp K → ToldWaypoint K
  | .update p _ => { r.constrained 0 p with current := p, moved := true }
  | .setTime t => { r with time := t }
  | .setIndex i => { r with index := i }
  | .displaceIndex d => { r with index := r.index + d }
  | .setName n => { r with name := n }
  | .resetCurrent => r.replanned r.current
  | .reset p => r.replanned p
  | .constrain k c => if k = 0 then r.replanned c else r.constrained k c
  | .copy => r

/-- The waypoint `w` reads as the record `r` says. -/
structure ReadsAs (w : Waypoint K) (r : ToldWaypoint K) : Prop where
  name : w.name = r.name
  index : w.index = r.index
  time : w.time = r.time
  planned : w.original = r.planned
  current : w.current = r.current
  moved : w.hasModifiers = r.moved
  constraint : ∀ k : Int, w.vertex.getConstraint k = (r.constraint k).map fun c => [c.x, c.y, c.z]

end Verif.Spec
