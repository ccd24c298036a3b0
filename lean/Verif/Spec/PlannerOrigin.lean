import Verif.Spec.PlannerThreads

/-!
# Where the waypoints of a plan come from
-/

namespace Verif.Spec

variable {K : Type*} [Field K] [LinearOrder K] [IsStrictOrderedRing K] [FloorSemiring K]

/-- What the users have told the planner: the waypoints handed over, the position updates, the vehicle's positions. -/
structure Told (K : Type*) where
  waypoints : List (Waypoint K)
  updates : List (String × V3 K)
  positions : List (V3 K)

/-- After a further step. -/
def Told.hear (g : Told K) : Label K → Told K
  | .user (.setWaypoints ws) => { g with waypoints := g.waypoints ++ ws }
  | .user (.appendWaypoint w) => { g with waypoints := g.waypoints ++ [w] }
  | .user (.modifyWaypoint n x _) => { g with updates := g.updates ++ [(n, x)] }
  | .user (.updateVehiclePosition x) => { g with positions := g.positions ++ [x] }
  | _ => g

/-- `Hears env g0 s0 g s`: the threads lead from `s0` to `s`, in any interleaving; what the planner has been told was `g0` in `s0` and is `g` in `s`. -/
inductive Hears (env : Env K) (g0 : Told K) (s0 : Whole K) : Told K → Whole K → Prop
  | start : Hears env g0 s0 g0 s0
  | call {g : Told K} {s : Whole K} (k : Purpose K) : Hears env g0 s0 g s → s.c.isFree = true → Hears env g0 s0 g ⟨s.p, .start k, s.w⟩
  | step {g : Told K} {l : Label K} {s s' : Whole K} : Hears env g0 s0 g s → ThreadStep env l s s' → Hears env g0 s0 (g.hear l) s'

/-- `w` is a waypoint handed over, with its name and its constraints, at the position it was handed over with or at one an update gave for its name. -/
def AskedFor (g : Told K) (w : Waypoint K) : Prop :=
  ∃ x ∈ g.waypoints, w.name = x.name ∧ (∀ k : Int, k ≠ 0 → w.vertex.getConstraint k = x.vertex.getConstraint k) ∧
    w.vertex.getConstraint 0 = some [w.current.x, w.current.y, w.current.z] ∧ (w.current = x.current ∨ (w.name ≠ "" ∧ (w.name, w.current) ∈ g.updates))

/-- `w` is a start at rest, without name, at a position of the vehicle. -/
def VehicleStart (g : Told K) (w : Waypoint K) : Prop :=
  w.name = "" ∧ ∃ x ∈ g.positions, ∀ k : Int, w.vertex.getConstraint k =
    if k = 0 then some [x.x, x.y, x.z] else if k = 1 ∨ k = 2 then some [0, 0, 0] else none

/-- `w` is something the users asked for, a start where the vehicle was, or a point at which a plan was attached to the previous one. -/
def Explained (g : Told K) (w : Waypoint K) : Prop := AskedFor g w ∨ VehicleStart g w ∨ w.name = "stitching_point"

end Verif.Spec
