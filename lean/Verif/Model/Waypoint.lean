import Verif.Model.Vertex

/-!
# Dynamic waypoints and their Gaussian compensations

`src/dynamic_waypoint.cpp`, `include/dynamic_trajectory_generator/dynamic_waypoint.hpp`, `.../utils/traj_modifiers.hpp`. The
exponential function is a parameter `exp : K → K`, so that the definitions also run over `ℚ` (where the modified positions are not
needed); the theorems about values take `K = ℝ` and `exp = Real.exp`.
-/

namespace Verif

/-- `Eigen::Vector3d`. -/
@[ext]
structure V3 (K : Type*) where
  x : K
  y : K
  z : K
  deriving DecidableEq, Repr

namespace V3
variable {K : Type*}

/-- Conversion of an `Eigen::Vector3d` to an `Eigen::VectorXd`. -/
def toList (v : V3 K) : List K := [v.x, v.y, v.z]

/-- Conversion of an `Eigen::VectorXd` to an `Eigen::Vector3d`: the sizes must agree (an Eigen assertion), else undefined behaviour. -/
def ofList (l : List K) : Res (V3 K) :=
  match l with
  | [a, b, c] => .ok ⟨a, b, c⟩
  | _ => .error .ub

/-- `operator+`. -/
def add [Add K] (a b : V3 K) : V3 K := ⟨a.x + b.x, a.y + b.y, a.z + b.z⟩

/-- `operator-`. -/
def sub [Sub K] (a b : V3 K) : V3 K := ⟨a.x - b.x, a.y - b.y, a.z - b.z⟩

/-- `Eigen::Vector3d::Zero()`. -/
def zero [Zero K] : V3 K := ⟨0, 0, 0⟩

end V3

section
variable {K : Type*}

/-- `traj_modifiers.hpp` 21-26 `GaussianModifier`: the members. -/
structure Modifier (K : Type*) where
  sigma : K
  sigmaSq : K
  mu : K
  increment : K
  deriving DecidableEq, Repr

/-- `traj_modifiers.hpp` 31-34 `setModifierTime`. -/
def Modifier.setModifierTime (m : Modifier K) (t : K) : Modifier K := { m with mu := t }

/-- `traj_modifiers.hpp` 36-39 `setDifference`. -/
def Modifier.setDifference (m : Modifier K) (d : K) : Modifier K := { m with increment := d }

variable [Field K] [LinearOrder K] [IsStrictOrderedRing K]

/-- `traj_modifiers.hpp` 9 `SIGMA_FIXED`. -/
def sigmaFixed : K := 3 / 2

/-- `traj_modifiers.hpp` 10 `SIGMA_COEFFICIENT`. -/
def sigmaCoefficient : K := 3 / 4

/-- `traj_modifiers.hpp` 23-29: a default constructed modifier. -/
def Modifier.default : Modifier K := ⟨sigmaFixed, sigmaFixed * sigmaFixed, 0, 0⟩

/-- `traj_modifiers.hpp` 40-44 `setSigma`. -/
def Modifier.setSigma (m : Modifier K) (s : K) : Modifier K := { m with sigma := s, sigmaSq := s * s }

/-- `traj_modifiers.hpp` 47-70 `operator()(t, derivative)`. The divisions by `sigma_squared_` are only reached inside the window; with
`sigma_squared_ = 0` they give `0/0`, the outcome `nonfinite`. Orders other than 0, 1, 2 leave `value = 0`. -/
def Modifier.eval (exp : K → K) (m : Modifier K) (t : K) (derivative : Int) : Res K :=
  if |m.increment| < 2 / 100 ∨ |t - m.mu| > 7 / 2 * m.sigma then .ok 0
  else if derivative = 0 then
    if m.sigmaSq = 0 then .error .nonfinite
    else .ok (exp (-1 * (t - m.mu) * (t - m.mu) / (2 * m.sigmaSq)) * m.increment)
  else if derivative = 1 then
    if m.sigmaSq = 0 then .error .nonfinite
    else .ok (-((t - m.mu) / m.sigmaSq) * exp (-((t - m.mu) * (t - m.mu)) / (2 * m.sigmaSq)) * m.increment)
  else if derivative = 2 then
    if m.sigmaSq = 0 then .error .nonfinite
    else .ok (((t - m.mu) / m.sigmaSq) * ((t - m.mu) / m.sigmaSq)
      * exp (-((t - m.mu) * (t - m.mu)) / (2 * m.sigmaSq)) * m.increment)
  else .ok 0

/-- `dynamic_waypoint.hpp` 16-23, 34 `DynamicWaypoint`: the members. A `std::array<GaussianModifier, 3>` is a `V3` of modifiers. -/
structure Waypoint (K : Type*) where
  vertex : Vertex K
  original : V3 K
  current : V3 K
  time : K
  name : String
  index : Int
  modifiers : List (V3 (Modifier K))
  lastSigma : K
  deriving DecidableEq

namespace Waypoint

/-- `dynamic_waypoint.cpp` 5-6, the default constructor. The two positions are not initialised: their values are parameters. -/
def default (original current : V3 K) : Waypoint K :=
  { vertex := Vertex.mk' 3, original := original, current := current, time := 0, name := "", index := -1, modifiers := [],
    lastSigma := sigmaFixed }

/-- `dynamic_waypoint.cpp` 14-23, the constructor from a vertex. Without a position constraint, or with fewer than three entries, the
reads of `pos` are undefined behaviour. -/
def ofVertex (v : Vertex K) (name : String) : Res (Waypoint K) := do
  let pos ← match v.getConstraint 0 with
    | some p => Except.ok p
    | none => Except.error Fail.ub
  let x ← at? pos 0
  let y ← at? pos 1
  let z ← at? pos 2
  return { vertex := v, original := ⟨x, y, z⟩, current := ⟨x, y, z⟩, time := 0, name := name, index := -1, modifiers := [],
           lastSigma := sigmaFixed }

/-- `dynamic_waypoint.cpp` 8-12, the constructor from a vertex and an index. -/
def ofVertexIndex (v : Vertex K) (index : Int) (name : String) : Res (Waypoint K) := do
  let w ← ofVertex v name
  return { w with index := index }

/-- `dynamic_waypoint.cpp` 26-31, the copy constructor: `last_sigma_` is not in the list and gets its default initialiser. -/
def copy (w : Waypoint K) : Waypoint K := { w with lastSigma := sigmaFixed }

/-- `dynamic_waypoint.cpp` 38-56, one iteration of the axis loop: `last_sigma_` before, increment; the modifier and `last_sigma_` after. -/
def axisModifier (tAssigned actualTime lastSigma diff : K) : Modifier K × K :=
  if actualTime > 0 then
    (((Modifier.default.setDifference diff).setModifierTime tAssigned).setSigma ((tAssigned - actualTime) / 3), lastSigma)
  else
    (((Modifier.default.setDifference diff).setModifierTime tAssigned).setSigma (lastSigma * sigmaCoefficient),
      lastSigma * sigmaCoefficient)

/-- `dynamic_waypoint.cpp` 33-60 `setCurrentPosition`. -/
def setCurrentPosition (w : Waypoint K) (p : V3 K) (actualTime : K) : Res (Waypoint K) := do
  let v ← w.vertex.addConstraint 0 p.toList
  let mx := axisModifier w.time actualTime w.lastSigma (p.x - w.current.x)
  let my := axisModifier w.time actualTime mx.2 (p.y - w.current.y)
  let mz := axisModifier w.time actualTime my.2 (p.z - w.current.z)
  return { w with vertex := v, current := p, modifiers := w.modifiers ++ [⟨mx.1, my.1, mz.1⟩], lastSigma := mz.2 }

/-- `dynamic_waypoint.cpp` 65-71: the accumulating loop of `trajectoryCompensation`. -/
def compensationLoop (exp : K → K) (t : K) (order : Int) : List (V3 (Modifier K)) → V3 K → Res (V3 K)
  | [], acc => .ok acc
  | m :: ms, acc => do
    let a ← m.x.eval exp t order
    let b ← m.y.eval exp t order
    let c ← m.z.eval exp t order
    compensationLoop exp t order ms ⟨acc.x + a, acc.y + b, acc.z + c⟩

/-- `dynamic_waypoint.cpp` 62-73 `trajectoryCompensation`. -/
def trajectoryCompensation (exp : K → K) (w : Waypoint K) (t : K) (order : Int) : Res (V3 K) :=
  compensationLoop exp t order w.modifiers V3.zero

/-- `dynamic_waypoint.hpp` 36 `setIndex`. -/
def setIndex (w : Waypoint K) (i : Int) : Waypoint K := { w with index := i }

/-- `dynamic_waypoint.hpp` 37-47 `setTime`. -/
def setTime (w : Waypoint K) (t : K) : Waypoint K :=
  { w with time := t,
           modifiers := w.modifiers.map fun m => ⟨m.x.setModifierTime t, m.y.setModifierTime t, m.z.setModifierTime t⟩ }

/-- `dynamic_waypoint.hpp` 49 `hasModifiers`. -/
def hasModifiers (w : Waypoint K) : Bool := !w.modifiers.isEmpty

/-- `dynamic_waypoint.hpp` 50 `setName`. -/
def setName (w : Waypoint K) (n : String) : Waypoint K := { w with name := n }

/-- `dynamic_waypoint.hpp` 51 `displaceIndex`. -/
def displaceIndex (w : Waypoint K) (d : Int) : Waypoint K := { w with index := w.index + d }

/-- `dynamic_waypoint.hpp` 52-57 `resetWaypointWithCurrentPosition`. -/
def resetWithCurrent (w : Waypoint K) : Res (Waypoint K) := do
  let v ← w.vertex.addConstraint 0 w.current.toList
  return { w with original := w.current, vertex := v, modifiers := [] }

/-- `dynamic_waypoint.hpp` 58-62 `resetWaypoint`. -/
def reset (w : Waypoint K) (p : V3 K) : Res (Waypoint K) := resetWithCurrent { w with current := p }

/-- `dynamic_waypoint.hpp` 65-74 `setConstraint`. -/
def setConstraint (w : Waypoint K) (order : Int) (c : V3 K) : Res (Waypoint K) :=
  if order = 0 then w.reset c
  else do
    let v ← w.vertex.addConstraint order c.toList
    return { w with vertex := v }

end Waypoint
end

end Verif
