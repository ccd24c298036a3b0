import Verif.Model.Planner

/-!
# Evaluation at an instant that is not a number

`evaluateTrajectory` takes a `float`, stores it as the last evaluated time without looking at it, and the worker thread later reads it back. In
the rest of the model times are elements of a field; here the values that depend on the evaluation instant are *doubles that may be NaN*:
arithmetic with a NaN gives a NaN, every comparison with a NaN is false. Infinities are not modelled.

Modelled again with such doubles: the evaluation, and what the worker thread and the background computation do with the stored time up to the point
where the estimated segment times are checked. Simplifications: the planner has a plan, and nothing is being computed or waiting to be taken over, so
that `checkTrajectoryGenerated` (`dt.cpp` 120) does nothing; no call happens during the worker's round; the square root is a parameter.
That these functions agree with the planner's model on numbers is proved (`C144_numbers`, `C144_numbers_round`).
-/

namespace Verif

/-- A `double`: a number, or (`none`) a NaN. -/
abbrev Dbl (K : Type*) := Option K

namespace Dbl
variable {K : Type*}

/-- Arithmetic: a NaN operand gives a NaN. -/
def lift2 (f : K → K → K) : Dbl K → Dbl K → Dbl K
  | some a, some b => some (f a b)
  | _, _ => none

/-- `a < b`: false if one of them is a NaN. -/
def lt [LinearOrder K] : Dbl K → Dbl K → Bool
  | some a, some b => decide (a < b)
  | _, _ => false

/-- `a / b` for a number `b`. A number divided by zero is infinite, which is not modelled; a NaN stays a NaN. -/
def over [Field K] [DecidableEq K] : Dbl K → K → Res (Dbl K)
  | none, _ => .ok none
  | some a, b => if b = 0 then .error .nonfinite else .ok (some (a / b))

instance [Add K] : Add (Dbl K) := ⟨lift2 (· + ·)⟩
instance [Sub K] : Sub (Dbl K) := ⟨lift2 (· - ·)⟩
instance [Mul K] : Mul (Dbl K) := ⟨lift2 (· * ·)⟩

end Dbl

/-- A vertex of numbers as a vertex of doubles. -/
def Vertex.toDbl {K : Type*} (v : Vertex K) : Vertex (Dbl K) := ⟨v.D, v.constraints.map fun c => (c.1, c.2.map some)⟩

section
variable {K : Type*} [Field K] [LinearOrder K] [IsStrictOrderedRing K]

/-- `polynomial.h` 144-147, as `Poly.hornerLoop`. -/
def hornerDbl (a : Nat → K) (t : Dbl K) (lo : Nat) : Nat → Dbl K → Dbl K
  | 0, acc => acc
  | j + 1, acc => if lo ≤ j then hornerDbl a t lo j (acc * t + some (a j)) else acc

/-- `polynomial.h` 136-149, as `Poly.evaluate`. -/
def Poly.evaluateDbl (c : Poly K) (t : Dbl K) (d : Nat) : Res (Dbl K) :=
  if c.length ≤ d then .ok (some 0)
  else if kMaxConvolutionSize < c.length then .error .ub
  else .ok (hornerDbl (Poly.rowTerm c d) t d (c.length - 1) (some (Poly.rowTerm c d (c.length - 1))))

/-- `trajectory.cpp` 49-64, as `Trajectory.findSegment`: the loop is left at the first segment with `accumulated_time > t`. -/
def findSegmentDbl (t : Dbl K) : List (Segment K) → K → Nat → K × Nat
  | [], acc, i => (acc, i)
  | s :: ss, acc, i => if Dbl.lt t (some (acc + s.time)) then (acc + s.time, i) else findSegmentDbl t ss (acc + s.time) (i + 1)

/-- `trajectory.cpp` 48-79, as `Trajectory.evaluate`. -/
def Trajectory.evaluateDbl (tr : Trajectory K) (t : Dbl K) (k : Nat) : Res (List (Dbl K)) :=
  let r := findSegmentDbl t tr.segments 0 0
  if Dbl.lt (some r.1) t then .ok (List.replicate tr.D (some 0))
  else do
    let i := if tr.segments.length ≤ r.2 then tr.segments.length - 1 else r.2
    let s ← at? tr.segments i
    s.polys.mapM fun p => Poly.evaluateDbl p (t - some (r.1 - s.time)) k

/-- `dt.hpp` 65-73: the two members that `evaluateTrajectory` writes. -/
structure Clocks (K : Type*) where
  lastGlobal : Dbl K
  lastLocal : Dbl K
  deriving DecidableEq

namespace Planner

/-- `dt.cpp` 427-436, as `clampTime`. -/
def clampDbl (localTime : Dbl K) (maxTime : K) : Dbl K :=
  let l := if Dbl.lt localTime (some 0) then some 0 else localTime
  if Dbl.lt (some maxTime) l then some maxTime else l

/-- `dt.cpp` 443-450, as `compensateLoop`. -/
def compensateDbl (env : Env K) (t : K) (order : Nat) : List (Waypoint K) → V3 (Dbl K) → Res (V3 (Dbl K))
  | [], acc => .ok acc
  | w :: ws, acc =>
    if w.name = "" then compensateDbl env t order ws acc
    else do
      let c ← w.trajectoryCompensation env.exp t order
      compensateDbl env t order ws (acc.add ⟨some c.x, some c.y, some c.z⟩)

/-- `dt.cpp` 421-454, as `evaluateModified`. `global_time > 0` is false for a NaN. -/
def evaluateModifiedDbl (env : Env K) (s : Planner K) (traj : Trajectory K) (globalTime localTime : Dbl K) (order : Nat) : Res (V3 (Dbl K)) := do
  let v ← traj.evaluateDbl (clampDbl localTime traj.maxTime) order
  let refs ← V3.ofList v
  match globalTime with
  | some g => if g > 0 then compensateDbl env g order s.dyn refs else return refs
  | none => return refs

/-- `dt.cpp` 141-154, as `getReferences`. -/
def getReferencesDbl (env : Env K) (s : Planner K) (traj : Trajectory K) (globalTime localTime : Dbl K) (onlyPositions : Bool) :
    Res (References (Dbl K)) := do
  let p ← s.evaluateModifiedDbl env traj globalTime localTime 0
  if onlyPositions then return ⟨p, none, none⟩
  else
    let v ← s.evaluateModifiedDbl env traj globalTime localTime 1
    let a ← s.evaluateModifiedDbl env traj globalTime localTime 2
    return ⟨p, some v, some a⟩

/-- `dt.cpp` 122-138, as `evaluateNow`: the references and the stored times. Nothing else is written. -/
def evaluateNowDbl (env : Env K) (s : Planner K) (c : Clocks K) (t : Dbl K) (onlyPositions forPlotting : Bool) :
    Res (References (Dbl K) × Clocks K) :=
  match s.traj with
  | none => .error .ub
  | some traj => do
    let localTime := t - some s.params.gtlg
    let c := if forPlotting then c else ⟨t, localTime⟩
    let refs ← s.getReferencesDbl env traj (t + some s.params.tOffset) (localTime + some s.params.tOffset) onlyPositions
    return (refs, c)

/-- `dt.cpp` 704-718, as `zoneLoop`. -/
def zoneDbl (lastT : Dbl K) (zone : K) : List (Waypoint K) → Bool
  | [] => false
  | w :: ws =>
    if w.name ≠ "" ∧ Dbl.lt lastT (some w.time) then (if Dbl.lt (some zone) (some w.time - lastT) then false else true)
    else zoneDbl lastT zone ws

/-- `dt.cpp` 628-649, as `checkStitchTrajectory`. -/
def checkStitchDbl (s : Planner K) (c : Clocks K) : Bool :=
  match s.traj with
  | none => false
  | some traj => !Dbl.lt (some (traj.maxTime + s.params.gtlg) - c.lastGlobal) (some (2 * s.computationTime))

/-- `dt.cpp` 560-612, as `generateWaypoints`: the waypoints to plan for. -/
def generateWaypointsDbl (s : Planner K) (c : Clocks K) : Res (List (Waypoint K)) := do
  let base ← if s.toSet.length = 0 then
      ((s.dyn.map (·.copy)).filter fun w => !Dbl.lt (some w.time) c.lastGlobal).mapM (·.resetWithCurrent)
    else pure (s.toSet.map (·.copy))
  resetAll s.toModify (base ++ s.toAdd.map (·.copy))

/-- `dt.cpp` 486-512, as `stitchPoint`: the vertex of a stitching waypoint. -/
def stitchVertexDbl (env : Env K) (s : Planner K) (traj : Trajectory K) (localT : Dbl K) (withDerivatives : Bool) : Res (Vertex (Dbl K)) := do
  let refs ← s.getReferencesDbl env traj (localT + some s.params.gtlg) localT false
  let v ← (Vertex.mk' 3 : Vertex (Dbl K)).addConstraint 0 refs.position.toList
  if withDerivatives then do
    let v ← v.addConstraint 1 (refs.velocity.getD ⟨some 0, some 0, some 0⟩).toList
    v.addConstraint 2 (refs.acceleration.getD ⟨some 0, some 0, some 0⟩).toList
  else return v

/-- `dt.cpp` 474-532, as `stitch`: the vertices of the stitched waypoints. -/
def stitchDbl (env : Env K) (s : Planner K) (c : Clocks K) (ws : List (Waypoint K)) : Res (List (Vertex (Dbl K))) :=
  match s.traj with
  | none => .error .ub
  | some traj => do
    let t0 := c.lastLocal + some s.params.tOffset
    let v0 ← s.stitchVertexDbl env traj t0 true
    let t1 := t0 + some (5 * s.computationTime)
    let v1 ← s.stitchVertexDbl env traj t1 false
    let t2 := t1 + some (5 * s.computationTime)
    let keep := ws.filter fun w => !(Dbl.lt (some w.time) (t2 + some s.params.gtlg) && decide (w.time > 0))
    return v0 :: v1 :: keep.map (·.vertex.toDbl)

/-- `dt.cpp` 18-31, as `extractVertices`: the last vertex gets zero velocity and acceleration. -/
def restDbl (vs : List (Vertex (Dbl K))) : Res (List (Vertex (Dbl K))) :=
  match vs.getLast? with
  | none => .error .ub
  | some v => do
    let v1 ← v.addConstraint 1 [some 0, some 0, some 0]
    let v2 ← v1.addConstraint 2 [some 0, some 0, some 0]
    return vs.dropLast ++ [v2]

/-- `dt.cpp` 241-275 and 306: one round of the worker thread with a pending request, up to the vertices handed to the computation; `none`: no
plan is begun. -/
def roundDbl (env : Env K) (s : Planner K) (c : Clocks K) : Res (Option (List (Vertex (Dbl K)))) :=
  if s.traj.isSome && zoneDbl c.lastGlobal (5 * s.computationTime) s.dyn then .ok none
  else do
    let ws ← s.generateWaypointsDbl c
    if ws.length = 0 then return none
    else if s.checkStitchDbl c then do
      let vs ← s.stitchDbl env c ws
      let vs ← restDbl vs
      return some vs
    else do
      let ws ← s.appendDronePosition ws
      let vs ← restDbl (ws.map (·.vertex.toDbl))
      return some vs

end Planner

/-! ### Estimated segment times and their check -/

/-- Euclidean norm (Eigen `norm`) of doubles. -/
def normDbl (sqrt : K → K) (v : List (Dbl K)) : Dbl K := Option.map sqrt ((v.map fun x => x * x).foldr (· + ·) (some 0))

/-- `vertex.cpp` 273-283, as `slowEnd`. -/
def slowEndDbl (sqrt : K → K) (v : Vertex (Dbl K)) : Bool :=
  match v.getConstraint 1 with
  | some x => Dbl.lt (normDbl sqrt x) (some (1 / 10 ^ 6))
  | none => false

/-- `vertex.cpp` 264-287, as `nfabianTime`. -/
def nfabianTimeDbl (sqrt : K → K) (v w : Vertex (Dbl K)) (vMax aMax : K) : Res (Dbl K) := do
  let d ← vsub ((w.getConstraint 0).getD []) ((v.getConstraint 0).getD [])
  let t ← Dbl.over (normDbl sqrt d) vMax
  if slowEndDbl sqrt v || slowEndDbl sqrt w then do
    let r ← Dbl.over (some vMax) aMax
    return t + r
  else return t

/-- `vertex.cpp` 261-288, as `nfabianLoop`. -/
def nfabianLoopDbl (sqrt : K → K) (vMax aMax : K) : List (Vertex (Dbl K)) → Res (List (Dbl K))
  | v :: w :: l => do
    let t ← nfabianTimeDbl sqrt v w vMax aMax
    let ts ← nfabianLoopDbl sqrt vMax aMax (w :: l)
    return t :: ts
  | _ => .ok []

/-- `polynomial_optimization_linear_impl.h` 295-297: `CHECK_GT(segment_time, 0)` for one time after the other. -/
def checkTimesDbl (ts : List (Dbl K)) : Res (List (Dbl K)) :=
  ts.mapM fun t => if Dbl.lt (some 0) t then .ok t else .error .check

/-- `dt.cpp` 307-315 and `polynomial_optimization_linear_impl.h` 56-109, 285-297: from the vertices to the checked segment times, for the maximum speed
and acceleration. What precedes the check in `setupFromVertices` is left out (it succeeds or fails a `CHECK` as well). -/
def segmentTimesDbl (sqrt : K → K) (vs : List (Vertex (Dbl K))) (vMax aMax : K) : Res (List (Dbl K)) :=
  if vs.length < 2 then .error .exc
  else do
    let ts ← nfabianLoopDbl sqrt vMax aMax vs
    checkTimesDbl ts

end

end Verif
