import Mathlib.Algebra.Order.Floor.Semiring
import Verif.Model.Waypoint

/-!
# `DynamicTrajectory`: planner, worker thread and background computation

`src/dynamic_trajectory.cpp` (cited as `dt.cpp`) and `include/dynamic_trajectory_generator/dynamic_trajectory.hpp` (`dt.hpp`).

This model is a state machine. Calls of the public interface are single transitions; the worker thread's loop body is cut into
phases (one per critical section), and the background computation into start and end, so calls of user threads may happen between any two
of them. Finer interleavings (inside a user call, between reading and writing a flag) are the subject of `Model/Concurrency.lean`.

Simplifications: `float`/`double` are exact; the step `0.1f` is `1/10`; comparisons of norms are comparisons of squared norms;
`algorithm_time_constant` (never changed, never used) is left out; logging is left out; the measured computation time is an arbitrary
input of the event that ends a computation; the optimizer call (`dt.cpp` 314-342) is a parameter.
-/

namespace Verif

section
variable (K : Type*)

/-- `dt.hpp` 65-73 `NumericParameters`. -/
structure Params where
  lastLocal : K
  tOffset : K
  lastGlobal : K
  speed : K
  gtlg : K
  deriving DecidableEq, Repr

/-- The `std::future<ThreadSafeTrajectory>` member and the state of the task behind it (`dt.hpp` 90, `dt.cpp` 374-375): not valid;
task launched; task has read the speed (`dt.cpp` 301-303); finished with a trajectory; finished with an exception. -/
inductive Future where
  | invalid
  | launched
  | running (speed : K)
  | ready (traj : Trajectory K)
  | failed
  deriving DecidableEq

/-- Position of the worker thread in its loop (`dt.cpp` 239-294). -/
inductive WorkerPc where
  | top
  | collect
  | collected
  | snapshotted
  | planned
  | launching
  | launched
  | apply
  deriving DecidableEq, Repr

/-- `dt.hpp` 43-60 `References`; `none` is an indeterminate (never written) vector. -/
structure References where
  position : V3 K
  velocity : Option (V3 K)
  acceleration : Option (V3 K)
  deriving DecidableEq, Repr

/-- `dt.hpp` 64-119, 219: the members of `DynamicTrajectory` that are read or written by modelled code, and the worker's position. -/
structure Planner where
  params : Params K
  newParams : Params K
  traj : Option (Trajectory K)
  future : Future K
  fromScratch : Bool
  vehicle : V3 K
  dyn : List (Waypoint K)
  next : List (Waypoint K)
  toAdd : List (Waypoint K)
  toSet : List (Waypoint K)
  toModify : List (String × V3 K)
  generateNew : Bool
  computing : Bool
  regenerated : Bool
  timeConstant : K
  pc : WorkerPc
  deriving DecidableEq

/-- What the model takes from outside: the exponential function and the optimizer (`dt.cpp` 314-342: estimation of the segment times from
the vertices and the maximum speed, non-linear optimization, extraction of the trajectory). -/
structure Env where
  exp : K → K
  optimize : List (Vertex K) → K → Res (Trajectory K)

end

namespace Future
variable {K : Type*}

/-- `std::future::valid`. -/
def valid : Future K → Bool
  | invalid => false
  | _ => true

/-- `wait_for(0ms) == ready` on a valid future. -/
def isReady : Future K → Bool
  | ready _ => true
  | failed => true
  | _ => false

end Future

section Static
variable {K : Type*} [Field K] [LinearOrder K] [IsStrictOrderedRing K]

/-- `dt.cpp` 18-31 `extractVerticesFromWaypoints`: `vertices[size - 1]` of an empty vector is undefined behaviour. -/
def extractVertices (ws : List (Waypoint K)) : Res (List (Vertex K)) :=
  match ws.getLast? with
  | none => .error .ub
  | some w => do
    let v1 ← w.vertex.addConstraint 1 (V3.zero : V3 K).toList
    let v2 ← v1.addConstraint 2 (V3.zero : V3 K).toList
    return (ws.dropLast.map (·.vertex)) ++ [v2]

/-- `dt.cpp` 41-44: the loop of `getCummulativeTime`, from segment `i - 1` down to 0. -/
def cumulativeLoop (segs : List (Segment K)) : Nat → K → Res K
  | 0, acc => .ok acc
  | i + 1, acc => do
    let s ← at? segs i
    cumulativeLoop segs i (acc + s.time)

/-- `dt.cpp` 33-46 `getCummulativeTime`. -/
def getCummulativeTime (segs : List (Segment K)) (i : Int) : Res K :=
  if i < 0 ∨ i > segs.length then .error .exc else cumulativeLoop segs i.toNat 0

/-- `dt.cpp` 345-352: indices and times of the planned waypoints. -/
def assignTimes (segs : List (Segment K)) (gtlg : K) : List (Waypoint K) → Nat → Res (List (Waypoint K))
  | [], _ => .ok []
  | w :: ws, i => do
    let t ← getCummulativeTime segs i
    let ws' ← assignTimes segs gtlg ws (i + 1)
    return ((w.setIndex i).setTime (t + gtlg)) :: ws'

/-- `dt.cpp` 542-558 `resetWaypointThroughDeque`. -/
def resetThrough (name : String) (p : V3 K) (ws : List (Waypoint K)) : Res (List (Waypoint K)) :=
  if name = "" then .ok ws
  else ws.mapM fun w => if w.name = name then w.reset p else .ok w

/-- `dt.cpp` 604-607: the loop over the pending modifications. -/
def resetAll : List (String × V3 K) → List (Waypoint K) → Res (List (Waypoint K))
  | [], ws => .ok ws
  | (n, p) :: ms, ws => do
    let ws' ← resetThrough n p ws
    resetAll ms ws'

end Static

namespace Planner
variable {K : Type*} [Field K] [LinearOrder K] [IsStrictOrderedRing K]

/-- `dt.hpp` 65-73, 89-117, 124-126: the state after construction. `vehicle_position_` is not initialised, its value is a parameter. -/
def init (vehicle : V3 K) : Planner K :=
  { params := ⟨0, 0, 0, 0, 0⟩, newParams := ⟨0, 0, 0, 0, 0⟩, traj := none, future := .invalid, fromScratch := true, vehicle := vehicle,
    dyn := [], next := [], toAdd := [], toSet := [], toModify := [], generateNew := false, computing := false, regenerated := false,
    timeConstant := 0, pc := .top }

/-! ### Requests -/

/-- `dt.cpp` 60-73 `setWaypoints`. -/
def setWaypoints (s : Planner K) (ws : List (Waypoint K)) : Planner K :=
  { s with toSet := ws.map (·.copy), toModify := [], toAdd := [], generateNew := true }

/-- `dt.cpp` 75-80 `appendWaypoint`. -/
def appendWaypoint (s : Planner K) (w : Waypoint K) : Planner K :=
  { s with toAdd := s.toAdd ++ [w.copy], generateNew := true }

/-- `dt.cpp` 88-100: update of the list of pending modifications (the first entry with the name is overwritten). -/
def putModification (name : String) (p : V3 K) : List (String × V3 K) → List (String × V3 K)
  | [] => [(name, p)]
  | m :: ms => if m.1 = name then (name, p) :: ms else m :: putModification name p ms

/-- `dt.cpp` 82-102 `modifyWaypoint`. -/
def modifyWaypoint (s : Planner K) (name : String) (p : V3 K) (generate : Bool) : Planner K :=
  { s with toModify := putModification name p s.toModify, generateNew := generate }

/-- `dt.cpp` 104-113 `modifyWaypoints` (here without interruption). -/
def modifyWaypoints (s : Planner K) (ms : List (String × V3 K)) : Planner K :=
  { ms.foldl (fun s m => s.modifyWaypoint m.1 m.2 false) s with generateNew := true }

/-! ### Evaluation -/

/-- `dt.cpp` 443-450: the compensations of all named waypoints are added. -/
def compensateLoop (env : Env K) (t : K) (order : Nat) : List (Waypoint K) → V3 K → Res (V3 K)
  | [], acc => .ok acc
  | w :: ws, acc =>
    if w.name = "" then compensateLoop env t order ws acc
    else do
      let c ← w.trajectoryCompensation env.exp t order
      compensateLoop env t order ws (acc.add c)

/-- `dt.cpp` 427-436: the local time is clamped to the trajectory. -/
def clampTime (localTime maxTime : K) : K :=
  let l := if localTime < 0 then 0 else localTime
  if l > maxTime then maxTime else l

/-- `dt.cpp` 421-454 `evaluateModifiedTrajectory`. -/
def evaluateModified (env : Env K) (s : Planner K) (traj : Trajectory K) (globalTime localTime : K) (order : Nat) : Res (V3 K) := do
  let v ← traj.evaluate (clampTime localTime traj.maxTime) order
  let refs ← V3.ofList v
  if globalTime > 0 then compensateLoop env globalTime order s.dyn refs else return refs

/-- `dt.cpp` 141-154 `getReferences`. -/
def getReferences (env : Env K) (s : Planner K) (traj : Trajectory K) (globalTime localTime : K) (onlyPositions : Bool) :
    Res (References K) := do
  let p ← s.evaluateModified env traj globalTime localTime 0
  if onlyPositions then return ⟨p, none, none⟩
  else
    let v ← s.evaluateModified env traj globalTime localTime 1
    let a ← s.evaluateModified env traj globalTime localTime 2
    return ⟨p, some v, some a⟩

/-- `dt.hpp` 32-33 `TRAJECTORY_COMPUTATION_TIME` (with `computeSecurityTime`, 222-226). -/
def computationTime (s : Planner K) : K := 2 * s.timeConstant

/-- Squared Euclidean distance. -/
def distSq (a b : V3 K) : K := (a.x - b.x) * (a.x - b.x) + (a.y - b.y) * (a.y - b.y) + (a.z - b.z) * (a.z - b.z)

/-- `dt.cpp` 741-752: the search loop of the time fitting; `n` further steps, the next one at `i * 0.1`. State: smallest (squared)
distance and its time. -/
def fitLoop (env : Env K) (s : Planner K) (traj : Trajectory K) (target : V3 K) : Nat → Nat → K → K → Res (K × K)
  | 0, _, d, m => .ok (d, m)
  | n + 1, i, d, m => do
    let t : K := i * (1 / 10)
    let p ← s.evaluateModified env traj (t + s.newParams.gtlg) t 0
    if distSq p target ≤ d then fitLoop env s traj target n (i + 1) (distSq p target) t
    else fitLoop env s traj target n (i + 1) d m

/-- `dt.cpp` 727-770 `timeFittingWithVehiclePosition`: the new `new_parameters_.t_offset`. The loop runs for `t = 0.1 i`, `i ≥ 1`, `t <
max_eval_time`, so `⌈max_eval_time / 0.1⌉ - 1` times. -/
def timeFitting [FloorSemiring K] (env : Env K) (s : Planner K) (traj : Trajectory K) (target : V3 K) : Res (Planner K) := do
  let maxEval : K := 3 / 2 * s.computationTime
  let p ← s.evaluateModified env traj (0 + s.newParams.gtlg) 0 0
  let r ← fitLoop env s traj target (⌈maxEval / (1 / 10)⌉₊ - 1) 1 (distSq p target) 0
  let mid := s.params.lastGlobal - s.newParams.gtlg
  return { s with newParams := { s.newParams with tOffset := r.2 - mid + 1 / 10 } }

/-- `dt.cpp` 378-411 `swapTrajectory`. `future.get()` throws for a failed task, and is undefined behaviour on an invalid future; it would
wait for an unfinished task, which the caller excludes. In the second branch `traj_` is dereferenced. -/
def swapTrajectory [FloorSemiring K] (env : Env K) (s : Planner K) : Res (Planner K) :=
  match s.future with
  | .ready new => do
    let s := { s with future := .invalid }
    let s ← if s.fromScratch then do
        let s' ← s.timeFitting env new s.vehicle
        pure { s' with fromScratch := false }
      else
        match s.traj with
        | none => .error .ub
        | some old => do
          let target ← s.evaluateModified env old (s.params.lastGlobal + s.params.tOffset) (s.params.lastLocal + s.params.tOffset) 0
          s.timeFitting env new target
    return { s with params := s.newParams, traj := some new, regenerated := true }
  | .failed => .error .exc
  | .invalid => .error .ub
  | _ => .error .hang

/-- `dt.cpp` 413-419 `swapDynamicWaypoints`. Element-wise assignment or copy construction: in both cases `last_sigma_` ends up with the
initial value, because every element of `next_trajectory_waypoint_` was itself made by copy construction. -/
def swapDynamicWaypoints (s : Planner K) : Planner K := { s with dyn := s.next.map (·.copy) }

/-- `dt.cpp` 651-683 `checkTrajectoryGenerated`; `none`: the call waits in this state. -/
def checkTrajectoryGenerated [FloorSemiring K] (env : Env K) (s : Planner K) : Res (Option (Planner K)) :=
  if s.traj.isNone && !s.future.isReady then .ok none
  else if s.computing && s.future.valid && s.future.isReady then do
    let s ← s.swapTrajectory env
    let s := s.swapDynamicWaypoints
    return some { s with computing := false, generateNew := false }
  else .ok (some s)

/-- `dt.cpp` 115-139 `evaluateTrajectory` after `checkTrajectoryGenerated`. -/
def evaluateNow (env : Env K) (s : Planner K) (t : K) (onlyPositions forPlotting : Bool) : Res (References K × Planner K) :=
  match s.traj with
  | none => .error .ub
  | some traj => do
    let localTime := t - s.params.gtlg
    let s := if forPlotting then s else { s with params := { s.params with lastGlobal := t, lastLocal := localTime } }
    let refs ← s.getReferences env traj (t + s.params.tOffset) (localTime + s.params.tOffset) onlyPositions
    return (refs, s)

/-- `dt.cpp` 115-139 `evaluateTrajectory`; `none`: the call waits. -/
def evaluateTrajectory [FloorSemiring K] (env : Env K) (s : Planner K) (t : K) (onlyPositions forPlotting : Bool) :
    Res (Option (References K × Planner K)) := do
  match ← s.checkTrajectoryGenerated env with
  | none => return none
  | some s => do
    let r ← s.evaluateNow env t onlyPositions forPlotting
    return some r

/-! ### Getters and setters -/

/-- `dt.cpp` 162-165, 171-174: wait (and take over) only if there is no trajectory yet. -/
def ensureTrajectory [FloorSemiring K] (env : Env K) (s : Planner K) : Res (Option (Planner K)) :=
  if s.traj.isSome then .ok (some s) else s.checkTrajectoryGenerated env

/-- `dt.cpp` 160-167 `getMaxTime`. -/
def getMaxTime [FloorSemiring K] (env : Env K) (s : Planner K) : Res (Option (K × Planner K)) := do
  match ← s.ensureTrajectory env with
  | none => return none
  | some s =>
    match s.traj with
    | none => .error .ub
    | some traj => return some (traj.maxTime + s.params.gtlg, s)

/-- `dt.cpp` 169-176 `getMinTime` (`Trajectory::getMinTime` returns 0). -/
def getMinTime [FloorSemiring K] (env : Env K) (s : Planner K) : Res (Option (K × Planner K)) := do
  match ← s.ensureTrajectory env with
  | none => return none
  | some s =>
    match s.traj with
    | none => .error .ub
    | some _ => return some (0 + s.params.gtlg, s)

/-- `dt.cpp` 178-183 `getDynamicWaypoints`. -/
def getDynamicWaypoints [FloorSemiring K] (env : Env K) (s : Planner K) : Res (Option (List (Waypoint K) × Planner K)) := do
  match ← s.checkTrajectoryGenerated env with
  | none => return none
  | some s => return some (s.dyn.map (·.copy), s)

/-- `dt.cpp` 185-189 `getSpeed`. -/
def getSpeed (s : Planner K) : K := s.params.speed

/-- `dt.cpp` 198-203 `setSpeed`. -/
def setSpeed (s : Planner K) (v : K) : Planner K :=
  { s with params := { s.params with speed := v }, newParams := { s.newParams with speed := v } }

/-- `dt.cpp` 205-209 `getTimeCompensation`. -/
def getTimeCompensation (s : Planner K) : K := s.params.tOffset

/-- `dt.cpp` 211-216 `getWasTrajectoryRegenerated` (here without interruption). -/
def getWasTrajectoryRegenerated (s : Planner K) : Bool × Planner K := (s.regenerated, { s with regenerated := false })

/-- `dt.hpp` 189-192 `updateVehiclePosition`. -/
def updateVehiclePosition (s : Planner K) (p : V3 K) : Planner K := { s with vehicle := p }

/-- `dt.hpp` 132-146 `getNextTrajectoryWaypoints`. -/
def getNextTrajectoryWaypoints (s : Planner K) : List (Waypoint K) :=
  (s.dyn.filter fun w => decide (w.time > s.params.lastGlobal)).map (·.copy)

/-- `dt.hpp` 155-163: the loop that discounts leading stitching points. -/
def discountStitching : List (Waypoint K) → Int → Int
  | [], n => n
  | w :: ws, n => if w.name = "stitching_point" then discountStitching ws (n - 1) else n

/-- `dt.hpp` 152-165 `getRemainingWaypoints`. -/
def getRemainingWaypoints (s : Planner K) : Int :=
  let ws := s.getNextTrajectoryWaypoints
  discountStitching ws ws.length

/-! ### Worker thread -/

/-- `dt.cpp` 704-718: the loop of `checkInSecurityZone`. -/
def zoneLoop (lastT zone : K) : List (Waypoint K) → Bool
  | [] => false
  | w :: ws => if w.name ≠ "" ∧ w.time > lastT then (if w.time - lastT > zone then false else true) else zoneLoop lastT zone ws

/-- `dt.cpp` 696-720 `checkInSecurityZone`; `dt.hpp` 28, 35-36: five times the computation time. -/
def checkInSecurityZone (s : Planner K) : Bool :=
  match s.traj with
  | none => false
  | some _ => zoneLoop s.params.lastGlobal (5 * s.computationTime) s.dyn

/-- `dt.cpp` 722-725 `checkIfTrajectoryCanBeGenerated`. -/
def checkIfTrajectoryCanBeGenerated (s : Planner K) : Bool := !s.checkInSecurityZone && !s.computing

/-- `dt.cpp` 628-649 `checkStitchTrajectory`. -/
def checkStitchTrajectory (s : Planner K) : Bool :=
  match s.traj with
  | none => false
  | some traj => !decide (traj.maxTime + s.params.gtlg - s.params.lastGlobal < 2 * s.computationTime)

/-- `dt.cpp` 560-577 `filterPassedWaypoints`. -/
def filterPassed (s : Planner K) (ws : List (Waypoint K)) : List (Waypoint K) :=
  ws.filter fun w => !decide (w.time < s.params.lastGlobal)

/-- `dt.cpp` 579-612 `generateWaypointsForTheNextTrajectory`. -/
def generateWaypoints (s : Planner K) : Res (List (Waypoint K) × Planner K) := do
  let base ← if s.toSet.length = 0 then (s.filterPassed (s.dyn.map (·.copy))).mapM (·.resetWithCurrent)
    else pure (s.toSet.map (·.copy))
  let all ← resetAll s.toModify (base ++ s.toAdd.map (·.copy))
  return (all, { s with toSet := [], toAdd := [], toModify := [] })

/-- `dt.cpp` 486-512: one stitching waypoint: the references at `localT` as constraints up to the given order. -/
def stitchPoint (env : Env K) (s : Planner K) (traj : Trajectory K) (localT : K) (withDerivatives : Bool) : Res (Waypoint K) := do
  let refs ← s.getReferences env traj (localT + s.params.gtlg) localT false
  let v ← (Vertex.mk' 3 : Vertex K).addConstraint 0 refs.position.toList
  let v ← if withDerivatives then do
      let v ← v.addConstraint 1 (refs.velocity.getD V3.zero).toList
      v.addConstraint 2 (refs.acceleration.getD V3.zero).toList
    else pure v
  Waypoint.ofVertex v "stitching_point"

/-- `dt.cpp` 474-532 `stitchActualTrajectoryWithNewWaypoints` (the first argument is not used by the code). -/
def stitch (env : Env K) (s : Planner K) (ws : List (Waypoint K)) : Res (List (Waypoint K)) :=
  match s.traj with
  | none => .error .ub
  | some traj => do
    let t0 := s.newParams.lastLocal + s.params.tOffset
    let w0 ← s.stitchPoint env traj t0 true
    let t1 := t0 + 5 * s.computationTime
    let w1 ← s.stitchPoint env traj t1 false
    let t2 := t1 + 5 * s.computationTime
    let keep := ws.filter fun w => !decide (w.time < t2 + s.params.gtlg ∧ w.time > 0)
    return w0 :: w1 :: keep.map (·.copy)

/-- `dt.cpp` 614-622 `appendDronePositionWaypoint`. The indeterminate positions of the default constructed waypoint are overwritten by
`resetWaypoint`, so zeros are used for them. -/
def appendDronePosition (s : Planner K) (ws : List (Waypoint K)) : Res (List (Waypoint K)) := do
  let w ← (Waypoint.default V3.zero V3.zero).reset s.vehicle
  let w ← w.setConstraint 1 V3.zero
  let w ← w.setConstraint 2 V3.zero
  return w.copy :: ws

/-- `dt.cpp` 461-470: the loop of `applyWaypointModification`; whether some waypoint was modified, and the waypoints. -/
def applyLoop (name : String) (p : V3 K) (lastGlobal : K) : List (Waypoint K) → Res (Bool × List (Waypoint K))
  | [] => .ok (false, [])
  | w :: ws => do
    let r ← applyLoop name p lastGlobal ws
    if w.name = name ∧ w.name ≠ "" then do
      let w' ← w.setCurrentPosition p lastGlobal
      return (true, w' :: r.2)
    else return (r.1, w :: r.2)

/-- `dt.cpp` 456-472 `applyWaypointModification`. -/
def applyWaypointModification (s : Planner K) (name : String) (p : V3 K) : Res (Planner K) := do
  let r ← applyLoop name p s.params.lastGlobal s.dyn
  return { s with dyn := r.2, regenerated := s.regenerated || r.1 }

/-- `dt.cpp` 284-287: the loop over the pending modifications. -/
def applyAll : List (String × V3 K) → Planner K → Res (Planner K)
  | [], s => .ok s
  | (n, p) :: ms, s => do
    let s ← s.applyWaypointModification n p
    applyAll ms s

/-- `dt.cpp` 237-296 `todoThreadLoop`: one phase of the loop body. -/
def workerStep (env : Env K) (s : Planner K) : Res (Planner K) :=
  match s.pc with
  -- 241, 280, 290
  | .top =>
    if s.generateNew && s.checkIfTrajectoryCanBeGenerated then .ok { s with pc := .collect }
    else if !s.toModify.isEmpty && !s.computing then .ok { s with pc := .apply }
    else .ok s
  -- 243
  | .collect => do
    let (ws, s) ← s.generateWaypoints
    return { s with next := ws, pc := .collected }
  -- 244-256
  | .collected =>
    if s.next.length = 0 then .ok { s with generateNew := false, pc := .top }
    else .ok { s with newParams := { s.params with gtlg := s.params.lastGlobal }, pc := .snapshotted }
  -- 263-275
  | .snapshotted =>
    if s.checkStitchTrajectory then do
      let ws ← s.stitch env s.next
      return { s with fromScratch := false, next := ws, pc := .planned }
    else do
      let ws ← s.appendDronePosition s.next
      return { s with fromScratch := true, next := ws, pc := .planned }
  -- 276, 372
  | .planned => .ok { s with computing := true, pc := .launching }
  -- 373-375
  | .launching => .ok { s with future := .launched, pc := .launched }
  -- 277
  | .launched => .ok { s with generateNew := false, pc := .top }
  -- 283-288
  | .apply => do
    let s' ← applyAll s.toModify s
    return { s' with toModify := [], pc := .top }

/-! ### Background computation -/

/-- `dt.cpp` 301-303: the task reads the speed. -/
def asyncStart (s : Planner K) : Option (Planner K) :=
  match s.future with
  | .launched => some { s with future := .running s.params.speed }
  | _ => none

/-- `dt.cpp` 305-352: the computation proper: the trajectory and the waypoints with indices and times. -/
def computeTrajectory (env : Env K) (s : Planner K) (speed : K) : Res (Trajectory K × List (Waypoint K)) := do
  let vs ← extractVertices s.next
  if vs.length < 2 then .error .exc
  else do
    let traj ← env.optimize vs speed
    let ws ← assignTimes traj.segments s.newParams.gtlg s.next 0
    return (traj, ws)

/-- `dt.cpp` 305-366: the task ends after the measured time `dt`; an exception is stored in the future, other failures end the process. -/
def asyncFinish (env : Env K) (s : Planner K) (dt : K) : Res (Option (Planner K)) :=
  match s.future with
  | .running speed =>
    match s.computeTrajectory env speed with
    | .ok (traj, ws) => .ok (some { s with next := ws, timeConstant := dt, future := .ready traj })
    | .error .exc => .ok (some { s with future := .failed })
    | .error e => .error e
  | _ => .ok none

end Planner

/-! ### The whole system -/

/-- Everything that can happen, in any order: calls of the public interface that change the state, worker phases, progress of the
background computation (which takes the time `dt`). -/
inductive Event (K : Type*) where
  | setWaypoints (ws : List (Waypoint K))
  | appendWaypoint (w : Waypoint K)
  | modifyWaypoint (name : String) (p : V3 K) (generate : Bool)
  | modifyWaypoints (ms : List (String × V3 K))
  | evaluate (t : K) (onlyPositions forPlotting : Bool)
  | getMaxTime
  | getMinTime
  | getDynamicWaypoints
  | setSpeed (v : K)
  | getWasTrajectoryRegenerated
  | updateVehiclePosition (p : V3 K)
  | worker
  | asyncStart
  | asyncFinish (dt : K)

/-- One event. `none`: the event cannot happen in this state (the call waits, or there is no such task). -/
def Planner.step {K : Type*} [Field K] [LinearOrder K] [IsStrictOrderedRing K] [FloorSemiring K] (env : Env K) (s : Planner K) :
    Event K → Res (Option (Planner K))
  | .setWaypoints ws => .ok (some (s.setWaypoints ws))
  | .appendWaypoint w => .ok (some (s.appendWaypoint w))
  | .modifyWaypoint n p g => .ok (some (s.modifyWaypoint n p g))
  | .modifyWaypoints ms => .ok (some (s.modifyWaypoints ms))
  | .evaluate t o f => do
    let r ← s.evaluateTrajectory env t o f
    return r.map (·.2)
  | .getMaxTime => do
    let r ← s.getMaxTime env
    return r.map (·.2)
  | .getMinTime => do
    let r ← s.getMinTime env
    return r.map (·.2)
  | .getDynamicWaypoints => do
    let r ← s.getDynamicWaypoints env
    return r.map (·.2)
  | .setSpeed v => .ok (some (s.setSpeed v))
  | .getWasTrajectoryRegenerated => .ok (some s.getWasTrajectoryRegenerated.2)
  | .updateVehiclePosition p => .ok (some (s.updateVehiclePosition p))
  | .worker => do
    let s ← s.workerStep env
    return some s
  | .asyncStart => .ok s.asyncStart
  | .asyncFinish dt => s.asyncFinish env dt

end Verif
