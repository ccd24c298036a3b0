import Verif.Model.PlannerFine

/-!
# All threads, step by step

The worker thread's loop (`src/dynamic_trajectory.cpp` 237-296, cited as `dt.cpp`) as the sequence of its accesses to shared members,
beside the evaluating thread of `Model/PlannerFine.lean`. `Model/Planner.lean` executes each phase of the loop at once; here calls, steps of
the evaluating thread and steps of the computation can come between any two accesses.

One step is one critical section, one access to an atomic flag, or one unprotected access to a member. `p.pc` still says in which phase
the worker is, `WorkerAt` where it is within the phase, with its local variables. Simplifications: those of `Model/Planner.lean` and
`Model/PlannerFine.lean`; while the worker holds `dynamic_waypoints_mutex_` it works on its own copy of the waypoints and writes them back
when it releases the mutex (nobody else can access them in the meantime; a reader that would wait for the mutex is here let through to the
old waypoints, which adds behaviours and removes none); members only the worker and the computation use
(`next_trajectory_waypoint_`, `new_parameters_`; property C43) are accessed together with others; the end of a computation (`dt.cpp`
344-366) is one step.
-/

namespace Verif

/-- Where the worker is within the phase `pc`, with its local variables; the comments give the lines of `dt.cpp` executed by the next step. -/
inductive WorkerAt (K : Type*) where
  /-- at the beginning of the phase. In phase `top`: 241, is there a request? In phase `collect`: 582-599, `todo_mutex` is acquired and the waypoints are copied. In phase
  `snapshotted`: 630, is there a trajectory? In phase `apply`: 283-284, `todo_mutex` is acquired. In the other phases: the whole phase. -/
  | begin
  /-- 698: is there a trajectory? -/
  | zone
  /-- 700-703: the waypoints are locked, the clock is read -/
  | zoneRead
  /-- 704-718: the waypoints are inspected; the computation time is read -/
  | zoneLoop (ws : List (Waypoint K)) (clock : K)
  /-- 724: is a computation in progress? -/
  | status (inZone : Bool)
  /-- 280: are there updates? -/
  | queue
  /-- 280: is a computation in progress? -/
  | queueStatus
  /-- 592-593 (562-577, 534-540): the clock is read, passed waypoints are left out -/
  | filter (ws : List (Waypoint K))
  /-- 600-612, 243: requests are added, the queues cleared, `todo_mutex` is released -/
  | merge (ws : List (Waypoint K))
  /-- 635-638: clock and start time are read -/
  | stitchParams
  /-- 641-648: the duration of the trajectory and the computation time are read -/
  | stitchTime (clock start : K)
  /-- 265 -/
  | attach
  /-- 481 -/
  | point0
  /-- 490, 504: `convertIntoGlobalTime` for the next point -/
  | convert (t : K) (points : List (Waypoint K))
  /-- 426-438: the trajectory is evaluated for the next order -/
  | plain (g t : K) (points : List (Waypoint K)) (done : List (V3 K))
  /-- 440-453: the compensations are added; after the third order 491-517: the point is made -/
  | compensate (g t : K) (points : List (Waypoint K)) (done : List (V3 K)) (base : V3 K)
  /-- 521-531, 267: `convertIntoGlobalTime`, the rest of the waypoints -/
  | rest (t : K) (points : List (Waypoint K))
  /-- 273 -/
  | drone
  /-- 274 (614-622): the vehicle's position is read -/
  | vehicle
  /-- 284-288: next update, or the end; then `todo_mutex` is released -/
  | modification (ms : List (String × V3 K))
  /-- 460-471: next waypoint; at the end `dynamic_waypoints_mutex_` is released -/
  | waypoints (name : String) (x : V3 K) (ms : List (String × V3 K)) (done rest : List (Waypoint K))
  deriving DecidableEq

/-- The shared state, the evaluating thread and the worker. -/
structure Whole (K : Type*) where
  p : Planner K
  c : Consumer K
  w : WorkerAt K
  deriving DecidableEq

variable {K : Type*} [Field K] [LinearOrder K] [IsStrictOrderedRing K]

/-- The worker holds `todo_mutex` (`dt.cpp` 582-612, 283-288): calls that request something wait. -/
def Whole.holdsTodo (s : Whole K) : Bool :=
  match s.w with
  | .filter _ => true
  | .merge _ => true
  | .modification _ => true
  | .waypoints _ _ _ _ _ => true
  | _ => false

/-- `dt.cpp` 486-512: a stitching waypoint from references. -/
def attachPoint (refs : References K) (withDerivatives : Bool) : Res (Waypoint K) := do
  let v ← (Vertex.mk' 3 : Vertex K).addConstraint 0 refs.position.toList
  let v ← if withDerivatives then do
      let v ← v.addConstraint 1 (refs.velocity.getD V3.zero).toList
      v.addConstraint 2 (refs.acceleration.getD V3.zero).toList
    else pure v
  Waypoint.ofVertex v "stitching_point"

/-- `dt.cpp` 237-296: one step of the worker. -/
def Whole.work (env : Env K) (s : Whole K) : Res (Whole K) :=
  let p := s.p
  match p.pc, s.w with
  -- 241
  | .top, .begin => .ok { s with w := if p.generateNew then .zone else .queue }
  | .top, .zone => .ok { s with w := if p.traj.isSome then .zoneRead else .status false }
  | .top, .zoneRead => .ok { s with w := .zoneLoop p.dyn p.params.lastGlobal }
  | .top, .zoneLoop ws clock => .ok { s with w := .status (Planner.zoneLoop clock (5 * p.computationTime) ws) }
  | .top, .status inZone =>
    if !inZone && !p.computing then .ok ⟨{ p with pc := .collect }, s.c, .begin⟩ else .ok { s with w := .queue }
  -- 280, 290
  | .top, .queue => .ok { s with w := if p.toModify.isEmpty then .begin else .queueStatus }
  | .top, .queueStatus => if !p.computing then .ok ⟨{ p with pc := .apply }, s.c, .begin⟩ else .ok { s with w := .begin }
  -- 243
  | .collect, .begin =>
    .ok { s with w := if p.toSet.length = 0 then .filter (p.dyn.map (·.copy)) else .merge (p.toSet.map (·.copy)) }
  | .collect, .filter ws => do
    let base ← (p.filterPassed ws).mapM (·.resetWithCurrent)
    return { s with w := .merge base }
  | .collect, .merge base => do
    let all ← resetAll p.toModify (base ++ p.toAdd.map (·.copy))
    return ⟨{ p with toSet := [], toAdd := [], toModify := [], next := all, pc := .collected }, s.c, .begin⟩
  -- 244-256, 276, 372-375, 277
  | .collected, .begin | .planned, .begin | .launching, .begin | .launched, .begin => do
    let p' ← p.workerStep env
    return ⟨p', s.c, .begin⟩
  -- 263
  | .snapshotted, .begin => .ok { s with w := if p.traj.isSome then .stitchParams else .drone }
  | .snapshotted, .stitchParams => .ok { s with w := .stitchTime p.params.lastGlobal p.params.gtlg }
  | .snapshotted, .stitchTime clock start =>
    match p.traj with
    | none => .error .ub
    | some tr => .ok { s with w := if tr.maxTime + start - clock < 2 * p.computationTime then .drone else .attach }
  -- 265-268
  | .snapshotted, .attach => .ok ⟨{ p with fromScratch := false }, s.c, .point0⟩
  | .snapshotted, .point0 => .ok { s with w := .convert (p.newParams.lastLocal + p.params.tOffset) [] }
  | .snapshotted, .convert t points => .ok { s with w := .plain (t + p.params.gtlg) t points [] }
  | .snapshotted, .plain g t points done =>
    match p.traj with
    | none => .error .ub
    | some tr => do
      let v ← tr.evaluate (Planner.clampTime t tr.maxTime) done.length
      let base ← V3.ofList v
      return { s with w := .compensate g t points done base }
  | .snapshotted, .compensate g t points done base => do
    let v ← if g > 0 then Planner.compensateLoop env g done.length p.dyn base else pure base
    if done.length < 2 then return { s with w := .plain g t points (done ++ [v]) }
    else do
      let point ← attachPoint (referencesOf (done ++ [v])) points.isEmpty
      if points.length < 1 then return { s with w := .convert (t + 5 * p.computationTime) (points ++ [point]) }
      else return { s with w := .rest (t + 5 * p.computationTime) (points ++ [point]) }
  | .snapshotted, .rest t points =>
    let keep := p.next.filter fun w => !decide (w.time < t + p.params.gtlg ∧ w.time > 0)
    .ok ⟨{ p with next := points ++ keep.map (·.copy), pc := .planned }, s.c, .begin⟩
  -- 273-274
  | .snapshotted, .drone => .ok ⟨{ p with fromScratch := true }, s.c, .vehicle⟩
  | .snapshotted, .vehicle => do
    let ws ← p.appendDronePosition p.next
    return ⟨{ p with next := ws, pc := .planned }, s.c, .begin⟩
  -- 283-288
  | .apply, .begin => .ok { s with w := .modification p.toModify }
  | .apply, .modification [] => .ok ⟨{ p with toModify := [], pc := .top }, s.c, .begin⟩
  | .apply, .modification ((name, x) :: ms) => .ok { s with w := .waypoints name x ms [] p.dyn }
  | .apply, .waypoints name x ms done (a :: rest) =>
    if a.name = name ∧ a.name ≠ "" then do
      let a' ← a.setCurrentPosition x p.params.lastGlobal
      return ⟨{ p with regenerated := true }, s.c, .waypoints name x ms (done ++ [a']) rest⟩
    else .ok { s with w := .waypoints name x ms (done ++ [a]) rest }
  | .apply, .waypoints _ _ ms done [] => .ok ⟨{ p with dyn := done }, s.c, .modification ms⟩
  -- no such position
  | _, _ => .error .ub

end Verif
