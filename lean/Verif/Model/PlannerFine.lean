import Verif.Model.Planner

/-!
# The evaluating calls, step by step

`evaluateTrajectory`, `getDynamicWaypoints`, `getMaxTime` and `getMinTime` (`src/dynamic_trajectory.cpp`, cited as `dt.cpp`) as the
sequence of their accesses to shared members, so that other threads' calls, the worker and the computation can come between any two of
them. `Model/Planner.lean` has these calls as single transitions, `Model/Concurrency.lean` interleaves all calls but carries no data;
this model interleaves one evaluating thread with everything else and carries all data.

One step is one critical section, one access to an atomic flag, or one unprotected access to a member. Simplifications: those of
`Model/Planner.lean`; one thread makes the four calls above (with two there is undefined behaviour, property C87); the other calls
(`dt.cpp` 60-102, 185-216, `dt.hpp` 189-192), each of them one critical section or one flag access, are the transitions of
`Model/Planner.lean`; `modifyWaypoints` (`dt.cpp` 104-113) is `modifyWaypoint` repeated and then the assignment of the flag, which is a
step of its own here; `getWasTrajectoryRegenerated` is the assignment of its flag (what it returns is property C60).
-/

namespace Verif

/-- The evaluating call in progress, with its arguments: `evaluateTrajectory(t, refs, only_positions, for_plotting)` (`dt.cpp` 115),
`getDynamicWaypoints` (178), `getMaxTime` (160), `getMinTime` (169). -/
inductive Purpose (K : Type*) where
  | evaluate (t : K) (onlyPositions forPlotting : Bool)
  | waypoints
  | maxTime
  | minTime
  deriving DecidableEq

/-- Where the evaluating thread is, with its local variables; the comments give the lines of `dt.cpp` executed by the next step. -/
inductive Consumer (K : Type*) where
  /-- not in a call -/
  | free
  /-- 162, 171: is there a trajectory? (115-120, 180: nothing) -/
  | start (k : Purpose K)
  /-- 653-662 -/
  | wait (k : Purpose K)
  /-- 665-667 -/
  | valid (k : Purpose K)
  /-- 668 -/
  | busy (k : Purpose K) (valid : Bool)
  /-- 671-674 -/
  | ready (k : Purpose K)
  /-- 381-383 -/
  | get (k : Purpose K)
  /-- 385-389, 396-399 -/
  | target (k : Purpose K) (new : Trajectory K)
  /-- 400-401: the old trajectory is evaluated -/
  | old (k : Purpose K) (new : Trajectory K) (globalTime localTime : K)
  /-- 732-738 -/
  | fit0 (k : Purpose K) (new : Trajectory K) (scratch : Bool) (target : V3 K)
  /-- 740-752: `n` further rounds, the next one with `t = 0.1 i` -/
  | fit (k : Purpose K) (new : Trajectory K) (scratch : Bool) (target : V3 K) (n i : Nat) (minDistance minTime : K)
  /-- 754-764 -/
  | offset (k : Purpose K) (new : Trajectory K) (scratch : Bool) (target : V3 K) (minTime : K)
  /-- 391 -/
  | fitted (k : Purpose K) (new : Trajectory K) (scratch : Bool)
  /-- 404-406 -/
  | params (k : Purpose K) (new : Trajectory K)
  /-- 408 -/
  | traj (k : Purpose K) (new : Trajectory K)
  /-- 410 -/
  | mark (k : Purpose K)
  /-- 415-417 -/
  | swap (k : Purpose K)
  /-- 678 -/
  | clearComputing (k : Purpose K)
  /-- 679 -/
  | clearRequest (k : Purpose K)
  /-- 124 -/
  | localTime (t : K) (onlyPositions forPlotting : Bool)
  /-- 125-131 -/
  | note (t : K) (onlyPositions forPlotting : Bool) (localTime : K)
  /-- 133-134 -/
  | shift (t : K) (onlyPositions : Bool) (localTime : K)
  /-- 427-441: the trajectory is evaluated for the next order, `done` are the references so far -/
  | plain (onlyPositions : Bool) (globalTime localTime : K) (done : List (V3 K))
  /-- 443-453: the compensations are added -/
  | compensate (onlyPositions : Bool) (globalTime localTime : K) (done : List (V3 K)) (base : V3 K)
  /-- returned from `evaluateTrajectory` -/
  | evaluated (r : References K)
  /-- 181-182 -/
  | copy
  /-- returned from `getDynamicWaypoints` -/
  | copied (ws : List (Waypoint K))
  /-- 166, 175: duration or 0 -/
  | length (max : Bool)
  /-- 166, 175: `convertIntoGlobalTime` -/
  | globalTime (x : K)
  /-- returned from `getMaxTime`, `getMinTime` -/
  | time (x : K)
  deriving DecidableEq

/-- The shared state and the evaluating thread. -/
structure Fine (K : Type*) where
  p : Planner K
  c : Consumer K
  deriving DecidableEq

variable {K : Type*}

/-- What follows `checkTrajectoryGenerated` (`dt.cpp` 120-124, 165-166, 174-175, 180-182). -/
def Purpose.after : Purpose K → Consumer K
  | .evaluate t o f => .localTime t o f
  | .waypoints => .copy
  | .maxTime => .length true
  | .minTime => .length false

/-- No call is in progress. -/
def Consumer.isFree : Consumer K → Bool
  | .free => true
  | .evaluated _ => true
  | .copied _ => true
  | .time _ => true
  | _ => false

variable [Field K] [LinearOrder K] [IsStrictOrderedRing K]

/-- `dt.cpp` 141-154 `getReferences`: what is returned, from the vectors computed in the order position, velocity, acceleration. -/
def referencesOf : List (V3 K) → References K
  | [p, v, a] => ⟨p, some v, some a⟩
  | p :: _ => ⟨p, none, none⟩
  | [] => ⟨V3.zero, none, none⟩

/-- `dt.cpp` 141-154: the next order, or the call is over. -/
def nextOrder (onlyPositions : Bool) (g l : K) (done : List (V3 K)) : Consumer K :=
  if onlyPositions || done.length == 3 then .evaluated (referencesOf done) else .plain onlyPositions g l done

/-- One step of the evaluating thread; `none`: it is not in a call, or waits. -/
def Fine.consume [FloorSemiring K] (env : Env K) (f : Fine K) : Res (Option (Fine K)) :=
  let p := f.p
  match f.c with
  | .free | .evaluated _ | .copied _ | .time _ => .ok none
  | .start k =>
    match k with
    | .maxTime => .ok (some ⟨p, if p.traj.isSome then .length true else .wait k⟩)
    | .minTime => .ok (some ⟨p, if p.traj.isSome then .length false else .wait k⟩)
    | _ => .ok (some ⟨p, .wait k⟩)
  | .wait k => if p.traj.isSome || p.future.isReady then .ok (some ⟨p, .valid k⟩) else .ok none
  | .valid k => .ok (some ⟨p, .busy k p.future.valid⟩)
  | .busy k v => .ok (some ⟨p, if p.computing && v then .ready k else k.after⟩)
  | .ready k => if p.future.valid then .ok (some ⟨p, if p.future.isReady then .get k else k.after⟩) else .error .ub
  | .get k =>
    match p.future with
    | .ready new => .ok (some ⟨{ p with future := .invalid }, .target k new⟩)
    | .failed => .error .exc
    | .invalid => .error .ub
    | _ => .ok none
  | .target k new =>
    if p.fromScratch then .ok (some ⟨p, .fit0 k new true p.vehicle⟩)
    else .ok (some ⟨p, .old k new (p.params.lastGlobal + p.params.tOffset) (p.params.lastLocal + p.params.tOffset)⟩)
  | .old k new g l =>
    match p.traj with
    | none => .error .ub
    | some old => do
      let target ← p.evaluateModified env old g l 0
      return some ⟨p, .fit0 k new false target⟩
  | .fit0 k new scratch target => do
    let pos ← p.evaluateModified env new (0 + p.newParams.gtlg) 0 0
    return some ⟨p, .fit k new scratch target (⌈3 / 2 * p.computationTime / (1 / 10)⌉₊ - 1) 1 (Planner.distSq pos target) 0⟩
  | .fit k new scratch target 0 _ _ m => .ok (some ⟨p, .offset k new scratch target m⟩)
  | .fit k new scratch target (n + 1) i d m => do
    let t : K := i * (1 / 10)
    let pos ← p.evaluateModified env new (t + p.newParams.gtlg) t 0
    if Planner.distSq pos target ≤ d then return some ⟨p, .fit k new scratch target n (i + 1) (Planner.distSq pos target) t⟩
    else return some ⟨p, .fit k new scratch target n (i + 1) d m⟩
  | .offset k new scratch _ m =>
    .ok (some ⟨{ p with newParams := { p.newParams with tOffset := m - (p.params.lastGlobal - p.newParams.gtlg) + 1 / 10 } },
      .fitted k new scratch⟩)
  | .fitted k new scratch => .ok (some ⟨if scratch then { p with fromScratch := false } else p, .params k new⟩)
  | .params k new => .ok (some ⟨{ p with params := p.newParams }, .traj k new⟩)
  | .traj k new => .ok (some ⟨{ p with traj := some new }, .mark k⟩)
  | .mark k => .ok (some ⟨{ p with regenerated := true }, .swap k⟩)
  | .swap k => .ok (some ⟨{ p with dyn := p.next.map (·.copy) }, .clearComputing k⟩)
  | .clearComputing k => .ok (some ⟨{ p with computing := false }, .clearRequest k⟩)
  | .clearRequest k => .ok (some ⟨{ p with generateNew := false }, k.after⟩)
  | .localTime t o f => .ok (some ⟨p, .note t o f (t - p.params.gtlg)⟩)
  | .note t o f l =>
    .ok (some ⟨if f then p else { p with params := { p.params with lastGlobal := t, lastLocal := l } }, .shift t o l⟩)
  | .shift t o l => .ok (some ⟨p, .plain o (t + p.params.tOffset) (l + p.params.tOffset) []⟩)
  | .plain o g l done =>
    match p.traj with
    | none => .error .ub
    | some tr => do
      let v ← tr.evaluate (Planner.clampTime l tr.maxTime) done.length
      let base ← V3.ofList v
      return some ⟨p, .compensate o g l done base⟩
  | .compensate o g l done base => do
    let v ← if g > 0 then Planner.compensateLoop env g done.length p.dyn base else pure base
    return some ⟨p, nextOrder o g l (done ++ [v])⟩
  | .copy => .ok (some ⟨p, .copied (p.dyn.map (·.copy))⟩)
  | .length max =>
    match p.traj with
    | none => .error .ub
    | some tr => .ok (some ⟨p, .globalTime (if max then tr.maxTime else 0)⟩)
  | .globalTime x => .ok (some ⟨p, .time (x + p.params.gtlg)⟩)

end Verif
