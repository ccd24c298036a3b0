import Verif.Model.Planner

/-!
# After a computation that threw

`swapTrajectory` (`src/dynamic_trajectory.cpp` 378-383, cited as `dt.cpp`) locks `future_mutex_`, calls `future_traj_.get()` and unlocks. If the
computation ended by an exception, `get` rethrows it, after which the future is no longer valid; the call is left with `future_mutex_` locked by
its thread, and `computing_new_trajectory_` (`dt.cpp` 678) is not reset. `Model/Planner.lean` ends there with the outcome `exc`; here the
history goes on: the program has caught the exception.

Locking a `std::mutex` again in the thread that holds it is undefined behaviour (the outcome `ub`), in another thread it waits. Simplifications:
those of `Model/Planner.lean`, i.e. a call is one transition; threads are numbered. That the computation throws is an event of its own, so that
causes outside `Model/Planner.lean`, such as exhausted memory, are included.
-/

namespace Verif

/-- The planner, and the thread that has left a call without unlocking `future_mutex_` (`dt.cpp` 381-383), if there is one. -/
structure Shaken (K : Type*) where
  p : Planner K
  holder : Option ℕ
  deriving DecidableEq

/-- How a transition ends: the call returns (the step is done), it is left by an exception, or it waits in this state. -/
inductive Call (K : Type*) where
  | returned (x : Shaken K)
  | threw (x : Shaken K)
  | waits
  deriving DecidableEq

namespace Shaken
variable {K : Type*} [Field K] [LinearOrder K] [IsStrictOrderedRing K] [FloorSemiring K]

/-- `dt.hpp` 121-125: a new planner. -/
def init (vehicle : V3 K) : Shaken K := ⟨Planner.init vehicle, none⟩

/-- The event needs `checkTrajectoryGenerated` (`dt.cpp` 120, 164, 173, 180), whose first action that is not a wait is to lock `future_mutex_` (657,
665): `getMaxTime` and `getMinTime` do so only if there is no trajectory (162, 171). -/
def consults (s : Planner K) : Event K → Bool
  | .evaluate _ _ _ => true
  | .getDynamicWaypoints => true
  | .getMaxTime => s.traj.isNone
  | .getMinTime => s.traj.isNone
  | _ => false

/-- The event locks `future_mutex_` in the worker (`dt.cpp` 373). -/
def launches (s : Planner K) : Event K → Bool
  | .worker => decide (s.pc = .launching)
  | _ => false

/-- One event; for a call, `caller` is the calling thread. -/
def step (env : Env K) (x : Shaken K) (caller : ℕ) (e : Event K) : Res (Call K) :=
  match x.holder with
  | some h =>
    -- 654-657, 665: the mutex is locked; 373: so it is for the worker
    if consults x.p e then (if h = caller then .error .ub else .ok .waits)
    else if launches x.p e then .ok .waits
    else do
      match ← x.p.step env e with
      | none => return .waits
      | some p => return .returned ⟨p, some h⟩
  | none =>
    -- 668-676, 381-382: `get` rethrows
    if consults x.p e && x.p.computing && decide (x.p.future = .failed) then .ok (.threw ⟨{ x.p with future := .invalid }, some caller⟩)
    else do
      match ← x.p.step env e with
      | none => return .waits
      | some p => return .returned ⟨p, none⟩

/-- The computation (`dt.cpp` 298-366) ends by an exception, which is stored in the future. -/
def throws (x : Shaken K) : Option (Shaken K) :=
  match x.p.future with
  | .running _ => some { x with p := { x.p with future := .failed } }
  | _ => none

end Shaken

end Verif
