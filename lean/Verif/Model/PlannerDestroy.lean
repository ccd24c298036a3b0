import Verif.Model.PlannerThreads

/-!
# The destructor

`~DynamicTrajectory` (`include/dynamic_trajectory_generator/dynamic_trajectory.hpp` 127-130, cited as `dt.hpp`): it tells the worker to stop,
waits for it, and then the members are destroyed in the reverse order of their declaration (`dt.hpp` 91-119), while a computation
started with `std::async` (`src/dynamic_trajectory.cpp` 374-375, cited as `dt.cpp`) may still be running: only the destructor of the
`std::future` waits for it. Using a member after its destructor has run is undefined behaviour, the outcome `ub`.

The state of the planner and the steps of the worker and the computation are those of `Model/PlannerThreads.lean`; no other thread is in a
call. Simplifications: those of that model; members without a destructor that does anything (numbers, atomic flags, the vehicle's position)
are left out: they may be used until the whole object is gone. The end of a computation is one step, which uses the waypoints being planned
(`dt.cpp` 306, 346-352) and the mutex of the time measurement (356, 364); its beginning uses the mutex of the parameters (301, 303).
-/

namespace Verif

/-- The members with a destructor that does something, `dt.hpp` 91-119. -/
inductive Member where
  | traj
  | future
  | trajMutex
  | futureMutex
  | waypointsMutex
  | parametersMutex
  | todoMutex
  | vehicleMutex
  | timeMutex
  | waypoints
  | nextWaypoints
  | toAdd
  | toSet
  | toModify
  | thread
  deriving DecidableEq

/-- The order of their declaration, `dt.hpp` 91-119. -/
def declared : List Member :=
  [.traj, .future, .trajMutex, .futureMutex, .waypointsMutex, .parametersMutex, .todoMutex, .vehicleMutex, .timeMutex, .waypoints,
    .nextWaypoints, .toAdd, .toSet, .toModify, .thread]

/-- Where the destructor is. -/
inductive Destructor where
  /-- `dt.hpp` 128 -/
  | stop
  /-- `dt.hpp` 129 -/
  | join
  /-- the destructors of these members, one after the other -/
  | members (rest : List Member)
  /-- returned -/
  | done
  deriving DecidableEq

/-- The planner during its destruction. `checked`: at the beginning of the loop the worker has found that it is not to stop (`dt.cpp` 239);
`ended`: it has left the loop. -/
structure Dying (K : Type*) where
  s : Whole K
  checked : Bool
  ended : Bool
  d : Destructor
  deriving DecidableEq

/-- The destructor of the member has not finished. -/
def Destructor.alive : Destructor → Member → Bool
  | .stop, _ => true
  | .join, _ => true
  | .members rest, m => decide (m ∈ rest)
  | .done, _ => false

variable {K : Type*} [Field K] [LinearOrder K] [IsStrictOrderedRing K] [FloorSemiring K]

/-- The computation has not ended: the destructor of the future waits. -/
def Future.inProgress : Future K → Bool
  | .launched => true
  | .running _ => true
  | _ => false

/-- `dt.hpp` 127-130 and the destructors of the members: one step of the thread that destroys the planner; `none`: it waits or has
returned. -/
def Dying.destroy (x : Dying K) : Option (Dying K) :=
  match x.d with
  | .stop => some { x with d := .join }
  | .join => if x.ended then some { x with d := .members declared.reverse } else none
  | .members [] => some { x with d := .done }
  | .members (.future :: rest) => if x.s.p.future.inProgress then none else some { x with d := .members rest }
  | .members (_ :: rest) => some { x with d := .members rest }
  | .done => none

/-- `dt.cpp` 237-296: one step of the worker, which may use any member; `none`: it has ended. -/
def Dying.work (env : Env K) (x : Dying K) : Res (Option (Dying K)) :=
  if x.ended then .ok none
  else if !declared.all x.d.alive then .error .ub
  else if x.s.p.pc = .top ∧ x.s.w = .begin ∧ x.checked = false then
    .ok (some (if x.d = .stop then { x with checked := true } else { x with ended := true }))
  else do
    let s ← x.s.work env
    return some { x with s := s, checked := false }

/-- The members a step of the computation uses (`dt.cpp` 301-303; 306, 346-364). -/
def usedBy : Event K → List Member
  | .asyncStart => [.parametersMutex]
  | .asyncFinish _ => [.nextWaypoints, .timeMutex]
  | _ => []

/-- One step of the computation; `none`: there is none, or it is not at this point. -/
def Dying.compute (env : Env K) (x : Dying K) (e : Event K) : Res (Option (Dying K)) := do
  match ← x.s.p.step env e with
  | none => return none
  | some p => if (usedBy e).all x.d.alive then return some { x with s := ⟨p, x.s.c, x.s.w⟩ } else .error .ub

end Verif
