import Mathlib.Logic.Function.Basic
import Verif.Model.Basic

/-!
# `ThreadSafeTrajectory`

Source: `include/dynamic_trajectory_generator/thread_safe_trajectory.hpp` (`ts.hpp`). Any number of handles `ι` used by `n` threads, each of which makes a list of
calls. A trajectory is represented by its address `π`: the class only calls `const` members of it. Reference counting is not modelled. The constructors are
assignments to a handle no other thread knows yet.
-/

namespace Verif.Shared

/-- The calls of one handle (`ts.hpp`). -/
inductive Call (ι : Type*) where
  /-- 47-52 (and 35-45): copy assignment. Also the "move": `reset` takes its argument by constant reference, so that `std::move` (25) copies. -/
  | assign (dst src : ι)
  /-- 65-79, 109-113: `getWaypoints`, `getSegments`, `evaluate` -/
  | evaluate (o : ι)
  /-- 81-90: `getMaxTime`, `getMinTime` -/
  | time (o : ι)
  /-- 100-107: comparison with `nullptr` -/
  | isNull (o : ι)
  /-- 92-99: comparison of two handles -/
  | same (a b : ι)
  /-- 30-34: the locks of the destructor -/
  | destroy (o : ι)
  deriving DecidableEq

/-- The handle whose `evaluate_mutex_` the call locks first. -/
def Call.evalMutex {ι : Type*} : Call ι → Option ι
  | .assign d _ => some d
  | .evaluate o => some o
  | .time _ => none
  | .isNull _ => none
  | .same _ _ => none
  | .destroy o => some o

/-- The handle whose `time_mutex_` the call locks next. -/
def Call.timeMutex {ι : Type*} : Call ι → Option ι
  | .assign d _ => some d
  | .evaluate _ => none
  | .time o => some o
  | .isNull _ => none
  | .same _ _ => none
  | .destroy o => some o

/-- Position of a thread inside the current call, the head of its list: before the first mutex, before the second one, inside, done with the pointer, and after the release of `time_mutex_` (the guards
are destroyed in reverse order). -/
inductive Pc where
  | start
  | half
  | inside
  | leaving
  | left
  deriving DecidableEq

/-- A thread: calls to make (the first one may be in progress), position, results so far. The result of a call that returns data of the trajectory is its address. -/
structure Thread (ι π : Type*) where
  calls : List (Call ι)
  pc : Pc
  results : List (Call ι × Option π × Bool)

/-- The whole system: the pointer of each handle, the owners of its two mutexes, and the threads. -/
structure State (n : Nat) (ι π : Type*) where
  ptr : ι → Option π
  evalOwner : ι → Option (Fin n)
  timeOwner : ι → Option (Fin n)
  threads : Fin n → Thread ι π

variable {n : Nat} {ι π : Type*} [DecidableEq ι] [DecidableEq π]

/-- At the beginning all mutexes are free. -/
def State.init (ptr : ι → Option π) (calls : Fin n → List (Call ι)) : State n ι π :=
  ⟨ptr, fun _ => none, fun _ => none, fun i => ⟨calls i, .start, []⟩⟩

/-- What a call does between locking and unlocking: `trajectory_ptr_ = ...` (25) and `trajectory_ptr_->...`; dereferencing a null pointer is undefined behaviour. -/
def perform (ptr : ι → Option π) : Call ι → Res ((ι → Option π) × Option π × Bool)
  | .assign d s => .ok (Function.update ptr d (ptr s), none, false)
  | .evaluate o => match ptr o with
    | none => .error .ub
    | some p => .ok (ptr, some p, false)
  | .time o => match ptr o with
    | none => .error .ub
    | some p => .ok (ptr, some p, false)
  | .isNull o => .ok (ptr, none, (ptr o).isNone)
  | .same a b => .ok (ptr, none, ptr a = ptr b)
  | .destroy _ => .ok (ptr, none, false)

/-- Lock a mutex; `none`: held by somebody. -/
def lock (owner : ι → Option (Fin n)) (i : Fin n) : Option ι → Option (ι → Option (Fin n))
  | none => some owner
  | some o => if owner o = none then some (Function.update owner o (some i)) else none

/-- Unlock a mutex. -/
def unlock (owner : ι → Option (Fin n)) : Option ι → ι → Option (Fin n)
  | none => owner
  | some o => Function.update owner o none

/-- A step of thread `i`. `none`: the thread has finished or waits. -/
def step (s : State n ι π) (i : Fin n) : Option (Res (State n ι π)) :=
  let t := s.threads i
  match t.calls with
  | [] => none
  | c :: cs =>
    match t.pc with
    | .start => (lock s.evalOwner i c.evalMutex).map fun e =>
        .ok { s with evalOwner := e, threads := Function.update s.threads i { t with pc := .half } }
    | .half => (lock s.timeOwner i c.timeMutex).map fun e =>
        .ok { s with timeOwner := e, threads := Function.update s.threads i { t with pc := .inside } }
    | .inside => some (do
        let r ← perform s.ptr c
        return { s with ptr := r.1, threads := Function.update s.threads i { t with pc := .leaving, results := t.results ++ [(c, r.2)] } })
    | .leaving => some (.ok { s with timeOwner := unlock s.timeOwner c.timeMutex, threads := Function.update s.threads i { t with pc := .left } })
    | .left => some (.ok { s with evalOwner := unlock s.evalOwner c.evalMutex, threads := Function.update s.threads i { t with pc := .start, calls := cs } })

/-- A schedule: the thread that takes the next step. -/
def run (s : State n ι π) : List (Fin n) → Option (Res (State n ι π))
  | [] => some (.ok s)
  | i :: is =>
    match step s i with
    | none => none
    | some (.error e) => some (.error e)
    | some (.ok s) => run s is

end Verif.Shared
