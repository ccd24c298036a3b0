import Verif.Model.Planner
import Verif.Model.Timing

/-!
# Several planners in one process

Planners share nothing but what is global in the library. The nonlinear optimisation measures its time with a timer whose statistics are in a
registry that exists once per process (`SP/src/timing.cpp` 36-39, cited as `timing.cpp`; `SP` is `subpackages/mav_trajectory_generation`):
`SP/include/mav_trajectory_generation/impl/polynomial_optimization_nonlinear_impl.h` 512-516 (cited as `nonlin.h`), which every computation of
a planner executes in its own thread (`src/dynamic_trajectory.cpp` 341, 374-375). Nothing in the registry is locked or atomic.

One step of a computation here is one access to a member of the registry. Simplifications: those of `Model/Planner.lean`, `Model/Timing.lean`; the
rest of a computation is the transition `asyncFinish` of the planner, which follows the last access; computations that end before the timer is made
or that leave it by an exception are left out. The planners' other transitions do not touch the registry. The table of `Polynomial::base_coefficients_`
is also shared, but only read (`polynomial.cpp` 213-214 initialises it before `main`).
-/

namespace Verif

/-- Where a computation is with respect to its timer; the comments give what the next step does. -/
inductive TimerAt where
  /-- `nonlin.h` 513, `timing.cpp` 49: find the tag -/
  | begin
  /-- `timing.cpp` 52: the number of statistics -/
  | absent
  /-- `timing.cpp` 53: the tag is entered -/
  | sized (handle : ℕ)
  /-- `timing.cpp` 54: statistics are appended -/
  | entered (handle : ℕ)
  /-- `timing.cpp` 57-58: the length of the tag -/
  | appended (handle : ℕ)
  /-- `nonlin.h` 515-516, `timing.cpp` 109-111: the optimisation, then the time is added -/
  | handle (handle : ℕ)
  /-- the timer has been stopped -/
  | done
  deriving DecidableEq

/-- The members of the registry, `timing.h` 181-184. -/
inductive RegistryMember where
  | timers
  | tags
  | length
  deriving DecidableEq

/-- The member the next step accesses, and whether it writes. Adding a time changes an element of the vector of statistics. -/
def TimerAt.access : TimerAt → Option (RegistryMember × Bool)
  | .begin => some (.tags, false)
  | .absent => some (.timers, false)
  | .sized _ => some (.tags, true)
  | .entered _ => some (.timers, true)
  | .appended _ => some (.length, true)
  | .handle _ => some (.timers, true)
  | .done => none

variable {K : Type} [Field K] [LinearOrder K] [IsStrictOrderedRing K] [FloorSemiring K]

/-- `nonlin.h` 513. -/
def solveTag : String := "optimize_nonlinear_full_total_time"

/-- `std::map::operator[]` and assignment. -/
def Timing.Registry.enter (r : Timing.Registry K) (tag : String) (handle : ℕ) : Timing.Registry K :=
  { r with tags := if r.tags.any (·.1 == tag) then r.tags.map fun x => if x.1 == tag then (tag, handle) else x else r.tags ++ [(tag, handle)] }

/-- `nonlin.h` 512-516, `timing.cpp` 47-63, 98-111: one access. `seconds` is the time measured. -/
def TimerAt.step (r : Timing.Registry K) (a : TimerAt) (seconds : K) : Res (Option (Timing.Registry K × TimerAt)) :=
  match a with
  | .begin =>
    match r.find solveTag with
    | some h => .ok (some (r, .handle h))
    | none => .ok (some (r, .absent))
  | .absent => .ok (some (r, .sized r.timers.length))
  | .sized h => .ok (some (r.enter solveTag h, .entered h))
  | .entered h => .ok (some ({ r with timers := r.timers ++ [.init] }, .appended h))
  | .appended h => .ok (some ({ r with maxTagLength := max r.maxTagLength solveTag.utf8ByteSize }, .handle h))
  | .handle h => do
    let r' ← r.addTime h seconds
    return some (r', .done)
  | .done => .ok none

/-- Planners, their computations' timers, and the registry. -/
structure Process (ι K : Type) where
  planner : ι → Planner K
  timer : ι → TimerAt
  registry : Timing.Registry K

/-- The start of the process: planners with their vehicles' positions. -/
def Process.init {ι : Type} (vehicle : ι → V3 K) : Process ι K := ⟨fun i => Planner.init (vehicle i), fun _ => .begin, .init⟩

/-- One step of the process: a transition of a planner other than the end of a computation; an access of a running computation to the registry;
the end of a computation whose timer is stopped. -/
inductive Process.Step {ι : Type} [DecidableEq ι] (env : Env K) (x : Process ι K) : Process ι K → Prop
  | event (i : ι) (e : Event K) (p : Planner K) (he : ∀ dt, e ≠ .asyncFinish dt) (h : (x.planner i).step env e = .ok (some p)) :
      Step env x { x with planner := Function.update x.planner i p }
  | timer (i : ι) (seconds v : K) (r : Timing.Registry K) (a : TimerAt) (hr : (x.planner i).future = .running v)
      (h : (x.timer i).step x.registry seconds = .ok (some (r, a))) :
      Step env x { x with timer := Function.update x.timer i a, registry := r }
  | finish (i : ι) (dt : K) (p : Planner K) (hd : x.timer i = .done) (h : (x.planner i).step env (.asyncFinish dt) = .ok (some p)) :
      Step env x { x with planner := Function.update x.planner i p, timer := Function.update x.timer i .begin }

end Verif
