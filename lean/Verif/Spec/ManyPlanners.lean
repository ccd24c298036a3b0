import Verif.Model.ManyPlanners
import Verif.Spec.Planner
import Verif.Spec.Timing

/-!
# Specification vocabulary for several planners in one process
-/

namespace Verif.Spec

variable {K : Type} [Field K] [LinearOrder K] [IsStrictOrderedRing K] [FloorSemiring K] {ι : Type} [DecidableEq ι]

/-- The process can get from `x` to `y`. -/
inductive Proceeds (env : Env K) (x : Process ι K) : Process ι K → Prop
  | refl : Proceeds env x x
  | step {y z : Process ι K} : Proceeds env x y → y.Step env z → Proceeds env x z

/-- The process can get to `x` from its start. -/
def Runs (env : Env K) (x : Process ι K) : Prop := ∃ vehicle, Proceeds env (.init vehicle) x

/-- The computation of planner `i` is going on. -/
def Computes (x : Process ι K) (i : ι) : Prop := ∃ v, (x.planner i).future = .running v

/-- A data race: the computations of two planners are both about to access the same member of the registry, one of them to write. Nothing orders the
two accesses, so the behaviour is undefined. -/
def DataRace (x : Process ι K) : Prop :=
  ∃ i j m w w', i ≠ j ∧ Computes x i ∧ Computes x j ∧ (x.timer i).access = some (m, w) ∧ (x.timer j).access = some (m, w') ∧ (w || w') = true

/-- At most one planner computes. -/
def OneComputes (x : Process ι K) : Prop := ∀ i j, Computes x i → Computes x j → i = j

/-- `OneAtATime env x l`: the process can get to `x` from its start with at most one planner computing at any time; the times measured by the timers
that have been stopped are `l`, in this order. -/
inductive OneAtATime (env : Env K) : Process ι K → List K → Prop
  | start (vehicle : ι → V3 K) : OneAtATime env (.init vehicle) []
  | event {x : Process ι K} {l : List K} (i : ι) (e : Event K) (p : Planner K) (h : OneAtATime env x l) (he : ∀ dt, e ≠ .asyncFinish dt)
      (hs : (x.planner i).step env e = .ok (some p)) (h1 : OneComputes { x with planner := Function.update x.planner i p }) :
      OneAtATime env { x with planner := Function.update x.planner i p } l
  | timer {x : Process ι K} {l : List K} (i : ι) (seconds v : K) (r : Timing.Registry K) (a : TimerAt) (h : OneAtATime env x l)
      (hr : (x.planner i).future = .running v) (hs : (x.timer i).step x.registry seconds = .ok (some (r, a))) :
      OneAtATime env { x with timer := Function.update x.timer i a, registry := r } (if a = .done then l ++ [seconds] else l)
  | finish {x : Process ι K} {l : List K} (i : ι) (dt : K) (p : Planner K) (h : OneAtATime env x l) (hd : x.timer i = .done)
      (hs : (x.planner i).step env (.asyncFinish dt) = .ok (some p)) :
      OneAtATime env { x with planner := Function.update x.planner i p, timer := Function.update x.timer i .begin } l

end Verif.Spec
