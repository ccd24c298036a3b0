import Verif.Model.NotANumber
import Verif.Spec.Planner

/-! # What an evaluation at an instant that is not a number may and may not do -/

namespace Verif.Spec
open Verif

variable {K : Type*}

/-- Numbers as doubles. -/
def asDbl (r : References K) : References (Dbl K) :=
  ⟨⟨some r.position.x, some r.position.y, some r.position.z⟩, r.velocity.map fun v => ⟨some v.x, some v.y, some v.z⟩,
    r.acceleration.map fun v => ⟨some v.x, some v.y, some v.z⟩⟩

/-- No component of any of the returned references is a number. -/
def AllNaN (r : References (Dbl K)) (onlyPositions : Bool) : Prop :=
  r = if onlyPositions then ⟨⟨none, none, none⟩, none, none⟩
    else ⟨⟨none, none, none⟩, some ⟨none, none, none⟩, some ⟨none, none, none⟩⟩

/-- There is a plan, and nothing is being computed or waiting to be taken over. -/
def SettledPlan (s : Planner K) : Prop := s.traj.isSome = true ∧ s.computing = false

/-- The last evaluated times as the planner has them when all evaluations so far were at numbers. -/
def clocksOf (s : Planner K) : Clocks K := ⟨some s.params.lastGlobal, some s.params.lastLocal⟩

variable [Field K] [LinearOrder K] [IsStrictOrderedRing K]

/-- One round of the planner's worker thread with a pending request, from the top of its loop to the vertices handed to the computation; `none`: no
plan is begun. -/
def plannerRound (env : Env K) (s : Planner K) : Res (Option (List (Vertex K))) := do
  let s ← s.workerStep env
  if s.pc ≠ .collect then return none
  else do
    let s ← s.workerStep env
    let s ← s.workerStep env
    if s.pc = .top then return none
    else do
      let s ← s.workerStep env
      let vs ← extractVertices s.next
      return some vs

/-- What becomes of the pending request when the last evaluated times are `c`: no plan is begun (`none`), or a plan is begun and its estimated segment
times pass the check of the optimisation, or this fails. `.error .check` is the end of the process. -/
def pursued (env : Env K) (sqrt : K → K) (s : Planner K) (c : Clocks K) (vMax aMax : K) : Res (Option (List (Dbl K))) := do
  match ← s.roundDbl env c with
  | none => return none
  | some vs => do
    let ts ← segmentTimesDbl sqrt vs vMax aMax
    return some ts

end Verif.Spec
