import Mathlib.Algebra.Order.Field.Basic
import Verif.Model.Waypoint

/-!
# `tests/traj_evaluator.hpp`: the driver that moves waypoints while a trajectory is flown

The planner is a parameter: what each modifier is told by `getDynamicWaypoints` in each pass is an argument. Evaluation, plotting and sleeping (lines 102-105, 121, 130-135)
have no effect on the modifiers and are left out, like `poseRandomizer`, which nobody calls. Decimal literals are the rationals they are written as. The loop ends when the
instant reaches the maximum time of the trajectory (136); the instants it goes through are an argument.
-/

namespace Verif.Demo
open Verif

variable {K : Type*} [Field K] [LinearOrder K]

/-- Lines 28-32, the members of `DynamicWaypointModifier`; of its waypoint, the time and the position. Both positions are uninitialised at first. -/
structure Mover (K : Type*) where
  name : String
  wpTime : K
  wpPos : V3 K
  modified : V3 K
  has : Bool

/-- Lines 35-37, the constructors; the time of a waypoint made by default is zero (`dynamic_waypoint.hpp` 19). -/
def Mover.make (name : String) (p q : V3 K) : Mover K := ⟨name, 0, p, q, false⟩

/-- Lines 39-53, `findWaypoint` and `loadWaypointFromTraj`: the first waypoint with the name is copied. -/
def Mover.load (m : Mover K) (ws : List (Waypoint K)) : Mover K :=
  match ws.find? fun w => m.name = w.name with
  | some w => { m with has := true, wpTime := w.time, wpPos := w.current, modified := w.current }
  | none => { m with has := false, modified := m.wpPos }

/-- Lines 69-78, `triggerModification`. `last` is the function's static variable, shared by all modifiers of the process: it does not exist before the first call, which
initialises it. The result is its new value and the answer. -/
def Mover.trigger (m : Mover K) (t : K) (last : Option K) : K × Bool :=
  let l := last.getD t
  if t < m.wpTime - 3 / 10 ∧ t > m.wpTime - 10 ∧ t - l > 1 then (t, true) else (l, false)

/-- A call of `modifyWaypoint`: at which instant, by which modifier, for which waypoint, with which position. -/
structure Move (K : Type*) where
  time : K
  who : ℕ
  name : String
  target : V3 K

/-- Lines 55-67 and 80-86, `modifyWaypointInTraj` with `updateModifiedPosition`. -/
def Mover.modify (m : Mover K) (t : K) (who : ℕ) (ws : List (Waypoint K)) (last : Option K) : Mover K × Option K × Option (Move K) :=
  let m := if m.has = false ∨ m.wpTime < 1 / 10 then m.load ws else m
  if m.has then
    let r := m.trigger t last
    if r.2 then
      let p : V3 K := ⟨m.modified.x + 1 / 5, m.modified.y + 1 / 5, m.modified.z + 1 / 5⟩
      ({ m with modified := p }, some r.1, some ⟨t, who, m.name, p⟩)
    else (m, some r.1, none)
  else (m, last, none)

/-- Lines 123-129, the loop over the modifiers, from number `i` on; `count` is the static variable of line 124. -/
def pass (t : K) (view : ℕ → List (Waypoint K)) : ℕ → List (Mover K) → Option K → ℕ → List (Mover K) × Option K × ℕ × List (Move K)
  | _, [], last, count => ([], last, count, [])
  | i, m :: ms, last, count =>
    if 100 < count then
      let r := pass t view (i + 1) ms last count
      (m :: r.1, r.2.1, r.2.2.1, r.2.2.2)
    else
      let x := m.modify t i (view i) last
      match x.2.2 with
      | none =>
        let r := pass t view (i + 1) ms x.2.1 count
        (x.1 :: r.1, r.2.1, r.2.2.1, r.2.2.2)
      | some mv =>
        let r := pass t view (i + 1) ms x.2.1 (count + 1)
        (x.1 :: r.1, r.2.1, r.2.2.1, mv :: r.2.2.2)

/-- Lines 112-136, `runEvaluation`: the passes at the given instants, with what the modifiers are told in each. The result lists the calls of `modifyWaypoint`. -/
def passes (ms : List (Mover K)) (last : Option K) (count : ℕ) : List (K × (ℕ → List (Waypoint K))) → List (Move K)
  | [] => []
  | (t, view) :: rest =>
    let r := pass t view 0 ms last count
    r.2.2.2 ++ passes r.1 r.2.1 r.2.2.1 rest

/-- A process that runs one evaluation: both static variables are fresh. -/
def runEvaluation (ms : List (Mover K)) (ps : List (K × (ℕ → List (Waypoint K)))) : List (Move K) := passes ms none 0 ps

end Verif.Demo
