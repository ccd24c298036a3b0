import Verif.Spec.Clock
import Verif.Spec.Requests

/-!
# Specification vocabulary for property C145: waypoints moved again and again during one plan

An account of the moves, kept from the calls and the worker's phases alone, and the effect each of them should have on the references.
-/

namespace Verif.Spec

variable {K : Type*}

/-- A move that was carried out: the waypoints called `name` were moved to `dest` when the last instant evaluated was `instant`. -/
structure MoveDone (K : Type*) where
  name : String
  dest : V3 K
  instant : K

/-- The account: the moves asked for and not carried out yet, whether the worker has seen that there are any, the instant evaluated last, and the moves carried
out, in order. -/
structure Desk (K : Type*) where
  waiting : List (String × V3 K)
  seen : Bool
  now : K
  done : List (MoveDone K)

/-- A move is asked for: an earlier one of the same name that still waits is replaced. -/
def askMove (n : String) (p : V3 K) : List (String × V3 K) → List (String × V3 K)
  | [] => [(n, p)]
  | m :: ms => if m.1 = n then (n, p) :: ms else m :: askMove n p ms

/-- What an event changes: a call of `modifyWaypoint` without replanning asks for a move; an evaluation (not for plotting) sets the instant; the worker sees that
moves wait in one phase and carries all of them out in the next. -/
def Desk.on (d : Desk K) : Event K → Desk K
  | .modifyWaypoint n p false => { d with waiting := askMove n p d.waiting }
  | .evaluate t _ false => { d with now := t }
  | .worker =>
    if d.seen then { waiting := [], seen := false, now := d.now, done := d.done ++ d.waiting.map fun m => ⟨m.1, m.2, d.now⟩ }
    else { d with seen := !d.waiting.isEmpty }
  | _ => d

/-- The account after a history that begins, at the instant `now`, without moves. -/
def deskOf (now : K) (es : List (Event K)) : Desk K := es.foldl Desk.on ⟨[], false, now, []⟩

/-- No call asks for a new plan: the only requests are moves without replanning. -/
def OnlyMoves : Event K → Prop
  | .setWaypoints _ => False
  | .appendWaypoint _ => False
  | .modifyWaypoint _ _ g => g = false
  | .modifyWaypoints _ => False
  | _ => True

/-- The moves of the waypoint `w`: where to, and when. Waypoints without a name are never moved. -/
def movesOf (done : List (MoveDone K)) (w : Waypoint K) : List (V3 K × K) :=
  done.filterMap fun m => if m.name = w.name ∧ w.name ≠ "" then some (m.dest, m.instant) else none

/-- Where a waypoint is that began at `p` and made these moves. -/
def endsAt (p : V3 K) (ms : List (V3 K × K)) : V3 K := (ms.getLast?.map Prod.fst).getD p

section
variable [Field K] [LinearOrder K] [IsStrictOrderedRing K]

/-- The steps, along one axis, of a waypoint that began at `x`: how far each move took it from where it was then, and when. -/
def stepsFrom (ax : Axis) : K → List (V3 K × K) → List (K × K)
  | _, [] => []
  | x, m :: ms => (comp m.1 ax - x, m.2) :: stepsFrom ax (comp m.1 ax) ms

/-- By how much a step of length `d`, made at instant `a` by a waypoint of time `T`, changes the references of instant `t`: nothing if the step is shorter than two
centimetres or `t` is further from `T` than `7/6` of the time that was left; else the position by `exp(-9/2 ((t - T)/(T - a))²)` of the step, the velocity
(`k = 1`) by the derivative of this, and the acceleration (`k = 2`) by the code's formula (see C35). -/
def kick (exp : K → K) (k : ℕ) (T a d t : K) : K :=
  if |d| < 2 / 100 ∨ 7 / 6 * (T - a) < |t - T| then 0
  else
    match k with
    | 0 => exp (-(9 / 2 * ((t - T) / (T - a)) ^ 2)) * d
    | 1 => -(9 * (t - T) / (T - a) ^ 2) * exp (-(9 / 2 * ((t - T) / (T - a)) ^ 2)) * d
    | 2 => (9 * (t - T) / (T - a) ^ 2) ^ 2 * exp (-(9 / 2 * ((t - T) / (T - a)) ^ 2)) * d
    | _ => 0

/-- By how much all the moves of a waypoint together change the references of instant `t` along one axis. -/
def shiftOf (exp : K → K) (k : ℕ) (done : List (MoveDone K)) (t : K) (ax : Axis) (w : Waypoint K) : K :=
  ((stepsFrom ax (comp w.current ax) (movesOf done w)).map fun m => kick exp k w.time m.2 m.1 t).sum

end

end Verif.Spec
