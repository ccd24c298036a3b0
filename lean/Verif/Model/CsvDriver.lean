import Verif.Model.Planner
import Verif.Spec.Planner

/-!
# `tests/trajectory_test.cpp`: a route is planned once, flown, and written to a table

Line numbers are those of `tests/trajectory_test.cpp`. The thread of the program is modelled call by call; between any two of its calls the worker and the computation of the
planner may go on. Decimal literals are the rationals they are written as; the step of the loop is a parameter (0.01 in line 169), and so are the route and the speed
(lines 116-152). That the file can be opened is taken for granted; how a floating point number is written is a parameter.
-/

namespace Verif.Csv
open Verif Verif.Spec

variable {K : Type*} [Field K] [LinearOrder K] [IsStrictOrderedRing K]

/-- Lines 98-103, one pass of `eigen_vector_to_dynamic_waypoint_vector`; `junk` is what is in the two positions that the default constructor leaves uninitialised. -/
def toWaypoint (junk : V3 K × V3 K) (n : String × V3 K) : Res (Waypoint K) := do
  let w ← (Waypoint.default junk.1 junk.2).reset n.2
  return (w.setName n.1).copy

/-- Lines 94-105 `eigen_vector_to_dynamic_waypoint_vector`. -/
def toWaypoints (junk : V3 K × V3 K) (ns : List (String × V3 K)) : Res (List (Waypoint K)) := ns.mapM (toWaypoint junk)

/-- Lines 59-83 `save`: the numbers of one line. Velocity and acceleration are read whether they were written or not. -/
def row (t : K) (r : References K) : Res (List K) :=
  match r.velocity, r.acceleration with
  | some v, some a => .ok [t, r.position.x, r.position.y, r.position.z, v.x, v.y, v.z, a.x, a.y, a.z]
  | _, _ => .error .ub

/-- What the planner does on its own, if a computation takes at most `C` seconds. -/
inductive Background (C : K) : Event K → Prop
  | worker : Background C .worker
  | start : Background C .asyncStart
  | finish (c : K) (hc : 0 ≤ c) (hC : c ≤ C) : Background C (.asyncFinish c)

/-- Lines 170-173: the loop from the instant `t` on, with the lines it writes. -/
inductive Loop [FloorSemiring K] (env : Env K) (C dt max : K) : K → Planner K → List (List K) → Prop
  | stop {t : K} {s : Planner K} (h : ¬ t < max - dt) : Loop env C dt max t s []
  | meanwhile {t : K} {s s' : Planner K} {ls : List (List K)} (e : Event K) (he : Background C e) (hs : s.step env e = .ok (some s'))
      (h : Loop env C dt max t s' ls) : Loop env C dt max t s ls
  | line {t : K} {s s' : Planner K} {ls : List (List K)} {r : References K} {l : List K} (ht : t < max - dt)
      (hs : s.evaluateTrajectory env t false false = .ok (some (r, s'))) (hl : row t r = .ok l)
      (h : Loop env C dt max (t + dt) s' ls) : Loop env C dt max t s (l :: ls)

/-- Lines 108-165, `main` up to the call that waits until there is a plan: what it returns and the state it leaves. `v0` is what is in the vehicle position the planner
does not initialise. -/
inductive Planned [FloorSemiring K] (env : Env K) (C : K) (p : V3 K) (speed : K) (ns : List (String × V3 K)) (max : K) (s2 : Planner K) : Prop
  | run (v0 : V3 K) (junk : V3 K × V3 K) (route : List (Waypoint K)) (hroute : toWaypoints junk ns = .ok route) (b0 b1 b2 b3 : List (Event K))
      (hb : ∀ e ∈ b0 ++ b1 ++ b2 ++ b3, Background C e) (s1 : Planner K)
      (h1 : Run env (Planner.init v0) (b0 ++ .updateVehiclePosition p :: (b1 ++ .setSpeed speed :: (b2 ++ .setWaypoints route :: b3))) s1)
      (h2 : s1.getMaxTime env = .ok (some (max, s2)))

/-- Lines 108-175 `main`: the lines a run of the program can write, one list of numbers each. -/
def Writes [FloorSemiring K] (env : Env K) (C : K) (p : V3 K) (speed : K) (ns : List (String × V3 K)) (dt : K) (ls : List (List K)) : Prop :=
  ∃ max s2, Planned env C p speed ns max s2 ∧ Loop env C dt max 0 s2 ls

/-- Lines 61-82: the text of a line; `write` is `operator<<(std::ostream&, double)`. -/
def lineText (write : K → List Char) (l : List K) : List Char := [','].intercalate (l.map write)

/-- Lines 48-54 and 61-82: the contents of the file. Every line ends with a line break. -/
def fileText (write : K → List Char) (ls : List (List K)) : List Char :=
  "time,x,y,z,vx,vy,vz,ax,ay,az".toList ++ '\n' :: ls.flatMap fun l => lineText write l ++ ['\n']

end Verif.Csv
