import Verif.Spec.Requests

/-!
# The time of the last evaluation, the security zone, the regenerated flag
-/

namespace Verif.Spec

variable {K : Type*} [Field K] [LinearOrder K] [IsStrictOrderedRing K] [FloorSemiring K]

/-- The times of the evaluations of a history that are not for plotting, in order. -/
def evalTimes (es : List (Event K)) : List K :=
  es.filterMap fun e => match e with
    | .evaluate t _ false => some t
    | _ => none

/-- The time of the last one (0 if there was none). -/
def lastEval (es : List (Event K)) : K := ((evalTimes es).getLast?).getD 0

/-- A history in which plans, except the first one, are taken over by evaluations that are not for plotting (and not by
`getDynamicWaypoints` or evaluations for plotting). -/
def RunOnTime (env : Env K) : Planner K → List (Event K) → Planner K → Prop :=
  RunWhile (fun s e s' => TakesOver s s' → s.traj = none ∨ ∃ t o, e = .evaluate t o false) env

/-- The security zone: there is a plan, and a named waypoint of it comes within 10 times the measured computation time after the last
evaluated instant. -/
def InZone (s : Planner K) : Prop :=
  s.traj ≠ none ∧ ∃ w ∈ s.dyn, w.name ≠ "" ∧ s.params.lastGlobal < w.time ∧ w.time ≤ s.params.lastGlobal + 10 * s.timeConstant

/-- The worker, in the step `e` from `s`, applies one of the updates `us` to a named waypoint of the current plan. -/
def UpdatesPlan (us : List (String × V3 K)) (s : Planner K) (e : Event K) : Prop :=
  Applies s e ∧ ∃ u ∈ us, ∃ w ∈ s.dyn, w.name = u.1 ∧ w.name ≠ ""

/-- A history, the requests pending after it, and whether since the last call of `getWasTrajectoryRegenerated` (or the beginning) a plan
was taken over or a waypoint of the current plan updated. -/
inductive RunF (env : Env K) (s : Planner K) : List (Event K) → Requests K → Prop → Planner K → Prop
  | nil : RunF env s [] .nothing False s
  | read {es : List (Event K)} {g : Requests K} {b : Prop} {s' s'' : Planner K} : RunF env s es g b s' →
      s'.step env .getWasTrajectoryRegenerated = .ok (some s'') → RunF env s (es ++ [.getWasTrajectoryRegenerated]) g False s''
  | other {es : List (Event K)} {g : Requests K} {b : Prop} {s' s'' : Planner K} (e : Event K) : RunF env s es g b s' →
      e ≠ .getWasTrajectoryRegenerated → s'.step env e = .ok (some s'') →
      RunF env s (es ++ [e]) (g.after s'.pc e) (b ∨ TakesOver s' s'' ∨ UpdatesPlan g.updates s' e) s''

/-- Squared Euclidean distance. -/
def sqDist (a b : V3 K) : K := (a.x - b.x) ^ 2 + (a.y - b.y) ^ 2 + (a.z - b.z) ^ 2

/-- The instants (in tenths) the time fitting tries: 0 and all that are less than three computation times (`tc`). -/
def OnGrid (tc : K) (j : ℕ) : Prop := j = 0 ∨ (j : K) / 10 < 3 * tc

end Verif.Spec
