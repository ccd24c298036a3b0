import Verif.Model.Planner
import Verif.Spec.Waypoint
import Verif.Spec.Trajectory

/-!
# Specification vocabulary for the planner

Histories of events, what the planner may assume about the waypoints users hand over, and the contract of the optimizer.
-/

namespace Verif.Spec

variable {K : Type*} [Field K] [LinearOrder K] [IsStrictOrderedRing K] [FloorSemiring K]

/-- `Run env s es s'`: starting in `s` the events `es` happen in this order, none of them fails, and the state is then `s'`. -/
inductive Run (env : Env K) (s : Planner K) : List (Event K) → Planner K → Prop
  | nil : Run env s [] s
  | snoc {es : List (Event K)} {s' s'' : Planner K} (e : Event K) :
      Run env s es s' → s'.step env e = .ok (some s'') → Run env s (es ++ [e]) s''

/-- What the planner may assume about an event: the waypoints handed over are well kept, i.e. made from three-dimensional vertices with a
position (property C38), and no computation takes negative time. -/
def ValidEvent : Event K → Prop
  | .setWaypoints ws => ∀ w ∈ ws, Bookkept w
  | .appendWaypoint w => Bookkept w
  | .asyncFinish dt => 0 ≤ dt
  | _ => True

/-- As `ValidEvent`, and moreover no waypoint handed over carries compensations (as one obtained from the planner may). -/
def FreshEvent : Event K → Prop
  | .setWaypoints ws => ∀ w ∈ ws, Bookkept w ∧ w.modifiers = []
  | .appendWaypoint w => Bookkept w ∧ w.modifiers = []
  | .asyncFinish dt => 0 ≤ dt
  | _ => True

/-- A state some history of events with the property `V`, starting at construction, leads to. -/
def ReachableBy (V : Event K → Prop) (env : Env K) (s : Planner K) : Prop :=
  ∃ vehicle es, (∀ e ∈ es, V e) ∧ Run env (Planner.init vehicle) es s

/-- A state some history of valid events leads to. -/
def Reachable (env : Env K) (s : Planner K) : Prop := ReachableBy ValidEvent env s

/-- A usable trajectory: three dimensions, at least one segment, positive durations, the total duration correct, table fits. -/
def Usable (tr : Trajectory K) : Prop :=
  tr.D = 3 ∧ tr.segments ≠ [] ∧ Consistent tr ∧ (∀ s ∈ tr.segments, 0 < s.time) ∧ (∀ s ∈ tr.segments, Regular s)

/-- Contract of the optimizer: a returned trajectory is usable and has one segment between any two consecutive vertices. -/
def Segmentwise (env : Env K) : Prop :=
  ∀ vs speed tr, env.optimize vs speed = .ok tr → Usable tr ∧ tr.segments.length + 1 = vs.length

/-- The contract's second half: for well-formed vertices, at the time of vertex `i` the trajectory has the prescribed derivatives (orders 0 to
4). -/
def MeetsVertices (env : Env K) : Prop :=
  ∀ vs speed tr, env.optimize vs speed = .ok tr → (∀ v ∈ vs, WellFormed v) → ∀ (i : ℕ) (v : Vertex K), vs[i]? = some v →
    ∀ (k : ℕ) (c : List K), k ≤ 4 → v.getConstraint k = some c → tr.evaluate (startOf tr.segments i) k = .ok c

/-- The waypoints of a plan: one at each end of each segment, numbered from 0, with the times (on the global clock) at which the trajectory
`tr`, started at `g`, passes from segment to segment. -/
def Timed (tr : Trajectory K) (g : K) (ws : List (Waypoint K)) : Prop :=
  ws.length = tr.segments.length + 1 ∧
  ∀ (i : ℕ) (w : Waypoint K), ws[i]? = some w → w.index = i ∧ w.time = g + startOf tr.segments i

/-! ### Evaluation -/

/-- The part of the references that belongs to derivative order 0, 1, 2. -/
def refOrder (r : References K) : ℕ → Option (V3 K)
  | 0 => some r.position
  | 1 => r.velocity
  | 2 => r.acceleration
  | _ => none

/-- `v` is the `k`-th derivative of the trajectory `tr` at local time `tl`, clamped to the trajectory, plus, if the global instant `tg` is
positive, the compensations at `tg` of all named waypoints. -/
def IsReference (env : Env K) (tr : Trajectory K) (ws : List (Waypoint K)) (tl tg : K) (k : ℕ) (v : V3 K) : Prop :=
  ∃ base : V3 K, tr.evaluate (max 0 (min tl tr.maxTime)) k = .ok [base.x, base.y, base.z] ∧
    (tg ≤ 0 → v = base) ∧
    (0 < tg → ∃ cs : List (V3 K),
      List.Forall₂ (fun w c => w.trajectoryCompensation env.exp tg k = .ok c) (ws.filter fun w => w.name ≠ "") cs ∧
      ∀ a, comp v a = comp base a + (cs.map fun c => comp c a).sum)

/-- No compensation has width zero (an update at exactly the waypoint's time creates one). -/
def NoZeroWidth (ws : List (Waypoint K)) : Prop := ∀ w ∈ ws, ∀ m ∈ w.modifiers, ∀ a, (comp m a).sigmaSq ≠ 0

/-- A computed plan waits to be taken over. -/
def PlanWaiting (s : Planner K) : Prop := s.future = .failed ∨ ∃ tr, s.future = .ready tr

/-- At least two computation times (each twice the last measured one) of the current plan lie ahead of the last evaluated instant. -/
def EnoughLeft (s : Planner K) : Prop :=
  ∃ tr, s.traj = some tr ∧ s.params.lastGlobal + 2 * (2 * s.timeConstant) ≤ s.params.gtlg + tr.maxTime

/-- The values a history's `setSpeed` calls set, in order. -/
def speedsSet (es : List (Event K)) : List K :=
  es.filterMap fun e => match e with
    | .setSpeed v => some v
    | _ => none

end Verif.Spec
