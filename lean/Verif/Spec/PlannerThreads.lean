import Verif.Model.PlannerThreads
import Verif.Spec.PlannerFine
import Verif.Spec.Requests

/-!
# Interleavings of all threads
-/

namespace Verif.Spec

variable {K : Type*} [Field K] [LinearOrder K] [IsStrictOrderedRing K] [FloorSemiring K]

/-- The calls of threads other than the evaluating one. `modifyWaypoints` is not among them: it is `modifyWaypoint(..., false)` repeated and
then the assignment of the request flag (`dt.cpp` 104-113). -/
def ByUsers : Event K → Prop
  | .setWaypoints _ => True
  | .appendWaypoint _ => True
  | .modifyWaypoint _ _ _ => True
  | .setSpeed _ => True
  | .getWasTrajectoryRegenerated => True
  | .updateVehiclePosition _ => True
  | _ => False

/-- The calls that acquire `todo_mutex` (`dt.cpp` 60-102). -/
def Queues : Event K → Prop
  | .setWaypoints _ => True
  | .appendWaypoint _ => True
  | .modifyWaypoint _ _ _ => True
  | _ => False

/-- The progress of the computation. -/
def ByTask : Event K → Prop
  | .asyncStart => True
  | .asyncFinish _ => True
  | _ => False

/-- Whose step it is: the evaluating thread's within a call, the worker's, a call of another user thread, the assignment of the request flag at
the end of another thread's `modifyWaypoints`, the computation's. -/
inductive Label (K : Type*) where
  | evaluator
  | worker
  | user (e : Event K)
  | request
  | task (e : Event K)

/-- One step of one thread. -/
inductive ThreadStep (env : Env K) : Label K → Whole K → Whole K → Prop
  | evaluator {p p' : Planner K} {c c' : Consumer K} (w : WorkerAt K) : Fine.consume env ⟨p, c⟩ = .ok (some ⟨p', c'⟩) →
      ThreadStep env .evaluator ⟨p, c, w⟩ ⟨p', c', w⟩
  | worker {s s' : Whole K} : s.work env = .ok s' → ThreadStep env .worker s s'
  | user {s : Whole K} {p' : Planner K} (e : Event K) : ByUsers e → ValidEvent e → (Queues e → s.holdsTodo = false) →
      s.p.step env e = .ok (some p') → ThreadStep env (.user e) s ⟨p', s.c, s.w⟩
  | request (s : Whole K) : ThreadStep env .request s ⟨{ s.p with generateNew := true }, s.c, s.w⟩
  | task {s : Whole K} {p' : Planner K} (e : Event K) : ByTask e → ValidEvent e → s.p.step env e = .ok (some p') →
      ThreadStep env (.task e) s ⟨p', s.c, s.w⟩

/-- The states some interleaving of all threads leads to, from construction on; the evaluating thread makes any calls one after the
other. -/
inductive Threads (env : Env K) : Whole K → Prop
  | init (vehicle : V3 K) : Threads env ⟨Planner.init vehicle, .free, .begin⟩
  | call {s : Whole K} (k : Purpose K) : Threads env s → s.c.isFree = true → Threads env ⟨s.p, .start k, s.w⟩
  | step {l : Label K} {s s' : Whole K} : Threads env s → ThreadStep env l s s' → Threads env s'

/-- `Stretch env ok s0 ss s`: steps of the threads that satisfy `ok` (state before, whose step, state after), and further evaluating calls, lead
from `s0` to `s`; `ss` are the states on the way, both included. -/
inductive Stretch (env : Env K) (ok : Whole K → Label K → Whole K → Prop) (s0 : Whole K) : List (Whole K) → Whole K → Prop
  | start : Stretch env ok s0 [s0] s0
  | call {ss : List (Whole K)} {s : Whole K} (k : Purpose K) : Stretch env ok s0 ss s → s.c.isFree = true →
      Stretch env ok s0 (ss ++ [⟨s.p, .start k, s.w⟩]) ⟨s.p, .start k, s.w⟩
  | step {ss : List (Whole K)} {l : Label K} {s s' : Whole K} : Stretch env ok s0 ss s → ThreadStep env l s s' → ok s l s' →
      Stretch env ok s0 (ss ++ [s']) s'

/-- An evaluating call `k` in progress (or just over): the states since its beginning are `ss`, the last of them `s`. -/
inductive Calling (env : Env K) (k : Purpose K) : List (Whole K) → Whole K → Prop
  | start {s : Whole K} : Threads env s → s.c.isFree = true → Calling env k [⟨s.p, .start k, s.w⟩] ⟨s.p, .start k, s.w⟩
  | step {ss : List (Whole K)} {l : Label K} {s s' : Whole K} : Calling env k ss s → ThreadStep env l s s' → Calling env k (ss ++ [s']) s'

/-- The worker has entered the phase `pc` of its loop in the state `s0` and not left it until `s`; `ss` are the states since. -/
def Within (env : Env K) (pc : WorkerPc) (s0 : Whole K) (ss : List (Whole K)) (s : Whole K) : Prop :=
  Threads env s0 ∧ s0.p.pc = pc ∧ s0.w = .begin ∧ Stretch env (fun _ _ b => b.p.pc = pc) s0 ss s

/-- The worker has begun in `s0` to look whether there is something to do, and is still at it in `s`. -/
def Looking (env : Env K) (s0 : Whole K) (ss : List (Whole K)) (s : Whole K) : Prop :=
  Threads env s0 ∧ s0.p.pc = .top ∧ s0.w = .begin ∧ Stretch env (fun _ _ b => b.p.pc = .top ∧ b.w ≠ .begin) s0 ss s

/-- The worker takes the requests for a plan. -/
def TakesRequests (s : Whole K) (l : Label K) (s' : Whole K) : Prop := l = .worker ∧ s.p.pc = .collect ∧ s'.p.pc = .collected

/-- The worker has applied the position updates to the current plan. -/
def FinishesUpdates (s : Whole K) (l : Label K) (s' : Whole K) : Prop := l = .worker ∧ s.p.pc = .apply ∧ s'.p.pc = .top

/-- An interleaving together with the requests pending after it. -/
inductive Pending (env : Env K) : Requests K → Whole K → Prop
  | init (vehicle : V3 K) : Pending env .nothing ⟨Planner.init vehicle, .free, .begin⟩
  | call {g : Requests K} {s : Whole K} (k : Purpose K) : Pending env g s → s.c.isFree = true → Pending env g ⟨s.p, .start k, s.w⟩
  | user {g : Requests K} {s s' : Whole K} (e : Event K) : Pending env g s → ThreadStep env (.user e) s s' → Pending env (g.after .top e) s'
  | taken {g : Requests K} {l : Label K} {s s' : Whole K} : Pending env g s → ThreadStep env l s s' → TakesRequests s l s' →
      Pending env .nothing s'
  | updated {g : Requests K} {l : Label K} {s s' : Whole K} : Pending env g s → ThreadStep env l s s' → FinishesUpdates s l s' →
      Pending env { g with updates := [] } s'
  | other {g : Requests K} {l : Label K} {s s' : Whole K} : Pending env g s → ThreadStep env l s s' → (∀ e, l ≠ .user e) →
      ¬ TakesRequests s l s' → ¬ FinishesUpdates s l s' → Pending env g s'

/-- The plan `ws` continues the one in force (trajectory, waypoints, start time and compensation of `p`) at the local time `t`: its first point
has position, velocity and acceleration of the references there; the second has the position of the reference 10 measured computation
times later; then come the waypoints `from_`, of which those with a time closer than 20 measured computation times are missing. -/
def Continues (env : Env K) (p : Planner K) (t : K) (from_ ws : List (Waypoint K)) : Prop :=
  ∃ tr w0 w1 kept, p.traj = some tr ∧ ws = w0 :: w1 :: kept ∧ w0.name = "stitching_point" ∧ w1.name = "stitching_point" ∧
    (∀ k : ℕ, k ≤ 2 → ∃ v : V3 K, IsReference env tr p.dyn t (t + p.params.gtlg) k v ∧ w0.vertex.getConstraint k = some [v.x, v.y, v.z]) ∧
    (∃ v : V3 K, IsReference env tr p.dyn (t + 10 * p.timeConstant) (t + 10 * p.timeConstant + p.params.gtlg) 0 v ∧
      w1.vertex.getConstraint 0 = some [v.x, v.y, v.z]) ∧
    List.Forall₂ SameWaypoint (from_.filter fun w => w.time ≤ 0 ∨ t + p.params.gtlg + 20 * p.timeConstant ≤ w.time) kept

/-- The plan `ws` starts at rest at the position `x` and then goes through the waypoints `from_`. -/
def StartsAt (x : V3 K) (from_ ws : List (Waypoint K)) : Prop :=
  ∃ w, ws = w :: from_ ∧ w.name = "" ∧ w.vertex.getConstraint 0 = some [x.x, x.y, x.z] ∧
    w.vertex.getConstraint 1 = some [0, 0, 0] ∧ w.vertex.getConstraint 2 = some [0, 0, 0]

end Verif.Spec
