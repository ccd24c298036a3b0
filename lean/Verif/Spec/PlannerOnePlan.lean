import Verif.Spec.PlannerThreads

/-!
# Counting requests and plans
-/

namespace Verif.Spec

variable {K : Type*} [Field K] [LinearOrder K] [IsStrictOrderedRing K] [FloorSemiring K]

/-- The step asks for a plan: `setWaypoints`, `appendWaypoint`, `modifyWaypoint` with planning, or the end of `modifyWaypoints`. -/
def AsksForPlan : Label K → Prop
  | .user (.setWaypoints _) => True
  | .user (.appendWaypoint _) => True
  | .user (.modifyWaypoint _ _ generate) => generate = true
  | .request => True
  | _ => False

/-- The worker has put everything a new plan takes in place, has started the computation (or found that there is nothing to plan), and goes back to
look for requests. -/
def FinishesPlanning (s : Whole K) (l : Label K) (s' : Whole K) : Prop := l = .worker ∧ s.p.pc ≠ .top ∧ s.p.pc ≠ .apply ∧ s'.p.pc = .top

/-- A counter: one more if `P`, otherwise the same. -/
def Tick (P : Prop) (n n' : ℕ) : Prop := (P ∧ n' = n + 1) ∨ (¬ P ∧ n' = n)

/-- An interleaving of all threads with the number of times a plan was asked for, the number of times the worker took the requests for one, and the
number of times the trajectory changed. -/
inductive Counted (env : Env K) : ℕ → ℕ → ℕ → Whole K → Prop
  | init (vehicle : V3 K) : Counted env 0 0 0 ⟨Planner.init vehicle, .free, .begin⟩
  | call {asked taken changed : ℕ} {s : Whole K} (k : Purpose K) : Counted env asked taken changed s → s.c.isFree = true →
      Counted env asked taken changed ⟨s.p, .start k, s.w⟩
  | step {asked taken changed asked' taken' changed' : ℕ} {l : Label K} {s s' : Whole K} : Counted env asked taken changed s → ThreadStep env l s s' →
      Tick (AsksForPlan l) asked asked' → Tick (TakesRequests s l s') taken taken' → Tick (s'.p.traj ≠ s.p.traj) changed changed' →
      Counted env asked' taken' changed' s'

end Verif.Spec
