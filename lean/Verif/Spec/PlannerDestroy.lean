import Verif.Model.PlannerDestroy
import Verif.Spec.PlannerThreads

/-!
# Destroying the planner
-/

namespace Verif.Spec

variable {K : Type*} [Field K] [LinearOrder K] [IsStrictOrderedRing K] [FloorSemiring K]

/-- One step after the destructor has been called: of the destructor, the worker, or the computation. -/
inductive DestroyStep (env : Env K) : Dying K → Dying K → Prop
  | destructor {x y : Dying K} : x.destroy = some y → DestroyStep env x y
  | worker {x y : Dying K} : x.work env = .ok (some y) → DestroyStep env x y
  | task {x y : Dying K} (e : Event K) : ByTask e → ValidEvent e → x.compute env e = .ok (some y) → DestroyStep env x y

/-- What some interleaving leads to when the destructor is called in the state `s`. -/
inductive Destroyed (env : Env K) (s : Whole K) : Dying K → Prop
  | called (checked : Bool) : Destroyed env s ⟨s, checked, false, .stop⟩
  | step {x y : Dying K} : Destroyed env s x → DestroyStep env x y → Destroyed env s y

/-- The next step of some thread is undefined. -/
def Undefined (env : Env K) (x : Dying K) : Prop :=
  x.work env = .error .ub ∨ ∃ e, ByTask e ∧ ValidEvent e ∧ x.compute env e = .error .ub

/-- No plan is being computed, and the worker is not making one nor going to make one: either a computed plan has not been taken over yet,
or there is no request and the worker is not about to act on an earlier one. -/
def NoPlanComing (s : Whole K) : Prop :=
  s.p.future.inProgress = false ∧ (s.p.pc = .apply ∨ s.p.pc = .top) ∧
    (s.p.computing = true ∨ (s.p.generateNew = false ∧ (s.p.pc = .top → s.w = .begin ∨ s.w = .queue ∨ s.w = .queueStatus)))

end Verif.Spec
