import Verif.Spec.PlannerThreads
import Verif.Spec.Clock

/-!
# Executions of all threads that go on forever
-/

namespace Verif.Spec

variable {K : Type*} [Field K] [LinearOrder K] [IsStrictOrderedRing K] [FloorSemiring K]

/-- An execution from construction on that never ends: `σ n` is the state after `n` steps, `L n` says whose step leads to the next one;
`none`: the evaluating thread begins a call. -/
structure Forever (env : Env K) (σ : ℕ → Whole K) (L : ℕ → Option (Label K)) : Prop where
  init : ∃ vehicle, σ 0 = ⟨Planner.init vehicle, .free, .begin⟩
  step : ∀ n l, L n = some l → ThreadStep env l (σ n) (σ (n + 1))
  call : ∀ n, L n = none → (σ n).c.isFree = true ∧ ∃ k, σ (n + 1) = ⟨(σ n).p, .start k, (σ n).w⟩

/-- The worker is scheduled again and again. -/
def WorkerRuns (L : ℕ → Option (Label K)) : Prop := ∀ n, ∃ m ≥ n, L m = some .worker

/-- A computation that has been launched goes on until it ends. -/
def TaskRuns (σ : ℕ → Whole K) (L : ℕ → Option (Label K)) : Prop :=
  ∀ n, (σ n).p.future = .launched ∨ (∃ v, (σ n).p.future = .running v) → ∃ m ≥ n, ∃ e, L m = some (.task e)

/-- `evaluateTrajectory` is called again and again; so every call returns. -/
def KeepsEvaluating (σ : ℕ → Whole K) (L : ℕ → Option (Label K)) : Prop :=
  ∀ n, ∃ m ≥ n, L m = none ∧ ∃ t o f, (σ (m + 1)).c = .start (.evaluate t o f)

/-- No plan is under way: nothing is being computed, and the worker has not taken the requests for a plan. -/
def NoPlanUnderWay (s : Whole K) : Prop := s.p.computing = false ∧ (s.p.pc = .top ∨ s.p.pc = .apply ∨ s.p.pc = .collect)

/-- In the step from `σ n` the plan is taken over. -/
def TakenOver (σ : ℕ → Whole K) (n : ℕ) : Prop := TakesOver (σ n).p (σ (n + 1)).p

end Verif.Spec
