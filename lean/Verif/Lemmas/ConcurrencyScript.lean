import Verif.Spec.Concurrency

/-!
# Scripts: schedules described by what the threads do
-/
namespace Verif.Conc

/-- An order to the scheduler. -/
inductive Order
  /-- user `u` starts a call -/
  | call (u : Nat) (a : Api)
  /-- thread `i` goes on until its next action is `x` -/
  | before (i : Tid) (x : Act)
  /-- thread `i` makes a step, deciding for `c` where its program leaves it open -/
  | one (i : Tid) (c : Bool)
  /-- thread `i` goes on to the end of its call -/
  | finish (i : Tid)

/-- Whether the next action of thread `i` is `x`. -/
def nextIs (σ : State) (i : Tid) (x : Act) : Bool :=
  match σ.code i with
  | p :: _ => decide (p = .act x)
  | [] => false

theorem nextIs_next {σ : State} {i : Tid} {x : Act} (h : nextIs σ i x = true) : Next σ i x := by
  unfold nextIs at h
  split at h
  · rename_i p k hk
    rw [of_decide_eq_true h] at hk
    exact ⟨k, hk⟩
  · cases h

/-- Let thread `i` go on until `stop`, for at most so many steps. -/
def goOn (i : Tid) (stop : State → Bool) : Nat → State → Option State
  | 0, _ => none
  | f + 1, σ =>
    if stop σ then some σ
    else
      match step σ i (.go false) with
      | some τ => goOn i stop f τ
      | none => none

/-- Carry out an order. -/
def Order.run (σ : State) : Order → Option State
  | .call u a => step σ (.user u) (.call a)
  | .before i x => goOn i (fun σ => nextIs σ i x) 400 σ
  | .one i c => step σ i (.go c)
  | .finish i => goOn i (fun σ => (σ.code i).isEmpty) 400 σ

/-- Carry out orders. -/
def runAll : State → List Order → Option State
  | σ, [] => some σ
  | σ, o :: os =>
    match o.run σ with
    | some τ => runAll τ os
    | none => none

/-- The users may do what they are told. -/
def Order.okOne : Order → Bool
  | .call u a => !a.consumes || u == 0
  | _ => true

theorem goOn_reach {users : Nat → Api → Prop} {i : Tid} {stop : State → Bool} (n : Nat) :
    ∀ {σ τ : State}, Reach users σ → goOn i stop n σ = some τ → Reach users τ := by
  induction n with
  | zero => intro σ τ _ e; cases e
  | succ n ih =>
    intro σ τ h e
    simp only [goOn] at e
    split at e
    · cases e
      exact h
    · split at e
      · rename_i ρ hs
        exact ih (.step (ch := .go false) h trivial hs) e
      · cases e

theorem order_reach {users : Nat → Api → Prop} {σ τ : State} (h : Reach users σ) (o : Order)
    (ho : ∀ u a, o = .call u a → users u a) (e : o.run σ = some τ) : Reach users τ := by
  cases o with
  | call u a => exact .step (i := .user u) (ch := .call a) h (fun n hn => by cases hn; exact ho _ _ rfl) e
  | before i x => exact goOn_reach _ h e
  | one i c => exact .step (ch := .go c) h trivial e
  | finish i => exact goOn_reach _ h e

theorem runAll_reach {users : Nat → Api → Prop} (os : List Order) :
    ∀ {σ τ : State}, Reach users σ → (∀ o ∈ os, ∀ u a, o = .call u a → users u a) →
      runAll σ os = some τ → Reach users τ := by
  induction os with
  | nil => intro σ τ h _ e; cases e; exact h
  | cons o os ih =>
    intro σ τ h ho e
    simp only [runAll] at e
    split at e
    · rename_i ρ hs
      exact ih (order_reach h o (ho o (List.mem_cons_self ..)) hs)
        (fun o' h' => ho o' (List.mem_cons_of_mem _ h')) e
    · cases e

/-- A script shows that a state with a property is reachable. -/
theorem script_any (os : List Order) (p : State → Bool) (h : (runAll .init os).any p = true) :
    ∃ σ, Reach anyUsers σ ∧ p σ = true := by
  rw [Option.any_eq_true] at h
  obtain ⟨σ, h1, h2⟩ := h
  exact ⟨σ, runAll_reach os .init (fun _ _ _ _ _ => trivial) h1, h2⟩

/-- The same with a single evaluating thread. -/
theorem script_one (os : List Order) (p : State → Bool) (ho : os.all Order.okOne = true)
    (h : (runAll .init os).any p = true) : ∃ σ, Reach oneConsumer σ ∧ p σ = true := by
  rw [Option.any_eq_true] at h
  obtain ⟨σ, h1, h2⟩ := h
  refine ⟨σ, runAll_reach os .init (fun o hm u a e ha => ?_) h1, h2⟩
  have := List.all_eq_true.1 ho o hm
  subst e
  simpa [Order.okOne, ha] using this

/-- The orders that lead to a first computed plan: waypoints are set, the worker plans, the
computation finishes. -/
def firstPlan : List Order :=
  [.call 0 .setWaypoints, .finish (.user 0), .before .worker .launch, .one .worker false,
    .before .worker (.load .cond (.flag .stop)), .finish (.comp 0)]

/-- The orders that lead to a first plan in use. -/
def firstUse : List Order :=
  firstPlan ++ [.call 0 .evaluateTrajectory, .finish (.user 0)]

end Verif.Conc
