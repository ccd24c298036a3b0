import Verif.Model.Concurrency
import Mathlib.Logic.Relation

/-!
# What it means for the planner's threads to work together

Reachable states, waiting, races, and the meaning of the event log.
-/
namespace Verif.Conc

/-- The calls that may take over a computed trajectory. -/
def Api.consumes : Api → Bool
  | .evaluateTrajectory | .getMaxTime | .getDynamicWaypoints => true
  | _ => false

/-- Any number of user threads, each making any calls. -/
def anyUsers : Nat → Api → Prop := fun _ _ => True

/-- Any number of user threads, but only thread 0 evaluates (calls `evaluateTrajectory`,
`getMaxTime`, `getMinTime` or `getDynamicWaypoints`). -/
def oneConsumer : Nat → Api → Prop := fun n a => a.consumes = true → n = 0

/-- The scheduler's choice is one the users make. -/
def Choice.ok (users : Nat → Api → Prop) (i : Tid) : Choice → Prop
  | .go _ => True
  | .call a => ∀ n, i = .user n → users n a

/-- The states that some interleaving reaches. -/
inductive Reach (users : Nat → Api → Prop) : State → Prop
  | init : Reach users .init
  | step {σ τ : State} {i : Tid} {ch : Choice} :
      Reach users σ → ch.ok users i → step σ i ch = some τ → Reach users τ

/-- The next thing thread `i` does is `a`. -/
def Next (σ : State) (i : Tid) (a : Act) : Prop := ∃ k, σ.code i = .act a :: k

/-- Thread `i` is inside a call (or is the running worker, or a running computation). -/
def Busy (σ : State) (i : Tid) : Prop := σ.code i ≠ []

/-- Thread `i` can take a step. -/
def CanStep (σ : State) (i : Tid) : Prop := ∃ c, (step σ i (.go c)).isSome

/-- Thread `i` waits for thread `j`: for a mutex that `j` holds, for the result of the computation
`j`, or for the end of the worker `j`. -/
def Waits (σ : State) (i j : Tid) : Prop :=
  (∃ m, Next σ i (.lock m) ∧ σ.owner m = some j) ∨
  (∃ n, (Next σ i .futWait ∨ Next σ i .futGet ∨ Next σ i .launch ∨ Next σ i .dropFuture) ∧
    σ.fut = .pending n ∧ j = .comp n) ∨
  (Next σ i .join ∧ j = .worker)

/-- The access to a shared member that an action makes: where, to which, and whether it writes. -/
def Act.access : Act → Option (Site × Var × Bool)
  | .read s v => some (s, v, false)
  | .write v => some (.plain, v, true)
  | .load _ (.trajNull s) => some (s, .trajPtr, false)
  | .load _ .futValid => some (.plain, .futureObj, false)
  | .load _ .futReady => some (.plain, .futureObj, false)
  | .load _ (.modsPending s) => some (s, .modList, false)
  | .futWait => some (.plain, .futureObj, false)
  | .futGet => some (.plain, .futureObj, true)
  | .launch => some (.plain, .futureObj, true)
  | .setTraj => some (.plain, .trajPtr, true)
  | .deref => some (.plain, .trajPtr, false)
  | .pushMod _ => some (.plain, .modList, true)
  | .takeMods => some (.plain, .modList, true)
  | .clearMods => some (.plain, .modList, true)
  | .speedP _ => some (.plain, .pSpeed, true)
  | .speedN _ => some (.plain, .nSpeed, true)
  | .speedPN => some (.plain, .nSpeed, true)
  | .speedNP => some (.plain, .pSpeed, true)
  | .speedOut => some (.plain, .pSpeed, false)
  | _ => none

/-- A data race on `v` between accesses at the places `s` and `s'`: two threads are both about to
access `v`, and one of them writes. -/
def RaceAt (σ : State) (v : Var) (s s' : Site) : Prop :=
  ∃ i j a a' w w', i ≠ j ∧ Next σ i a ∧ Next σ j a' ∧
    a.access = some (s, v, w) ∧ a'.access = some (s', v, w') ∧ (w = true ∨ w' = true)

/-- The latest speed set, 0 if there is none. -/
def lastSpeed : List Event → Nat
  | [] => 0
  | .speedSet x :: _ => x
  | _ :: l => lastSpeed l

/-- Every speed read was the one set last. -/
def SpeedsRight : List Event → Prop
  | [] => True
  | .speedRead x :: l => x = lastSpeed l ∧ SpeedsRight l
  | _ :: l => SpeedsRight l

/-- The plans taken over, in order. -/
def takenPlans (l : List Event) : List Nat :=
  (l.filterMap fun e => match e with | .takenOver n => some n | _ => none).reverse

/-- The plans computed, in order. -/
def finishedPlans (l : List Event) : List Nat :=
  (l.filterMap fun e => match e with | .finished n => some n | _ => none).reverse

/-- The computations started, in order. -/
def startedPlans (l : List Event) : List Nat :=
  (l.filterMap fun e => match e with | .started n => some n | _ => none).reverse

/-- The names for which a modification is requested and neither taken nor dropped, in the order of
the first request. -/
def pendingMods : List Event → List Nat
  | [] => []
  | .pushed k :: l => push k (pendingMods l)
  | .batch _ :: _ => []
  | .cleared :: _ => []
  | _ :: l => pendingMods l

/-- Whenever the worker took modifications, it took exactly the pending ones. -/
def BatchesRight : List Event → Prop
  | [] => True
  | .batch ks :: l => ks = pendingMods l ∧ BatchesRight l
  | _ :: l => BatchesRight l

/-- The program contains the statement that returns the value of the flag of `getWasTrajectoryRegenerated`. -/
def Prog.reports : Prog → Bool
  | .act (.report _) => true
  | .skip | .act _ => false
  | .seq p q => p.reports || q.reports
  | .br _ p q => p.reports || q.reports
  | .loopWhile _ p q => p.reports || q.reports
  | .many p => p.reports

/-- Thread `i` is inside `getWasTrajectoryRegenerated`. -/
def Reporting (σ : State) (i : Tid) : Prop := ∃ p ∈ σ.code i, p.reports = true

/-- The states reached by interleavings in which calls of `getWasTrajectoryRegenerated` overlap neither each other nor a step that raises the flag (other steps may happen
during such a call). -/
inductive ReachApart : State → Prop
  | init : ReachApart .init
  | step {σ τ : State} {i : Tid} {ch : Choice} : ReachApart σ → step σ i ch = some τ →
      (ch = .call .getWasTrajectoryRegenerated ∨ τ.log = .changed :: σ.log → ∀ j, ¬Reporting σ j) → ReachApart τ

/-- There was a change since the last report. -/
def changedSince : List Event → Bool
  | [] => false
  | .changed :: _ => true
  | .reported _ :: _ => false
  | _ :: l => changedSince l

/-- Every report says whether there was a change since the report before it. -/
def ReportsRight : List Event → Prop
  | [] => True
  | .reported b :: l => b = changedSince l ∧ ReportsRight l
  | _ :: l => ReportsRight l

end Verif.Conc
