import Verif.Model.Timing
import Mathlib.Algebra.BigOperators.Group.List.Basic

/-!
# Specification of the timing statistics
-/

namespace Verif.Spec

open Timing

variable {K : Type} [Field K] [LinearOrder K] [IsStrictOrderedRing K]

/-- The last `n` elements of a list. -/
def lastN (n : ℕ) (l : List K) : List K := l.drop (l.length - n)

/-- Arithmetic mean. -/
def average (l : List K) : K := l.sum / l.length

/-- Mean squared deviation from the mean. -/
def variance (l : List K) : K := average (l.map fun x => (x - average l) ^ 2)

/-- Adding the samples of a list one after the other to a new accumulator. -/
def addAll (N : ℕ) (l : List K) : Res (Accumulator K) := l.foldlM (Accumulator.add N) .init

/-- One call of the registry of timers: by `GetHandle` or any query by tag, `AddTime` (as a timer does when stopped), or `Reset`. -/
inductive TimingCall (K : Type) where
  | tag (t : String)
  | time (handle : ℕ) (seconds : K)
  | reset

/-- The effect of a call on the registry. -/
def TimingCall.run (r : Registry K) : TimingCall K → Res (Registry K)
  | .tag t => .ok (r.getHandle t).1
  | .time h s => r.addTime h s
  | .reset => .ok r.reset

/-- The registry after a history of calls on a new one. -/
def runCalls (cs : List (TimingCall K)) : Res (Registry K) := cs.foldlM TimingCall.run .init

end Verif.Spec
