import Verif.Model.SharedTrajectory

/-!
# Specification: threads that share trajectory handles
-/

namespace Verif.Spec
open Verif.Shared

variable {n : Nat} {ι π : Type*} [DecidableEq ι] [DecidableEq π]

/-- The handles whose pointer a call changes. -/
def Writes (c : Call ι) (o : ι) : Prop := ∃ s, c = .assign o s

/-- The handles whose pointer a call reads. -/
def Reads (c : Call ι) (o : ι) : Prop :=
  (∃ d, c = .assign d o) ∨ c = .evaluate o ∨ c = .time o ∨ c = .isNull o ∨ (∃ b, c = .same o b ∨ c = .same b o)

/-- Reads of the pointer of a handle for which the call takes no mutex of that handle: source of an assignment to another handle, comparisons. -/
def UnlockedRead (c : Call ι) (o : ι) : Prop :=
  (∃ d, d ≠ o ∧ c = .assign d o) ∨ c = .isNull o ∨ (∃ b, c = .same o b ∨ c = .same b o)

/-- Thread `i` is at the point where the call `c` accesses pointers. -/
def At (s : State n ι π) (i : Fin n) (c : Call ι) : Prop := (s.threads i).pc = .inside ∧ ∃ cs, (s.threads i).calls = c :: cs

/-- A data race on the pointer of `o`: two threads are about to access it, one of them to change it. -/
def Race (s : State n ι π) (o : ι) (c d : Call ι) : Prop :=
  ∃ i j, i ≠ j ∧ At s i c ∧ At s j d ∧ Writes c o ∧ (Reads d o ∨ Writes d o)

/-- A state that some schedule reaches from the start of the threads with free mutexes. -/
def SharedReachable (ptr : ι → Option π) (calls : Fin n → List (Call ι)) (s : State n ι π) : Prop :=
  ∃ is, Shared.run (State.init ptr calls) is = some (.ok s)

/-- All threads have made all their calls. -/
def AllDone (s : State n ι π) : Prop := ∀ i, (s.threads i).calls = []

/-- One call made alone: the pointers before it, the call, its result (the trajectory it used, the answer of a comparison) and the pointers after it. -/
inductive OneCall : (ι → Option π) → Call ι → Option π × Bool → (ι → Option π) → Prop where
  | assign (ptr : ι → Option π) (d s : ι) : OneCall ptr (.assign d s) (none, false) (fun o => if o = d then ptr s else ptr o)
  | evaluate (ptr : ι → Option π) (o : ι) (p : π) (h : ptr o = some p) : OneCall ptr (.evaluate o) (some p, false) ptr
  | time (ptr : ι → Option π) (o : ι) (p : π) (h : ptr o = some p) : OneCall ptr (.time o) (some p, false) ptr
  | isNull (ptr : ι → Option π) (o : ι) (b : Bool) (h : b = true ↔ ptr o = none) : OneCall ptr (.isNull o) (none, b) ptr
  | same (ptr : ι → Option π) (x y : ι) (b : Bool) (h : b = true ↔ ptr x = ptr y) : OneCall ptr (.same x y) (none, b) ptr
  | destroy (ptr : ι → Option π) (o : ι) : OneCall ptr (.destroy o) (none, false) ptr

/-- Calls made one after the other; each entry: thread, call, result. -/
inductive OneAfterTheOther : (ι → Option π) → List (Fin n × Call ι × Option π × Bool) → (ι → Option π) → Prop where
  | nil (ptr : ι → Option π) : OneAfterTheOther ptr [] ptr
  | cons {ptr ptr1 ptr2 : ι → Option π} {i : Fin n} {c : Call ι} {r : Option π × Bool} {h : List (Fin n × Call ι × Option π × Bool)}
      (h1 : OneCall ptr c r ptr1) (h2 : OneAfterTheOther ptr1 h ptr2) : OneAfterTheOther ptr ((i, c, r) :: h) ptr2

/-- The entries of thread `i`. -/
def ofThread (h : List (Fin n × Call ι × Option π × Bool)) (i : Fin n) : List (Call ι × Option π × Bool) := (h.filter fun e => e.1 = i).map (·.2)

/-- The calls of a thread that have not accessed pointers yet. -/
def pending (t : Thread ι π) : List (Call ι) :=
  match t.pc with
  | .leaving => t.calls.tail
  | .left => t.calls.tail
  | _ => t.calls

end Verif.Spec
