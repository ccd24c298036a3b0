import Verif.Model.DemoDriver

/-! # What the driver of the tests is expected to do (C150) -/

namespace Verif.Spec
open Verif Verif.Demo

variable {K : Type*} [Field K] [LinearOrder K]

/-- A waypoint is to be moved while it lies less than ten seconds and more than three tenths of a second ahead. -/
def MoveDue (T t : K) : Prop := T - 10 < t ∧ t < T - 3 / 10

instance (T t : K) : Decidable (MoveDue T t) := inferInstanceAs (Decidable (_ ∧ _))

/-- The planner tells every modifier, in every pass, of a waypoint of its name at the same time `T i`, at least a tenth of a second after the start. -/
def SteadyView (names : List String) (T : List K) (ps : List (K × (ℕ → List (Waypoint K)))) : Prop :=
  ∀ x ∈ ps, ∀ i n τ, names[i]? = some n → T[i]? = some τ → 1 / 10 ≤ τ ∧ ∃ w, (x.2 i).find? (fun w => n = w.name) = some w ∧ w.time = τ

/-- Who moves when, as the code does it: one second after the last move of any modifier, the first modifier whose waypoint is due; a hundred and one moves in all. The
clock starts with the first pass. -/
def moveSchedule (T : List K) : Option K → ℕ → List K → List (K × ℕ)
  | _, _, [] => []
  | last, n, t :: ts =>
    let l := last.getD t
    match if n ≤ 100 ∧ 1 < t - l then T.findIdx? (fun τ => MoveDue τ t) else none with
    | some i => (t, i) :: moveSchedule T (some t) (n + 1) ts
    | none => moveSchedule T (some l) n ts

end Verif.Spec
