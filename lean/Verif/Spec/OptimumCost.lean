import Verif.Spec.OptimumReverse

/-!
# Specification: problems that prescribe more, and problems with one vertex more
-/

namespace Verif.Spec

/-- The second problem has the same times and the same derivative to optimise, and prescribes all that the first prescribes. -/
def PrescribesMore (q q' : Problem ℝ) : Prop :=
  q'.times = q.times ∧ q'.derivative = q.derivative ∧
  List.Forall₂ (fun v v' => ∀ (k : ℕ) (c : List ℝ), v.getConstraint k = some c → v'.getConstraint k = some c) q.vertices q'.vertices

/-- The problem with one more vertex `u`, a time `x` after vertex `i`. -/
def withVertex (i : ℕ) (x : ℝ) (u : Vertex ℝ) (q : Problem ℝ) : Problem ℝ :=
  { q with
    vertices := q.vertices.take (i + 1) ++ u :: q.vertices.drop (i + 1)
    times := q.times.take i ++ x :: (q.times.getD i 0 - x) :: q.times.drop (i + 1) }

end Verif.Spec
