import Verif.Spec.OptimumUnique

/-!
# Specification: a problem cut at one of its vertices
-/

namespace Verif.Spec

/-- What is left of a problem at vertex `k`: the mission begins at `state`, which stands in the place of vertex `k`, and goes on through the vertices behind it,
with the times given. -/
def restOf (k : ℕ) (state : Vertex ℝ) (q : Problem ℝ) : Problem ℝ :=
  { q with vertices := state :: q.vertices.drop (k + 1), times := q.times.drop k }

/-- The mission up to vertex `k`, in whose place it ends at `state`. -/
def upTo (k : ℕ) (state : Vertex ℝ) (q : Problem ℝ) : Problem ℝ :=
  { q with vertices := q.vertices.take k ++ [state], times := q.times.take k }

/-- The vertex prescribes the position and all derivatives of orders below `h`. -/
def PrescribesAll (h : ℕ) (v : Vertex ℝ) : Prop := ∀ j < h, ((v.getConstraint j).isSome = true)

end Verif.Spec
