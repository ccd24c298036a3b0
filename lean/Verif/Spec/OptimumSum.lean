import Verif.Spec.OptimumUnique

/-!
# Specification: missions added to each other
-/

namespace Verif.Spec

/-- `α` times the first vector plus `β` times the second. -/
def combine (α β : ℝ) (x y : List ℝ) : List ℝ := List.zipWith (fun x y => α * x + β * y) x y

/-- The mission `q` has the durations of `q1` and `q2`, optimises the same derivative and prescribes the same derivatives at the same vertices; the values are
`α` times those of `q1` plus `β` times those of `q2`. -/
structure Combines (α β : ℝ) (q1 q2 q : Problem ℝ) : Prop where
  times : q1.times = q.times ∧ q2.times = q.times
  derivative : q1.derivative = q.derivative ∧ q2.derivative = q.derivative
  length : q1.vertices.length = q.vertices.length ∧ q2.vertices.length = q.vertices.length
  values : ∀ (i : ℕ) (v1 v2 v : Vertex ℝ), q1.vertices[i]? = some v1 → q2.vertices[i]? = some v2 → q.vertices[i]? = some v → ∀ k : ℕ,
    (v1.getConstraint k = none ∧ v2.getConstraint k = none ∧ v.getConstraint k = none) ∨
    ∃ x y, v1.getConstraint k = some x ∧ v2.getConstraint k = some y ∧ v.getConstraint k = some (combine α β x y)

end Verif.Spec
