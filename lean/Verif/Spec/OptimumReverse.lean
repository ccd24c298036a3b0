import Verif.Spec.OptimumFrame

/-!
# Specification: the same problem flown backwards
-/

namespace Verif.Spec

/-- The value of order `k` when time runs backwards: the odd derivatives change sign. -/
noncomputable def backValue (k : Int) (c : List ℝ) : List ℝ := c.map fun x => (-1) ^ k * x

/-- A vertex when time runs backwards. -/
noncomputable def backVertex (v : Vertex ℝ) : Vertex ℝ := ⟨v.D, v.constraints.map fun x => (x.1, backValue x.1 x.2)⟩

/-- The problem of flying from the last vertex to the first. -/
noncomputable def backProblem (q : Problem ℝ) : Problem ℝ :=
  { q with vertices := (q.vertices.map backVertex).reverse, times := q.times.reverse }

/-- The second curve is the first, flown backwards: the segments in reverse order, each with the same duration, and every derivative at `x` is that of the first
at the mirrored instant, with the sign of its order. -/
def BackwardsCurve (a a' : List (Segment ℝ)) : Prop :=
  List.Forall₂ (fun s s' => s'.time = s.time ∧ ∀ (k : ℕ) (x : ℝ), segDeriv s' k x = backValue k (segDeriv s k (s.time - x))) a.reverse a'

end Verif.Spec
