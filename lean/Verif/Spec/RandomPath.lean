import Verif.Spec.RandomVertices

/-! # Specification vocabulary for random paths (C149) -/

namespace Verif.Spec

/-- Length of a vector. -/
noncomputable def vecLength (v : List ℝ) : ℝ := Real.sqrt ((v.map (· ^ 2)).sum)

/-- What the name and the arguments promise: one point more than there are segments, the first one in the cube of side 2, the vertices at rest at both ends, and
no leg longer than twice the average distance. -/
def RandomPath (D : ℕ) (n : Int) (segments : ℕ) (average : ℝ) (vs : List (Vertex ℝ)) : Prop :=
  ∃ ps : List (List ℝ), ps.length = segments + 1 ∧ GoesThrough D n ps vs ∧
    (∃ p, ps.head? = some p ∧ InBox (List.replicate D (-1)) (List.replicate D 1) p) ∧ ps.IsChain (fun p q => pointDistance p q ≤ 2 * average)

/-- The points the code makes from the first point and the steps drawn: each step is added to the step before it, not to the point before it; the last point is the
last step. -/
def stepPoints : List ℝ → List (List ℝ) → List (List ℝ)
  | _, [] => []
  | _, [x] => [x]
  | last, x :: y :: r => List.zipWith (· + ·) x last :: stepPoints x (y :: r)

end Verif.Spec
