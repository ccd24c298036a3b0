import Verif.Spec.Vertex

/-!
# Specification vocabulary for generated vertices

Only the data type of the model and `Represents` (the constraints of a vertex as a finite map) are used.
-/

namespace Verif.Spec

/-- Euclidean distance of two points. -/
noncomputable def pointDistance (p q : List ℝ) : ℝ := Real.sqrt ((List.zipWith (fun a b => (a - b) ^ 2) p q).sum)

/-- The point lies in the box spanned by `lo` and `hi`. -/
def InBox (lo hi p : List ℝ) : Prop := List.Forall₂ (· ≤ ·) lo p ∧ List.Forall₂ (· ≤ ·) p hi

/-- Constraints of a vertex that prescribes its position only. -/
def passes {K : Type*} (p : List K) : Int → Option (List K) := fun j => if j = 0 then some p else none

/-- Constraints of a vertex at rest: the position, and zero for the derivatives from 1 to `n`. -/
def rests {K : Type*} [Zero K] (n : Int) (p : List K) : Int → Option (List K) :=
  fun j => if j = 0 then some p else if 1 ≤ j ∧ j ≤ n then some (List.replicate p.length 0) else none

/-- The vertices go through the points `ps`, one each; the first and the last one are at rest up to derivative `n`, the others
prescribe the position only. -/
def GoesThrough {K : Type*} [Zero K] (D : ℕ) (n : Int) (ps : List (List K)) (vs : List (Vertex K)) : Prop :=
  vs.length = ps.length ∧ ∀ i p v, ps[i]? = some p → vs[i]? = some v →
    v.D = D ∧ p.length = D ∧ Represents v (if i = 0 ∨ i + 1 = ps.length then rests n p else passes p)

/-- What the header promises of random vertices: one more than there are segments, in the box, at rest at both ends; consecutive ones
are more than 0.2 apart. -/
def RandomRoute (n : Int) (segments : ℕ) (lo hi : List ℝ) (vs : List (Vertex ℝ)) : Prop :=
  ∃ ps : List (List ℝ), ps.length = segments + 1 ∧ GoesThrough lo.length n ps vs ∧ (∀ p ∈ ps, InBox lo hi p) ∧
    ps.IsChain (fun p q => 1 / 5 < pointDistance p q)

/-- Numbers as the generator gives them: from 0 to 1, 1 excluded. -/
def Canonical (u : ℕ → ℝ) : Prop := ∀ k, 0 ≤ u k ∧ u k < 1

/-- Of the blocks of `D` consecutive numbers from any place on, some come arbitrarily close to every corner of the unit cube. A
random sequence has this property with probability one. -/
def ReachesCorners (D : ℕ) (u : ℕ → ℝ) : Prop :=
  ∀ (k : ℕ) (corner : ℕ → Bool) (ε : ℝ), 0 < ε → ∃ j, ∀ d < D, |u (k + j * D + d) - (if corner d then 1 else 0)| < ε

/-- The four corners of an axis-parallel square around a centre, in the order in which they are flown. -/
def squareCorner {K : Type*} [Field K] (cx cy cz side : K) (i : ℕ) : List K :=
  if i % 4 = 0 then [cx - side / 2, cy - side / 2, cz]
  else if i % 4 = 1 then [cx - side / 2, cy + side / 2, cz]
  else if i % 4 = 2 then [cx + side / 2, cy + side / 2, cz]
  else [cx + side / 2, cy - side / 2, cz]

end Verif.Spec
