import Verif.Spec.Planner

/-!
# A concrete optimizer, for examples only

Nothing here models code of the repository. Hermite interpolation: one polynomial of degree 9 and duration 1 between any two consecutive
vertices, with the derivatives 0 to 4 of the vertices (0 where a vertex does not prescribe one). It satisfies the contracts `Segmentwise`
and `MeetsVertices` (`Lemmas/Hermite.lean`), so theorems that assume them are not vacuous, and concrete histories can be executed with it.
-/

namespace Verif.Spec

variable {K : Type*} [Field K] [LinearOrder K] [IsStrictOrderedRing K]

/-- The polynomial with derivatives `a k` at 0 and `b k` at 1. -/
def hermite (a b : ℕ → K) : List K :=
  let r0 := b 0 - (a 0 + a 1 + a 2 / 2 + a 3 / 6 + a 4 / 24)
  let r1 := b 1 - (a 1 + a 2 + a 3 / 2 + a 4 / 6)
  let r2 := b 2 - (a 2 + a 3 + a 4 / 2)
  let r3 := b 3 - (a 3 + a 4)
  let r4 := b 4 - a 4
  [a 0, a 1, a 2 / 2, a 3 / 6, a 4 / 24,
   126 * r0 - 56 * r1 + 21 / 2 * r2 - r3 + r4 / 24,
   -420 * r0 + 196 * r1 - 77 / 2 * r2 + 23 / 6 * r3 - r4 / 6,
   540 * r0 - 260 * r1 + 53 * r2 - 11 / 2 * r3 + r4 / 4,
   -315 * r0 + 155 * r1 - 65 / 2 * r2 + 7 / 2 * r3 - r4 / 6,
   70 * r0 - 35 * r1 + 15 / 2 * r2 - 5 / 6 * r3 + r4 / 24]

/-- Prescribed derivative `k` in dimension `d`. -/
def prescribed (v : Vertex K) (d k : ℕ) : K := ((v.getConstraint k).getD []).getD d 0

def hermiteSegment (v w : Vertex K) : Segment K :=
  ⟨10, 1, [hermite (prescribed v 0) (prescribed w 0), hermite (prescribed v 1) (prescribed w 1), hermite (prescribed v 2) (prescribed w 2)]⟩

def hermiteSegments : List (Vertex K) → List (Segment K)
  | v :: w :: vs => hermiteSegment v w :: hermiteSegments (w :: vs)
  | _ => []

def hermiteOptimize (vs : List (Vertex K)) (_speed : K) : Res (Trajectory K) :=
  if 2 ≤ vs.length ∧ ∀ v ∈ vs, ∀ c ∈ v.constraints, c.2.length = 3 then
    .ok ⟨3, 10, (vs.length - 1 : ℕ), hermiteSegments vs⟩
  else .error .check

/-- The environment of the examples; the exponential is replaced by the constant 1. -/
def hermiteEnv : Env K := ⟨fun _ => 1, hermiteOptimize⟩

end Verif.Spec
