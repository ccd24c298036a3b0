import Verif.Model.RandomVertices

/-!
# `createRandomVerticesPath`

`SP/src/polynomial_timing_evaluation.cpp` 34-91. The numbers of the generator are the argument `u`, as in `Model/RandomVertices.lean`. The number of dimensions is a
natural number here, an `int` in the code.
-/

namespace Verif
namespace Vertex

open Classical in
/-- `polynomial_timing_evaluation.cpp` 69-78: draw a direction from the cube of side 2, again and again until it is longer than 0.2, give it length one (`normalized()`)
and multiply it by a random distance. Every attempt uses as many numbers as there are dimensions, the distance one more. If no attempt succeeds the loop does not end. -/
noncomputable def randomStep (u : ℕ → ℝ) (D : ℕ) (average : ℝ) (k : ℕ) : Res (List ℝ × ℕ) :=
  if h : ∃ j, 1 / 5 < vnorm (drawPosition u (k + j * D) (List.replicate D (-1)) (List.replicate D 1)) then
    let p := drawPosition u (k + Nat.find h * D) (List.replicate D (-1)) (List.replicate D 1)
    let k' := k + (Nat.find h + 1) * D
    .ok (p.map fun x => x / vnorm p * (u k' * (2 * average - 0) + 0), k' + 1)
  else .error .hang

/-- `polynomial_timing_evaluation.cpp` 68-87: `n` further vertices, and what `last_position` is afterwards: the last step, not the last position (86). -/
noncomputable def pathLoop (u : ℕ → ℝ) (D : ℕ) (average : ℝ) : ℕ → ℕ → List ℝ → Res (List (Vertex ℝ) × List ℝ)
  | 0, _, last => .ok ([], last)
  | n + 1, k, last => do
    let step ← randomStep u D average k
    let v ← (mk' D : Vertex ℝ).addConstraint 0 (List.zipWith (· + ·) step.1 last)
    let rest ← pathLoop u D average n step.2 step.1
    return (v :: rest.1, rest.2)

/-- `polynomial_timing_evaluation.cpp` 34-91 `createRandomVerticesPath`. The CHECKs come first (37-39). A negative average distance violates the precondition of the
distribution (44-45). -/
noncomputable def createRandomVerticesPath (D nSegments : ℕ) (average : ℝ) (maxDerivative : Int) (u : ℕ → ℝ) : Res (List (Vertex ℝ)) := do
  if Int.bmod nSegments (2 ^ 32) < 1 then throw .check
  if maxDerivative ≤ 0 then throw .check
  if 2 * average < 0 then throw .ub
  let start := drawPosition u 0 (List.replicate D (-1)) (List.replicate D 1)
  let front ← (mk' D : Vertex ℝ).makeStartOrEnd start maxDerivative
  let rest ← pathLoop u D average nSegments D start
  let all := front :: rest.1
  match all.getLast? with
  | none => .error .ub
  | some v => do
    let v' ← v.makeStartOrEnd rest.2 maxDerivative
    return all.dropLast ++ [v']

end Vertex
end Verif
