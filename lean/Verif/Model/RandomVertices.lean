import Verif.Model.Vertex

/-!
# `createRandomVertices` and `createRandomVertices1D`

`SP/src/vertex.cpp` 27-82 and 122-128. The numbers of the generator (`std::mt19937` seeded by the caller) are the argument
`u : ℕ → ℝ`: `u k` is the `k`-th number that `std::generate_canonical` returns, a number from 0 (included) to 1 (excluded). What is
proved holds for every such sequence, hence for every seed. `std::uniform_real_distribution(a, b)` gives `u * (b - a) + a`, as in
libstdc++; the standard requires `a ≤ b`. Rounding is not modelled.
-/

namespace Verif
namespace Vertex

/-- `vertex.cpp` 56-58 and 69-71: one number per dimension, the first one being `u k`, turned into a position. -/
def drawPosition (u : ℕ → ℝ) : ℕ → List ℝ → List ℝ → List ℝ
  | k, a :: lo, b :: hi => (u k * (b - a) + a) :: drawPosition u (k + 1) lo hi
  | _, _, _ => []

/-- `vertex.cpp` 72: `(pos - last_pos).norm() > min_distance`, with `min_distance` 0.2 (52). -/
def farFrom (last pos : List ℝ) : Prop := 1 / 5 < vnorm (List.zipWith (· - ·) pos last)

open Classical in
/-- `vertex.cpp` 68-75: draw positions until one is far enough from the last one. Every attempt uses as many numbers as there are
dimensions. The position and the number of random numbers used so far are returned. If no attempt succeeds the loop does not end. -/
noncomputable def nextPosition (u : ℕ → ℝ) (lo hi : List ℝ) (k : ℕ) (last : List ℝ) : Res (List ℝ × ℕ) :=
  if h : ∃ j, farFrom last (drawPosition u (k + j * lo.length) lo hi) then
    .ok (drawPosition u (k + Nat.find h * lo.length) lo hi, k + (Nat.find h + 1) * lo.length)
  else .error .hang

/-- `vertex.cpp` 65-81: `n` further vertices, and the last position. -/
noncomputable def randomLoop (u : ℕ → ℝ) (lo hi : List ℝ) : ℕ → ℕ → List ℝ → Res (List (Vertex ℝ) × List ℝ)
  | 0, _, last => .ok ([], last)
  | n + 1, k, last => do
    let next ← nextPosition u lo hi k last
    let v ← (mk' lo.length : Vertex ℝ).addConstraint 0 next.1
    let rest ← randomLoop u lo hi n next.2 next.1
    return (v :: rest.1, rest.2)

open Classical in
/-- `vertex.cpp` 27-82 `createRandomVertices`. The CHECKs come first (31-34; the number of segments is converted to a 32-bit `int`
for its check). A lower bound above the upper one in some dimension violates the precondition of the distribution (44-47). -/
noncomputable def createRandomVertices (maxDerivative : Int) (nSegments : ℕ) (lo hi : List ℝ) (u : ℕ → ℝ) :
    Res (List (Vertex ℝ)) :=
  if Int.bmod nSegments (2 ^ 32) < 1 then .error .check
  else if lo.length ≠ hi.length then .error .check
  else if vnorm (List.zipWith (· - ·) hi lo) < 1 / 5 then .error .check
  else if maxDerivative ≤ 0 then .error .check
  else if ¬ List.Forall₂ (· ≤ ·) lo hi then .error .ub
  else do
    let first := drawPosition u 0 lo hi
    let front ← (mk' lo.length : Vertex ℝ).makeStartOrEnd first maxDerivative
    let rest ← randomLoop u lo hi nSegments lo.length first
    let all := front :: rest.1
    match all.getLast? with
    | none => .error .ub
    | some v => do
      let v' ← v.makeStartOrEnd rest.2 maxDerivative
      return all.dropLast ++ [v']

/-- `vertex.cpp` 122-128 `createRandomVertices1D`. -/
noncomputable def createRandomVertices1D (maxDerivative : Int) (nSegments : ℕ) (lo hi : ℝ) (u : ℕ → ℝ) : Res (List (Vertex ℝ)) :=
  createRandomVertices maxDerivative nSegments [lo] [hi] u

end Vertex
end Verif
