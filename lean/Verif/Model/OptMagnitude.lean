import Verif.Model.LinearOpt
import Verif.Model.Trajectory

/-!
# Model of the maximum-magnitude functions and matrix accessors of `PolynomialOptimization<N>`

Source: `SP/include/mav_trajectory_generation/impl/polynomial_optimization_linear_impl.h` (`lin.h`) 386-565 and `extremum.h`. The root finder is
a parameter, see `Model/Polynomial.lean`.
-/

namespace Verif

namespace LinOpt
variable {K : Type*} {h : ℕ}

section Real

/-- `lin.h` 396-409 `computeSegmentMaximumMagnitudeCandidates`: `CHECK(N - derivative - 1 > 0)`; all dimensions of the segment. The result
of the search is not a failure: the caller ignores the returned flag, and the candidate vector, which was cleared, is then empty. -/
noncomputable def computeSegmentMaximumMagnitudeCandidates (h : ℕ) (rf : Poly.RootFinder ℝ) (k : ℕ) (s : Segment ℝ) (t0 t1 : ℝ) :
    Res (List ℝ) :=
  if ¬(k + 1 < h + h) then .error .check
  else do
    let c ← s.candidateTimes rf k t0 t1 ((List.range s.D).map Int.ofNat)
    return c.getD []

/-- `lin.h` 482-484 and 489-493: a candidate at time `t` of a segment: the norm of the derivative over all dimensions. -/
noncomputable def candidateAt (s : Segment ℝ) (k idx : ℕ) (t : ℝ) : Res (Extremum ℝ) := do
  let v ← s.evaluate t k
  return ⟨t, Real.sqrt (v.map fun x => x ^ 2).sum, idx⟩

/-- `lin.h` 472-487: the loop over the segments: all candidates, in order. (The 0 pushed in line 478 is removed again by the call that
follows.) -/
noncomputable def magnitudeCandidates (h : ℕ) (rf : Poly.RootFinder ℝ) (k : ℕ) : List (Segment ℝ) → ℕ → Res (List (Extremum ℝ))
  | [], _ => .ok []
  | s :: ss, idx => do
    let ts ← computeSegmentMaximumMagnitudeCandidates h rf k s 0 s.time
    let es ← ts.mapM (candidateAt s k idx)
    let rest ← magnitudeCandidates h rf k ss (idx + 1)
    return es ++ rest

/-- `lin.h` 465-497 `computeMaximumOfMagnitude`: the maximum and the candidate list. `segments_.back()` of no segments is undefined. The
extremum starts as `(0, 0, 0)` (`extremum.h` 32) and is replaced by strictly larger candidates (485, 494). -/
noncomputable def computeMaximumOfMagnitude (rf : Poly.RootFinder ℝ) (o : LinOpt h ℝ) (k : ℕ) : Res (Extremum ℝ × List (Extremum ℝ)) := do
  let cs ← magnitudeCandidates h rf k o.segments 0
  match o.segments.getLast? with
  | none => .error .ub
  | some s =>
    let last ← candidateAt s k (o.nSegments - 1) s.time
    let all := cs ++ [last]
    return (all.foldl (fun e c => if e.value < c.value then c else e) ⟨0, 0, 0⟩, all)

end Real

/-! ## Matrix accessors -/

section Matrices
variable [Field K] [LinearOrder K] [IsStrictOrderedRing K]

/-- `lin.h` 511-520 and 541-555: the block-diagonal matrix with the given blocks, entry `(r, c)`. -/
def blockDiagonal (ms : List (SqMat h K)) (r c : ℕ) : K :=
  if hh : 0 < h + h then
    if r / (h + h) = c / (h + h) then
      (ms.getD (r / (h + h)) 0) ⟨r % (h + h), Nat.mod_lt _ hh⟩ ⟨c % (h + h), Nat.mod_lt _ hh⟩
    else 0
  else 0

/-- `lin.h` 510-520 `getAInverse`: entries; the matrix is square of size `N * n_segments_`. -/
def getAInverse (o : LinOpt h K) : ℕ → ℕ → K := blockDiagonal (o.invMaps.take o.nSegments)

/-- `lin.h` 522-526 `getM`: entries; rows: all constraints, columns: fixed then free constraints. -/
def getM (o : LinOpt h K) (r c : ℕ) : K := (o.reorder.getD r []).getD c 0

/-- `lin.h` 538-555 `getA`: entries. -/
def getA (o : LinOpt h K) : Res (ℕ → ℕ → K) := do
  let ms ← (o.times.take o.nSegments).mapM fun t => if 0 < t then setupMappingMatrix h t else .error .check
  return blockDiagonal ms

/-- `lin.h` 557-565 `getMpinv`: the transpose of the reordering matrix, each row divided by its sum. A zero sum gives NaN: no value here
(`none`). -/
def getMpinv (o : LinOpt h K) (r c : ℕ) : Option K :=
  let s := ((List.range o.nAll).map fun j => getM o j r).sum
  if s = 0 then none else some (getM o c r / s)

end Matrices

end LinOpt

end Verif
