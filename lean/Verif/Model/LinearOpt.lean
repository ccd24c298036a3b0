import Mathlib.LinearAlgebra.Matrix.NonsingularInverse
import Verif.Model.Vertex

/-!
# Model of `mav_trajectory_generation::PolynomialOptimization<N>`

Source: `SP/include/mav_trajectory_generation/impl/polynomial_optimization_linear_impl.h` (`lin.h`) and
`polynomial_optimization_linear.h` (`linear.h`), `SP` being `subpackages/mav_trajectory_generation`.

`N` is even (`linear.h` 47, a `static_assert`), it is written `h + h` here and `N / 2` is `h`. `double` is an arbitrary ordered field `K`.
Fixed-size matrices are Mathlib matrices, sparse and dynamic ones are lists of rows. Eigen's `inverse()` of a fixed-size matrix
is the exact inverse; of a singular matrix it has infinite or NaN entries, which is the outcome `nonfinite`. The sparse QR solver is a
parameter. Not modelled: `setupFromPositons` (declared, never defined), printing, and the maximum-magnitude functions
(`lin.h` 386-497), which are in `Model/OptMagnitude.lean`.
-/

namespace Verif

/-- `linear.h` 286-304 `Constraint`: `vertex_idx`, `constraint_idx`, `value`. -/
structure Constraint (K : Type*) where
  vertexIdx : ℕ
  constraintIdx : ℕ
  value : List K
  deriving DecidableEq, Repr

namespace Constraint
variable {K : Type*}

/-- `linear.h` 288-295 `operator<`. -/
def lt (a b : Constraint K) : Bool :=
  if a.vertexIdx < b.vertexIdx then true
  else if b.vertexIdx < a.vertexIdx then false
  else if a.constraintIdx < b.constraintIdx then true
  else false

/-- `linear.h` 297-299 `operator==`. -/
def eqKey (a b : Constraint K) : Bool := a.vertexIdx == b.vertexIdx && a.constraintIdx == b.constraintIdx

/-- `std::set<Constraint>::insert`: the set is its sorted list; an equivalent element already present is kept. -/
def setInsert (c : Constraint K) : List (Constraint K) → List (Constraint K)
  | [] => [c]
  | c' :: l => if c.lt c' then c :: c' :: l else if c'.lt c then c' :: setInsert c l else c' :: l

end Constraint

/-- Square matrices of the static size `N × N`. -/
abbrev SqMat (h : ℕ) (K : Type*) := Matrix (Fin (h + h)) (Fin (h + h)) K

/-- `linear.h` 247-283: the members. `kHighestDerivativeToOptimize = N/2 - 1` (`linear.h` 51) is written out where used. -/
structure LinOpt (h : ℕ) (K : Type*) where
  dimension : ℕ
  derivative : Int
  nVertices : ℕ
  nSegments : ℕ
  nAll : ℕ
  nFixed : ℕ
  nFree : ℕ
  vertices : List (Vertex K)
  segments : List (Segment K)
  times : List K
  invMaps : List (SqMat h K)
  costs : List (SqMat h K)
  reorder : List (List K)
  fixedCompact : List (List K)
  freeCompact : List (List K)

/-- The sparse QR solver (`lin.h` 365-374): an approximate solution of a square system. -/
abbrev LinSolver (K : Type*) := (n : ℕ) → Matrix (Fin n) (Fin n) K → (Fin n → K) → (Fin n → K)

namespace LinOpt
variable {K : Type*} {h : ℕ}

/-- `lin.h` 43-54: the constructor. -/
def init (h : ℕ) (K : Type*) (dimension : ℕ) : LinOpt h K where
  dimension := dimension
  derivative := -1
  nVertices := 0
  nSegments := 0
  nAll := 0
  nFixed := 0
  nFree := 0
  vertices := []
  segments := []
  times := []
  invMaps := []
  costs := []
  reorder := []
  fixedCompact := List.replicate dimension []
  freeCompact := List.replicate dimension []

/-! ## Removing constraints of too high order -/

/-- `lin.h` 90-101: the loop over the constraints of one vertex; returns `vertex_valid` and `vertex_tmp`. `addConstraint` aborts on a
vector whose size is not `dimension_`. -/
def filterLoop (h : ℕ) : List (Int × List K) → Bool → Vertex K → Res (Bool × Vertex K)
  | [], valid, tmp => .ok (valid, tmp)
  | (k, c) :: l, valid, tmp =>
    if k > (h : Int) - 1 then filterLoop h l false tmp
    else do
      let tmp' ← tmp.addConstraint k c
      filterLoop h l valid tmp'

/-- `lin.h` 85-104: one vertex. -/
def filterVertex (h dimension : ℕ) (v : Vertex K) : Res (Vertex K) := do
  let r ← filterLoop h v.constraints true (Vertex.mk' dimension)
  return if r.1 then v else r.2

/-! ## The reordering matrix -/

section Reorder
variable [Zero K]

/-- `lin.h` 206-221: the innermost loop body for one vertex and derivative order: the constraint and whether it is fixed. -/
def constraintOf (dimension : ℕ) (vertexIdx : ℕ) (v : Vertex K) (k : ℕ) : Bool × Constraint K :=
  match v.getConstraint k with
  | some c => (true, ⟨vertexIdx, k, c⟩)
  | none => (false, ⟨vertexIdx, k, List.replicate dimension 0⟩)

/-- `lin.h` 196-223: the constraints in the order in which the three nested loops produce them: by vertex, each interior vertex twice. -/
def constraintSeq (h dimension nSegments : ℕ) (vs : List (Vertex K)) : List (Bool × Constraint K) :=
  vs.zipIdx.flatMap fun (v, idx) =>
    let once := (List.range h).map (constraintOf dimension idx v)
    if idx = 0 ∨ idx = nSegments then once else once ++ once

/-- `lin.h` 213-220: `fixed_constraints` and `free_constraints` after the loops. -/
def constraintSets (seq : List (Bool × Constraint K)) : List (Constraint K) × List (Constraint K) :=
  seq.foldl (fun s c => if c.1 then (c.2.setInsert s.1, s.2) else (s.1, c.2.setInsert s.2)) ([], [])

variable [One K]

/-- `lin.h` 236-256: the row of the reordering matrix for one entry of `all_constraints`: a one in every column whose constraint has
the same key. -/
def reorderRow (cols : List (Constraint K)) (ca : Constraint K) : List K :=
  cols.map fun c => if ca.eqKey c then 1 else 0

/-- `lin.h` 182-260 `setupConstraintReorderingMatrix`. Every fixed constraint occurs among all constraints, so every entry of `df` is
written (240-247); `value[d]` out of bounds is undefined behaviour. -/
def setupConstraintReorderingMatrix (o : LinOpt h K) : Res (LinOpt h K) := do
  let seq := constraintSeq h o.dimension o.nSegments o.vertices
  let (fixed, free) := constraintSets seq
  let df ← (List.range o.dimension).mapM fun d => fixed.mapM fun c => at? c.value d
  return { o with
    nAll := seq.length
    nFixed := fixed.length
    nFree := free.length
    reorder := seq.map fun c => reorderRow (fixed ++ free) c.2
    fixedCompact := df }

end Reorder

section Field
variable [Field K] [LinearOrder K] [IsStrictOrderedRing K]

/-! ## Matrices of one segment -/

/-- `lin.h` 112-121 `setupMappingMatrix`. -/
def setupMappingMatrix (h : ℕ) (T : K) : Res (SqMat h K) := do
  let top ← (List.range h).mapM fun i => Poly.baseCoeffsWithTime (h + h) i 0
  let bottom ← (List.range h).mapM fun i => Poly.baseCoeffsWithTime (h + h) i T
  return fun r c => ((top ++ bottom).getD r []).getD c 0

/-- `lin.h` 142-179 `invertMappingMatrix`: blocks; the upper right block of the argument is ignored. -/
noncomputable def invertMappingMatrix (A : SqMat h K) : Res (SqMat h K) :=
  let diag : Fin h → K := (A.submatrix (Fin.castAdd h) (Fin.castAdd h)).diag
  let Ainv : Matrix (Fin h) (Fin h) K := Matrix.diagonal fun i => (diag i)⁻¹
  let C : Matrix (Fin h) (Fin h) K := A.submatrix (Fin.natAdd h) (Fin.castAdd h)
  let D : Matrix (Fin h) (Fin h) K := A.submatrix (Fin.natAdd h) (Fin.natAdd h)
  if (∃ i, diag i = 0) ∨ D.det = 0 then .error .nonfinite
  else .ok ((Matrix.fromBlocks Ainv 0 (-D⁻¹ * C * Ainv) D⁻¹).submatrix finSumFinEquiv.symm finSumFinEquiv.symm)

/-- `lin.h` 567-583 `computeQuadraticCostJacobian`: `CHECK_LT(derivative, N)`. Entry `(N-1-row, N-1-col)` is written for
`row, col < N - derivative`, the rest is zero. Division by `exponent`, which is positive there. -/
def computeQuadraticCostJacobian (h : ℕ) (derivative : ℕ) (t : K) : Res (SqMat h K) :=
  if h + h ≤ derivative then .error .check
  else if kMaxConvolutionSize < h + h then .error .ub
  else .ok fun r c =>
    let row := h + h - 1 - r
    let col := h + h - 1 - c
    let exponent := (h + h - 1 - derivative) * 2 + 1 - row - col
    if row < h + h - derivative ∧ col < h + h - derivative then
      (baseEntry derivative r : K) * (baseEntry derivative c : K) * t ^ exponent * 2 / (exponent : K)
    else 0

/-- `lin.h` 295-304: the loop of `updateSegmentTimes`: cost matrix and inverse mapping matrix per segment. A negative
`derivative_to_optimize_` does not occur here (it is checked at setup; before setup there are no segments). -/
noncomputable def segmentMatrices (derivative : ℕ) (ts : List K) : Res (List (SqMat h K × SqMat h K)) :=
  ts.mapM fun t =>
    if 0 < t then do
      let Q ← computeQuadraticCostJacobian h derivative t
      let A ← setupMappingMatrix h t
      let Ai ← invertMappingMatrix A
      return (Q, Ai)
    else .error .check

/-- `lin.h` 285-305 `updateSegmentTimes`. -/
noncomputable def updateSegmentTimes (o : LinOpt h K) (ts : List K) : Res (LinOpt h K) :=
  if ts.length ≠ o.nSegments then .error .check
  else do
    let ms ← segmentMatrices o.derivative.toNat ts
    return { o with times := ts, costs := ms.map (·.1), invMaps := ms.map (·.2) }

/-- `lin.h` 56-109 `setupFromVertices`. With no vertices `n_segments_` wraps around and `resize` throws. `resize` keeps the segments the
object already has. -/
noncomputable def setupFromVertices (o : LinOpt h K) (vs : List (Vertex K)) (ts : List K) (derivative : Int) : Res (LinOpt h K) :=
  if ¬(0 ≤ derivative ∧ derivative ≤ (h : Int) - 1) then .error .check
  else if vs.length = 0 then .error .exc
  else if vs.length ≠ ts.length + 1 then .error .check
  else do
    let n := vs.length - 1
    let vs' ← vs.mapM (filterVertex h o.dimension)
    let o' ← updateSegmentTimes
      { o with
        derivative := derivative
        vertices := vs'
        times := ts
        nVertices := vs.length
        nSegments := n
        segments := o.segments.take n ++ List.replicate (n - o.segments.length) (Segment.mk' (h + h) o.dimension) } ts
    setupConstraintReorderingMatrix o'

/-! ## From endpoint derivatives to segments -/

/-- Row of the reordering matrix times `d_all`. -/
def dot (a b : List K) : K := (List.zipWith (· * ·) a b).sum

/-- `lin.h` 274-275: `new_d` of segment `i`: rows `i*N .. i*N+N-1`. A block outside the matrix is undefined behaviour. -/
def segmentDerivatives (o : LinOpt h K) (dAll : List K) (i : ℕ) : Res (Fin (h + h) → K) :=
  if o.reorder.length < (i + 1) * (h + h) then .error .ub
  else .ok fun j => dot (o.reorder.getD (i * (h + h) + j) []) dAll

/-- `lin.h` 273-281: the loop body for dimension `d` and segment `i`. `segment[d]` aborts when `d` is not a dimension of it. -/
def updateSegment (o : LinOpt h K) (d : ℕ) (dAll : List K) (i : ℕ) (s : Segment K) : Res (Segment K) := do
  let newD ← segmentDerivatives o dAll i
  let Ai ← at? o.invMaps i
  let t ← at? o.times i
  if d < s.polys.length then
    return { s with time := t, polys := s.polys.set d (List.ofFn (Ai.mulVec newD)) }
  else .error .check

/-- `lin.h` 266-282: one dimension. `d_all << df, dp_opt` with sizes that do not add up is undefined behaviour. -/
def updateDimension (o : LinOpt h K) (segs : List (Segment K)) (d : ℕ) : Res (List (Segment K)) := do
  let df ← at? o.fixedCompact d
  let dp ← at? o.freeCompact d
  if df.length + dp.length ≠ o.nFixed + o.nFree then .error .ub
  else
    (List.range o.nSegments).mapM fun i => do
      let s ← at? segs i
      updateSegment o d (df ++ dp) i s

/-- `lin.h` 262-283 `updateSegmentsFromCompactConstraints`. -/
def updateSegmentsFromCompactConstraints (o : LinOpt h K) : Res (LinOpt h K) := do
  let segs ← (List.range o.dimension).foldlM (updateDimension o) o.segments
  return { o with segments := segs }

/-- `lin.h` 499-508 `setFreeConstraints`. -/
def setFreeConstraints (o : LinOpt h K) (free : List (List K)) : Res (LinOpt h K) :=
  if free.length ≠ o.dimension then .error .check
  else if free.any fun v => v.length ≠ o.nFree then .error .check
  else updateSegmentsFromCompactConstraints { o with freeCompact := free }

/-! ## The linear solution -/

/-- `lin.h` 307-336 `constructR`: `Cᵀ H C` with `H` block diagonal, `H_i = Ai^T Q Ai`. The product of matrices whose sizes do not fit is
undefined behaviour. -/
def constructR (o : LinOpt h K) : Res (ℕ → ℕ → K) :=
  if o.nAll ≠ (h + h) * o.nSegments then .error .ub
  else .ok fun a b => ((List.range o.nSegments).map fun i =>
    let Ai := o.invMaps.getD i 0
    let H := Ai.transpose * o.costs.getD i 0 * Ai
    ∑ r : Fin (h + h), ∑ c : Fin (h + h),
      (o.reorder.getD (i * (h + h) + r) []).getD a 0 * H r c * (o.reorder.getD (i * (h + h) + c) []).getD b 0).sum

/-- `lin.h` 359-375: for one dimension, solve `Rpp dp = -Rpf df`. -/
def solveDimension (solve : LinSolver K) (o : LinOpt h K) (R : ℕ → ℕ → K) (df : List K) : List K :=
  List.ofFn (solve o.nFree (fun a b => R (o.nFixed + a) (o.nFixed + b))
    (fun a => -((List.range o.nFixed).map fun f => R (o.nFixed + a) f * df.getD f 0).sum))

/-- `lin.h` 338-379 `solveLinear`. -/
def solveLinear (solve : LinSolver K) (o : LinOpt h K) : Res (LinOpt h K) :=
  if ¬(0 ≤ o.derivative ∧ o.derivative ≤ (h : Int) - 1) then .error .check
  else if o.nFree = 0 then updateSegmentsFromCompactConstraints o
  else do
    let R ← constructR o
    updateSegmentsFromCompactConstraints { o with freeCompact := o.fixedCompact.map (solveDimension solve o R) }

/-- `lin.h` 131-137: the inner loop of `computeCost`, one segment and dimension: `c^T Q c`. -/
def quadForm (Q : SqMat h K) (c : List K) : K :=
  ∑ r : Fin (h + h), ∑ s : Fin (h + h), c.getD r 0 * Q r s * c.getD s 0

/-- `lin.h` 123-140 `computeCost`. `segment[d]` aborts when `d` is not a dimension of the segment. -/
def computeCost (o : LinOpt h K) : Res K :=
  if o.nSegments ≠ o.segments.length ∨ o.nSegments ≠ o.costs.length then .error .check
  else do
    let parts ← (List.zip o.costs o.segments).mapM fun (Q, s) => do
      let ps ← (List.range o.dimension).mapM s.index
      return (ps.map (quadForm Q)).sum
    return 1 / 2 * parts.sum

/-- `linear.h` 113-116 `getTrajectory`. -/
def getTrajectory (o : LinOpt h K) : Res (Trajectory K) := Trajectory.setSegments o.segments

end Field

end LinOpt

end Verif
