import Mathlib.Analysis.Real.Sqrt
import Verif.Model.Polynomial

/-!
# Model of `mav_trajectory_generation::Segment`

Source: `subpackages/mav_trajectory_generation/include/mav_trajectory_generation/segment.h` (`segment.h`),
`extremum.h` and `subpackages/mav_trajectory_generation/src/segment.cpp` (`segment.cpp`).

Simplification: `double` is exact, see `Model/Polynomial.lean`. `D_` always equals `polynomials_.size()` (`segment.h` 47-49: the
constructor resizes, nothing else changes either), so only the list of polynomials is kept. `N_` is kept separately: a
caller may assign a polynomial of another length through `operator[]` (`segment.h` 65).
-/

namespace Verif

variable {K : Type*}

/-- `segment.h` 121-127: the members `time_`, `N_` and `polynomials_` (`D_` is the length of the latter). -/
structure Segment (K : Type*) where
  N : Nat
  time : K
  polys : List (Poly K)
  deriving DecidableEq, Repr

/-- `extremum.h` 30-44. -/
structure Extremum (K : Type*) where
  time : K
  value : K
  segmentIdx : Nat

namespace Segment

/-- `segment.h` 55 `D()`. -/
def D (s : Segment K) : Nat := s.polys.length

/-- `segment.h` 47-49: `Segment(int N, int D)`. -/
def mk' [Zero K] (N D : Nat) : Segment K := ⟨N, 0, List.replicate D (List.replicate N 0)⟩

/-- `segment.cpp` 46-49 `operator[] const`: `CHECK_LT(idx, D_)`. -/
def index (s : Segment K) (i : Nat) : Res (Poly K) :=
  match s.polys[i]? with
  | some p => .ok p
  | none => .error .check

section Ring
variable [CommRing K]

/-- `segment.cpp` 51-58 `evaluate`: every dimension in order. -/
def evaluate (s : Segment K) (t : K) (d : Nat) : Res (List K) :=
  s.polys.mapM fun p => Poly.evaluate p t d

/-- `polynomials_[dim]` with an `int` index (`segment.cpp` 111, 128, 152): no bounds check. -/
def polyAt (s : Segment K) (dim : Int) : Res (Poly K) :=
  if dim < 0 then .error .ub else at? s.polys dim.toNat

/-- Eigen `v.head(n)`: undefined behaviour when `n` exceeds the size. -/
def head? (n : Nat) (l : List K) : Res (List K) :=
  if n ≤ l.length then .ok (l.take n) else .error .ub

/-- `segment.cpp` 100-115: the loop over the dimensions accumulating `Σ conv(d, dd)`; `none` is the early `return false` for a
dimension out of bounds. -/
def convSum (s : Segment K) (k : Nat) : List Int → List K → Res (Option (List K))
  | [], acc => .ok (some acc)
  | dim :: dims, acc =>
    if dim < 0 ∨ (s.D : Int) ≤ dim then .ok none
    else do
      let p ← s.polyAt dim
      let c ← Poly.getCoefficients p k
      let d ← head? (s.N - k) c
      let c' ← Poly.getCoefficients p (k + 1)
      let dd ← head? (s.N - k - 1) c'
      let cv ← Poly.convolve d dd
      convSum s k dims (List.zipWith (· + ·) acc cv)

/-- `segment.cpp` 187-199 `getSegmentWithSingleDimension`; `none` is `return false`. -/
def getSegmentWithSingleDimension (s : Segment K) (dim : Int) : Option (Segment K) :=
  if dim < 0 then none
  else match s.polys[dim.toNat]? with
    | none => none
    | some p => some ⟨s.N, s.time, [p]⟩

/-- `segment.cpp` 264-276 `offsetSegment` on a vector of size `r.length`; `none` is `return false`. -/
def offsetSegment (s : Segment K) (r : List K) : Option (Segment K) :=
  if r.length < min s.D 3 then none
  else some { s with polys := s.polys.mapIdx fun i p => if i < min s.D 3 then Poly.offset p (r.getD i 0) else p }

/-- `trajectory.cpp` 371-374: every polynomial of the segment is scaled with the given argument (the caller passes the inverse)
and the time is multiplied. -/
def scale (s : Segment K) (scaling inverse : K) : Segment K :=
  { s with polys := s.polys.map (fun p => Poly.scaleInTime p inverse), time := s.time * scaling }

end Ring

section Field
variable [Field K] [LinearOrder K] [IsStrictOrderedRing K]

/-- `segment.cpp` 83-134 `computeMinMaxMagnitudeCandidateTimes`; `none` is `return false` (the candidate vector is then empty:
it is cleared in line 88 and in `polynomial.cpp` 69). For two or more dimensions the vector length
`(N - k) + (N - k - 1) - 1` must not be negative. -/
def candidateTimes (rf : Poly.RootFinder K) (s : Segment K) (k : Nat) (t0 t1 : K) (dims : List Int) :
    Res (Option (List K)) :=
  match dims with
  | [] => .ok none
  | [dim] => do
    let p ← s.polyAt dim
    Poly.computeMinMaxCandidates rf p t0 t1 (k + 1)
  | _ =>
    if s.N < k + 1 then .error .ub
    else do
      match ← convSum s k dims (List.replicate ((s.N - k) + (s.N - k - 1) - 1) 0) with
      | none => return none
      | some c => Poly.computeMinMaxCandidates rf c t0 t1 0

/-- `segment.cpp` 201-262 `getSegmentWithAppendedDimension`; `none` is `return false` (the partly filled output is not modelled). In
the branch for different `N` the code reads the unscaled `polynomials_` and `segment_to_append`, not the scaled copies. -/
def getSegmentWithAppendedDimension (s a : Segment K) : Option (Segment K) :=
  if s.N = 0 ∨ s.D = 0 then some a
  else if a.N = 0 ∨ a.D = 0 then some s
  else
    let newN := max a.N s.N
    let newTime := max s.time a.time
    let cur := if s.time < newTime ∧ 0 < newTime then s.polys.map (fun p => Poly.scaleInTime p (s.time / newTime)) else s.polys
    let app := if s.time < newTime ∧ 0 < newTime then a.polys
      else if a.time < newTime ∧ 0 < newTime then a.polys.map (fun p => Poly.scaleInTime p (a.time / newTime))
      else a.polys
    if s.N = a.N then some ⟨newN, newTime, cur ++ app⟩
    else
      let padded := (s.polys ++ a.polys).map (fun p => Poly.appendCoefficients p newN)
      if padded.all Prod.fst then some ⟨newN, newTime, padded.map Prod.snd⟩ else none

/-- `std::max(a, b)` on extrema (`segment.cpp` 180): `(a < b) ? b : a`, comparing values (`extremum.h` 37). -/
def maxE (a b : Extremum K) : Extremum K := if a.value < b.value then b else a

/-- `std::min(a, b)` on extrema (`segment.cpp` 181): `(b < a) ? b : a`. -/
def minE (a b : Extremum K) : Extremum K := if b.value < a.value then b else a

/-- `segment.cpp` 161-185 `selectMinMaxMagnitudeFromCandidates`: `none` is `return false`. The extrema passed in keep their time
and segment index, their value is overwritten with ±DBL_MAX. -/
def selectMinMaxMagnitudeFromCandidates (t0 t1 : K) (cands : List (Extremum K)) (mn mx : Extremum K) :
    Option (Extremum K × Extremum K) :=
  if t0 > t1 then none
  else some (cands.foldl
    (fun (acc : Extremum K × Extremum K) c =>
      if c.time < t0 ∨ t1 < c.time then acc else (minE acc.1 c, maxE acc.2 c))
    ({ mn with value := Poly.dblMax }, { mx with value := -Poly.dblMax }))

end Field

section Real

/-- `segment.cpp` 149-153: sum over `dimensions` of the squared derivative values. -/
noncomputable def sumSquares (s : Segment ℝ) (k : Nat) (t : ℝ) : List Int → ℝ → Res ℝ
  | [], acc => .ok acc
  | dim :: dims, acc => do
    let p ← s.polyAt dim
    let v ← Poly.evaluate p t k
    sumSquares s k t dims (acc + v ^ 2)

/-- `segment.cpp` 136-159 `computeMinMaxMagnitudeCandidates`: the result of the candidate search is ignored, the function
always returns true; the value of each candidate is the Euclidean norm over `dimensions`. -/
noncomputable def computeMinMaxMagnitudeCandidates (rf : Poly.RootFinder ℝ) (s : Segment ℝ) (k : Nat) (t0 t1 : ℝ)
    (dims : List Int) : Res (List (Extremum ℝ)) := do
  let times ← candidateTimes rf s k t0 t1 dims
  (times.getD []).mapM fun t => do
    let m ← sumSquares s k t dims 0
    return ⟨t, Real.sqrt m, 0⟩

end Real

end Segment

end Verif
