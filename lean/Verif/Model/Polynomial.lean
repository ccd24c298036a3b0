import Mathlib.Algebra.Order.Field.Basic
import Verif.Model.Basic

/-!
# Model of `mav_trajectory_generation::Polynomial`

Source: `subpackages/mav_trajectory_generation/include/mav_trajectory_generation/polynomial.h` (abbreviated `polynomial.h`)
and `subpackages/mav_trajectory_generation/src/polynomial.cpp` (`polynomial.cpp`).

Simplifications, for the whole file: `double` is an arbitrary field `K` (ordered where the code compares), so
there is no rounding. The pair (`N_`, `coefficients_`) is the list of coefficients, `N_` being its length (`polynomial.h`
52-61, 249-250: every constructor establishes `N_ == coefficients_.size()`). Derivative orders are natural numbers.
-/

namespace Verif

variable {K : Type*}

/-- `polynomial.h` 37-39, 249-250: a polynomial is its list of coefficients, lowest power first. -/
abbrev Poly (K : Type*) := List K

/-- `polynomial.h` 44-47: `kMaxN = 12`, `kMaxConvolutionSize = 2 * kMaxN - 2`. -/
def kMaxConvolutionSize : Nat := 2 * 12 - 2

/-- `polynomial.cpp` 145-160 `computeBaseCoefficients`: entry `(n, i)` of the table. Row 0 is all ones. In round `n+1` of
the loop `DEG - order = n`, so the columns `i ≥ n` get `(order - DEG + i) = i - n` times the entry above; the others keep
the zero of `setZero`. The table has `kMaxConvolutionSize` rows and columns; callers of the table check the bound. -/
def baseEntry : Nat → Nat → Nat
  | 0, _ => 1
  | n + 1, i => if n ≤ i then (i - n) * baseEntry n i else 0

namespace Poly

section Ring
variable [CommRing K]

/-- Product `row[j] * coefficients_[j]` used by both `evaluate` overloads (`polynomial.h` 124-128, 142-146). Only indices
`j < N_` are used. -/
def rowTerm (c : Poly K) (d j : Nat) : K := (baseEntry d j : K) * c.getD j 0

/-- `polynomial.h` 126-129 and 144-147: `for (j = hi - 1; j >= lo; --j) { acc *= t; acc += row[j]*c[j]; }`. -/
def hornerLoop (a : Nat → K) (t : K) (lo : Nat) : Nat → K → K
  | 0, acc => acc
  | j + 1, acc => if lo ≤ j then hornerLoop a t lo j (acc * t + a j) else acc

/-- `polynomial.h` 136-149 `double evaluate(double t, int derivative) const`. The row of the static table is taken with
`block(derivative, 0, 1, N_)`, which is out of bounds when `N_` exceeds the table size. -/
def evaluate (c : Poly K) (t : K) (d : Nat) : Res K :=
  if c.length ≤ d then .ok 0
  else if kMaxConvolutionSize < c.length then .error .ub
  else .ok (hornerLoop (rowTerm c d) t d (c.length - 1) (rowTerm c d (c.length - 1)))

/-- `polynomial.h` 118-132 `void evaluate(double t, VectorXd* result) const`: fills `m = result->size()` derivatives;
`CHECK_LE(result->size(), N_)`. With `N_ = 0` the check only admits `m = 0`, and nothing is read. -/
def evaluateAll (c : Poly K) (t : K) (m : Nat) : Res (List K) :=
  if c.length < m then .error .check
  else if m = 0 then .ok []
  else if kMaxConvolutionSize < c.length then .error .ub
  else .ok ((List.range m).map fun i =>
    hornerLoop (rowTerm c i) t i (c.length - 1) (rowTerm c i (c.length - 1)))

/-- `polynomial.h` 98-113 `getCoefficients`: `CHECK_LE(derivative, N_)`; for `derivative ≥ 1` a zero vector of length `N_`
whose head of length `N_ - derivative` is `coefficients_.tail(N_ - derivative)` times the table entries
`(derivative, derivative .. N_-1)`. -/
def getCoefficients (c : Poly K) (d : Nat) : Res (Poly K) :=
  if c.length < d then .error .check
  else if d = 0 then .ok c
  else if kMaxConvolutionSize < c.length then .error .ub
  else .ok ((List.range c.length).map fun i =>
    if i + d < c.length then c.getD (i + d) 0 * (baseEntry d (i + d) : K) else 0)

/-- `polynomial.h` 71-73 `operator+`: coefficient-wise sum. Eigen requires equal sizes; a mismatch is an assertion failure
in debug builds and undefined otherwise. -/
def add (p q : Poly K) : Res (Poly K) :=
  if p.length = q.length then .ok (List.zipWith (· + ·) p q) else .error .ub

/-- `polynomial.h` 84-86 `operator*(double)`. -/
def smul (p : Poly K) (a : K) : Poly K := p.map (· * a)

/-- `polynomial.cpp` 162-180 `convolve`, inner loop 175-177: `convolved[i]`. With `data_idx = i - ksize + 1` (possibly negative),
the sum over `kernel_idx` in `[max(0, -data_idx), min(ksize, dsize - data_idx))` of
`kernel_reverse[kernel_idx] * data[data_idx + kernel_idx]`. Index computations are over the integers as in the code. -/
def convolveEntry (data kernel : List K) (i : Nat) : K :=
  let dataIdx : Int := (i : Int) - kernel.length + 1
  let lower : Int := max 0 (-dataIdx)
  let upper : Int := min (kernel.length : Int) ((data.length : Int) - dataIdx)
  ((List.range (upper - lower).toNat).map fun (s : Nat) =>
    let kernelIdx : Int := lower + s
    kernel.reverse.getD kernelIdx.toNat 0 * data.getD (dataIdx + kernelIdx).toNat 0).sum

/-- `polynomial.cpp` 162-180 `convolve`; `convolution.h` 31-55 is the same loop with compile-time sizes. The length is
`data.size() + kernel.size() - 1` (`polynomial.h` 235-237); for two empty vectors that is `-1`, an invalid Eigen size. -/
def convolve (data kernel : List K) : Res (List K) :=
  if data.length + kernel.length = 0 then .error .ub
  else .ok ((List.range (data.length + kernel.length - 1)).map (convolveEntry data kernel))

/-- `polynomial.cpp` 182-197 `getPolynomialWithAppendedCoefficients`: returned flag and new polynomial. -/
def appendCoefficients (p : Poly K) (newN : Nat) : Bool × Poly K :=
  if newN = p.length then (true, p)
  else if newN < p.length then (false, p)
  else (true, p ++ List.replicate (newN - p.length) 0)

/-- `polynomial.cpp` 199-205 `scalePolynomialInTime`, loop carrying `scale`. -/
def scaleLoop (b : K) : List K → K → List K
  | [], _ => []
  | c :: cs, scale => (c * scale) :: scaleLoop b cs (scale * b)

/-- `polynomial.cpp` 199-205 `scalePolynomialInTime`. -/
def scaleInTime (p : Poly K) (b : K) : Poly K := scaleLoop b p 1

/-- `polynomial.cpp` 207-211 `offsetPolynomial`. -/
def offset (p : Poly K) (o : K) : Poly K :=
  match p with
  | [] => []
  | c :: cs => (c + o) :: cs

end Ring

section Field
variable [Field K] [LinearOrder K] [IsStrictOrderedRing K]

/-- `std::numeric_limits<double>::epsilon()` = 2⁻⁵². -/
def dblEps : K := 1 / 2 ^ 52

/-- `std::numeric_limits<double>::max()` = (2 - 2⁻⁵²)·2¹⁰²³; `lowest()` is its negative. -/
def dblMax : K := (2 - 1 / 2 ^ 52) * 2 ^ 1023

/-- `polynomial.h` 201-219 `baseCoeffsWithTime`: `CHECK_LT(derivative, N)`; entry `derivative` is the table entry, entries to
the right are multiplied by growing powers of `t`, unless `|t| < epsilon`, in which case they stay zero. -/
def baseCoeffsWithTime (N d : Nat) (t : K) : Res (List K) :=
  if N ≤ d then .error .check
  else if kMaxConvolutionSize < N then .error .ub
  else .ok ((List.range N).map fun j =>
    if j < d then 0
    else if j = d then (baseEntry d d : K)
    else if |t| < dblEps then 0
    else (baseEntry d j : K) * t ^ (j - d))

/-- A complex number returned by the root finder: (real part, imaginary part). -/
abbrev CRoot (K : Type*) := K × K

/-- `polynomial.cpp` 32-63 `selectMinMaxCandidatesFromRoots`: `none` is the return value `false`. -/
def selectMinMaxCandidatesFromRoots (tStart tEnd : K) (roots : List (CRoot K)) : Option (List K) :=
  if tStart > tEnd then none
  else some (tStart :: tEnd ::
    (roots.filter fun r => ¬ (dblEps < |r.2|) ∧ ¬ (r.1 < tStart ∨ tEnd < r.1)).map Prod.fst)

/-- The root finder `findRootsJenkinsTraub` (`polynomial.cpp` 28-30 calls it on the coefficients of a derivative) is a
parameter: coefficients, lowest power first, to the list of complex roots found. Its boolean result only triggers a log
message (`polynomial.cpp` 75-78). -/
abbrev RootFinder (K : Type*) := List K → List (CRoot K)

/-- `polynomial.cpp` 65-83 `computeMinMaxCandidates`. The C++ argument `derivative` may be `-1` (`segment.cpp` 121), so the
model takes `d1 = derivative + 1`; the test `N_ - derivative - 1 < 0` is `N_ < d1`. -/
def computeMinMaxCandidates (rf : RootFinder K) (c : Poly K) (tStart tEnd : K) (d1 : Nat) :
    Res (Option (List K)) :=
  if c.length < d1 then .ok none
  else do
    let coeffs ← getCoefficients c d1
    return selectMinMaxCandidatesFromRoots tStart tEnd (rf coeffs)

/-- `polynomial.cpp` 131-141: loop body over the candidates, carrying minimum and maximum as (time, value). -/
def minMaxStep (st : (K × K) × (K × K)) (t v : K) : (K × K) × (K × K) :=
  (if v < st.1.2 then (t, v) else st.1, if v > st.2.2 then (t, v) else st.2)

/-- `polynomial.cpp` 131-141: the loop. -/
def minMaxLoop (c : Poly K) (d : Nat) : List K → (K × K) × (K × K) → Res ((K × K) × (K × K))
  | [], st => .ok st
  | t :: ts, st => do
    let v ← evaluate c t d
    minMaxLoop c d ts (minMaxStep st t v)

/-- `polynomial.cpp` 116-143 `selectMinMaxFromCandidates`: `none` is the return value `false`. -/
def selectMinMaxFromCandidates (c : Poly K) (cands : List K) (d : Nat) :
    Res (Option ((K × K) × (K × K))) :=
  match cands with
  | [] => .ok none
  | t0 :: _ => do
    let r ← minMaxLoop c d cands ((t0, dblMax), (t0, -dblMax))
    return some r

/-- `polynomial.cpp` 102-114 `computeMinMax`. -/
def computeMinMax (rf : RootFinder K) (c : Poly K) (tStart tEnd : K) (d : Nat) :
    Res (Option ((K × K) × (K × K))) := do
  match ← computeMinMaxCandidates rf c tStart tEnd (d + 1) with
  | none => return none
  | some cands => selectMinMaxFromCandidates c cands d

/-- `polynomial.cpp` 85-100 `selectMinMaxFromRoots`. -/
def selectMinMaxFromRoots (c : Poly K) (tStart tEnd : K) (d : Nat) (roots : List (CRoot K)) :
    Res (Option ((K × K) × (K × K))) :=
  match selectMinMaxCandidatesFromRoots tStart tEnd roots with
  | none => .ok none
  | some cands => selectMinMaxFromCandidates c cands d

end Field

end Poly

end Verif
