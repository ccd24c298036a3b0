import Verif.Model.Trajectory

/-!
# Comparison of polynomials, segments and trajectories

`SP` is `subpackages/mav_trajectory_generation`. Numbers are elements of a field, so a number equals itself (not so NaN).
-/

namespace Verif

variable {K : Type*} [DecidableEq K]

/-- `SP/include/mav_trajectory_generation/polynomial.h` 65-67 `Polynomial::operator==`: Eigen's `==` of the coefficient vectors. For
vectors of different sizes it is undefined behaviour (an Eigen assertion, disabled in release builds). -/
def Poly.isEqual (p q : Poly K) : Res Bool := if p.length = q.length then .ok (decide (p = q)) else .error .ub

/-- `SP/src/segment.cpp` 32-36: the loop over the dimensions, which ends at the first difference. `rhs[i]` aborts (45-49) beyond the
dimension of the other segment. -/
def Segment.equalFrom : List (Poly K) → List (Poly K) → Res Bool
  | [], _ => .ok true
  | _ :: _, [] => .error .check
  | p :: ps, q :: qs => do
    let b ← Poly.isEqual p q
    if b then Segment.equalFrom ps qs else return false

/-- `SP/src/segment.cpp` 28-39 `Segment::operator==`: dimension, time and polynomials. `N_` is not compared. -/
def Segment.isEqual (s r : Segment K) : Res Bool :=
  if s.polys.length ≠ r.polys.length ∨ s.time ≠ r.time then .ok false else Segment.equalFrom s.polys r.polys

/-- `std::vector<Segment>::operator==` for vectors of the same size (`std::equal`): ends at the first difference. -/
def Trajectory.segmentsEqual : List (Segment K) → List (Segment K) → Res Bool
  | s :: ss, r :: rs => do
    let b ← Segment.isEqual s r
    if b then segmentsEqual ss rs else return false
  | _, _ => .ok true

/-- `SP/src/trajectory.cpp` 39-43: the loop, which compares all segments `n` times. -/
def Trajectory.equalRepeat (ss rs : List (Segment K)) : ℕ → Res Bool
  | 0 => .ok true
  | n + 1 => do
    let b ← Trajectory.segmentsEqual ss rs
    if b then Trajectory.equalRepeat ss rs n else return false

/-- `SP/src/trajectory.cpp` 34-46 `Trajectory::operator==`: the number of segments and the segments. The dimension, the number of
coefficients and the duration are not compared. -/
def Trajectory.isEqual (tr ur : Trajectory K) : Res Bool :=
  if tr.segments.length ≠ ur.segments.length then .ok false
  else Trajectory.equalRepeat tr.segments ur.segments tr.segments.length

end Verif
