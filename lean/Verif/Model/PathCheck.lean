import Verif.Model.Print

/-!
# The checks of the tests of the optimisation

Source: `subpackages/mav_trajectory_generation/test/test_polynomial_optimization.cpp`. `EIGEN_MATRIX_NEAR` (of the library eigen-checks, not part of the repository) is
taken to accept vectors of equal length whose entries differ by at most the tolerance.
-/

namespace Verif

namespace PathCheck

variable {K : Type} [Field K] [LinearOrder K]

/-- `EIGEN_MATRIX_NEAR`. -/
def near (tol : K) (a b : List K) : Bool := a.length = b.length && (List.zipWith (fun x y => decide (|x - y| ≤ tol)) a b).all id

/-- `segment.evaluate(t, derivative)` with an `int`; a negative order is out of the table of the library. -/
def evaluateInt (s : Segment K) (t : K) (k : Int) : Res (List K) := if k < 0 then .error .ub else s.evaluate t k.toNat

/-- Lines 129-139, 143-153, the checks of one constraint. Printing aborts if the order is out of range; what it prints does not matter. -/
def checkFixed (tol : K) (s : Segment K) (t : K) (x : Int × List K) : Res Bool := do
  let actual ← evaluateInt s t x.1
  let _ ← Print.printSegment (fun _ _ => []) 6 s x.1
  return near tol x.2 actual

/-- Lines 159-171, the check of one derivative at the joint of two segments. -/
def checkJoint (tol : K) (l s : Segment K) (k : ℕ) : Res Bool := do
  let last ← l.evaluate l.time k
  let current ← s.evaluate 0 k
  let _ ← Print.printSegment (fun _ _ => []) 6 s k
  return near tol last current

/-- Lines 156-172: the checks at the joint with the segment before, if there is one. -/
def checkJoints (N : ℕ) (tol : K) (segs : List (Segment K)) (s : Segment K) (i : ℕ) : Res (List Bool) :=
  if 0 < i then do
    let l ← at? segs (i - 1)
    (List.range (N / 2)).mapM (checkJoint tol l s)
  else .ok []

/-- Lines 121-173, the body of the loop. -/
def checkSegment (N : ℕ) (tol : K) (vs : List (Vertex K)) (segs : List (Segment K)) (i : ℕ) : Res Bool := do
  let first ← at? vs i
  let last ← at? vs (i + 1)
  let s ← at? segs i
  let a ← first.constraints.mapM (checkFixed tol s 0)
  let b ← last.constraints.mapM (checkFixed tol s s.time)
  let c ← checkJoints N tol segs s i
  return (a ++ b ++ c).all id

/-- Lines 113-174 `checkPath` (with `N` and `tol`, 10 and 1e-6 in lines 38 and 116): whether no expectation fails. -/
def checkPath (N : ℕ) (tol : K) (vs : List (Vertex K)) (segs : List (Segment K)) : Res Bool := do
  let rs ← (List.range segs.length).mapM (checkSegment N tol vs segs)
  return decide (segs.length + 1 = vs.length) && rs.all id

/-- Lines 226-248 `checkExtrema`. -/
def checkExtrema (testee reference : List K) (tol : K) : Bool := testee.all fun t => reference.any fun r => decide (|t - r| < tol)

end PathCheck

end Verif
