import Verif.Spec.Requests

/-! # How much is stored for a moved waypoint (C152) -/

namespace Verif.Spec

variable {K : Type*} [Field K] [LinearOrder K] [IsStrictOrderedRing K]

/-- How many of the position updates are for this name. -/
def updatesFor (us : List (String × V3 K)) (name : String) : ℕ := us.countP fun u => decide (u.1 = name)

/-- A waypoint is moved `n` times, to `p 0`, `p 1`, …, without replanning, and the worker is given the time to carry out every move. -/
def moveAgain (name : String) (p : ℕ → V3 K) : ℕ → List (Event K)
  | 0 => []
  | n + 1 => moveAgain name p n ++ [.modifyWaypoint name (p n) false, .worker, .worker]

end Verif.Spec
