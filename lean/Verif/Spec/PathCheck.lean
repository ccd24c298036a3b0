import Verif.Spec.LinearOpt

/-!
# Specification: trajectories that meet their vertices up to a tolerance
-/

namespace Verif.Spec

variable {K : Type*} [Field K] [LinearOrder K] [IsStrictOrderedRing K]

/-- Entry by entry at most `tol` apart. -/
def NearBy (tol : K) (a b : List K) : Prop := List.Forall₂ (fun x y => |x - y| ≤ tol) a b

/-- Segment `i` leads from vertex `i` to vertex `i + 1`, up to `tol`, and segments join in the derivatives of orders below `h`, up to `tol`. -/
structure FollowsPath (h : ℕ) (tol : K) (vs : List (Vertex K)) (segs : List (Segment K)) : Prop where
  count : vs.length = segs.length + 1
  start : ∀ (i : ℕ) (s : Segment K) (v : Vertex K) (k : ℕ) (c : List K), segs[i]? = some s → vs[i]? = some v → v.getConstraint k = some c →
    NearBy tol c (segDeriv s k 0)
  arrival : ∀ (i : ℕ) (s : Segment K) (v : Vertex K) (k : ℕ) (c : List K), segs[i]? = some s → vs[i + 1]? = some v → v.getConstraint k = some c →
    NearBy tol c (segDeriv s k s.time)
  joints : ∀ (i : ℕ) (s s' : Segment K), segs[i]? = some s → segs[i + 1]? = some s' → ∀ k < h, NearBy tol (segDeriv s k s.time) (segDeriv s' k 0)

end Verif.Spec
