import Verif.Model.LinearOpt
import Verif.Spec.Trajectory
import Verif.Spec.Vertex

/-!
# Specification vocabulary for the linear optimisation

Histories of calls on one optimisation object, and what it means that a trajectory meets the constraints of vertices. Only data types and the
public functions of the model are used.
-/

namespace Verif.Spec

variable {K : Type*} [Field K] [LinearOrder K] [IsStrictOrderedRing K]

/-- A problem handed to the optimisation object: vertices, segment times, derivative to optimise. -/
structure Problem (K : Type*) where
  vertices : List (Vertex K)
  times : List K
  derivative : Int

/-- `LinHistory h dim solve p o`: some sequence of calls on a new object of dimension `dim`, none of which fails, leads to the object `o`,
and `p` is the problem it currently holds: the latest vertices and derivative it was set up with, and the latest times. -/
inductive LinHistory (h dim : ℕ) (solve : LinSolver K) : Option (Problem K) → LinOpt h K → Prop
  | new : LinHistory h dim solve none (LinOpt.init h K dim)
  | setup {p : Option (Problem K)} {o o' : LinOpt h K} (q : Problem K) : LinHistory h dim solve p o →
      o.setupFromVertices q.vertices q.times q.derivative = .ok o' → LinHistory h dim solve (some q) o'
  | times {q : Problem K} {o o' : LinOpt h K} (ts : List K) : LinHistory h dim solve (some q) o →
      o.updateSegmentTimes ts = .ok o' → LinHistory h dim solve (some { q with times := ts }) o'
  | free {q : Problem K} {o o' : LinOpt h K} (values : List (List K)) : LinHistory h dim solve (some q) o →
      o.setFreeConstraints values = .ok o' → LinHistory h dim solve (some q) o'
  | solve {q : Problem K} {o o' : LinOpt h K} : LinHistory h dim solve (some q) o →
      o.solveLinear solve = .ok o' → LinHistory h dim solve (some q) o'

/-- The segments `segs` meet every constraint of order below `h` of the vertices: segment `i` starts at vertex `i` and ends at
vertex `i + 1`. -/
def MeetsConstraints (h : ℕ) (vs : List (Vertex K)) (segs : List (Segment K)) : Prop :=
  ∀ (i : ℕ) (s : Segment K), segs[i]? = some s → ∀ (k : ℕ) (c : List K), k < h →
    (∀ v, vs[i]? = some v → v.getConstraint k = some c → segDeriv s k 0 = c) ∧
    (∀ v, vs[i + 1]? = some v → v.getConstraint k = some c → segDeriv s k s.time = c)

/-- Consecutive segments agree in the derivatives of orders below `h` at their joint. -/
def SmoothJoints (h : ℕ) (segs : List (Segment K)) : Prop :=
  ∀ (i : ℕ) (s s' : Segment K), segs[i]? = some s → segs[i + 1]? = some s' → ∀ k < h, segDeriv s k s.time = segDeriv s' k 0

/-- Contract of the linear solver: if the system has a solution, the answer is one. -/
def SolvesSystems (solve : LinSolver K) : Prop :=
  ∀ (n : ℕ) (A : Matrix (Fin n) (Fin n) K) (b : Fin n → K), (∃ x, A.mulVec x = b) → A.mulVec (solve n A b) = b

/-- What the optimisation accepts: derivative in range, one vertex more than times, constrained vectors (of the orders used) of the object's
dimension, and no time below `2⁻⁵²`. -/
def AcceptableProblem (h dim : ℕ) (q : Problem K) : Prop :=
  0 ≤ q.derivative ∧ q.derivative < h ∧ q.vertices.length = q.times.length + 1 ∧
  (∀ v ∈ q.vertices, ∀ (k : Int) (c : List K), k < h → v.getConstraint k = some c → c.length = dim) ∧
  ∀ t ∈ q.times, 1 / 2 ^ 52 ≤ t

end Verif.Spec
