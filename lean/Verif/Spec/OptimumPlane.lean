import Verif.Spec.OptimumUnique
import Mathlib.Algebra.Polynomial.Derivative

/-!
# Specification: missions in a plane
-/

namespace Verif.Spec

open Polynomial

/-- The component of a vector along a direction, times the length of the direction. -/
def componentAlong (w c : List ℝ) : ℝ := (List.zipWith (fun x y => x * y) w c).sum

/-- All that a mission prescribes along the direction `w` are values of `P` and of its derivatives, at the instants the vertices are passed. -/
def PrescribesAlong (h : ℕ) (w : List ℝ) (P : ℝ[X]) (q : Problem ℝ) : Prop :=
  ∀ (i : ℕ) (v : Vertex ℝ) (k : ℕ) (c : List ℝ), q.vertices[i]? = some v → k < h → v.getConstraint k = some c →
    componentAlong w c = (derivative^[k] P).eval (q.times.take i).sum

/-- The positions a mission prescribes are all in the plane of the points whose `componentAlong w` is `z`, and the derivatives it prescribes are parallel to that plane. -/
def InPlane (h : ℕ) (w : List ℝ) (z : ℝ) (q : Problem ℝ) : Prop :=
  ∀ v ∈ q.vertices, ∀ (k : ℕ) (c : List ℝ), k < h → v.getConstraint k = some c → componentAlong w c = if k = 0 then z else 0

/-- All that a mission prescribes are values of the path with the components `P` and of its derivatives, at the instants the vertices are passed. -/
def TakenFrom (h dim : ℕ) (P : ℕ → ℝ[X]) (q : Problem ℝ) : Prop :=
  ∀ (i : ℕ) (v : Vertex ℝ) (k : ℕ) (c : List ℝ), q.vertices[i]? = some v → k < h → v.getConstraint k = some c → ∀ j < dim,
    c[j]? = some ((derivative^[k] (P j)).eval (q.times.take i).sum)

/-- The first and the last vertex prescribe all orders below the derivative to optimise. -/
def EndsPrescribed (q : Problem ℝ) : Prop :=
  ∀ k : ℕ, k < q.derivative.toNat → (∃ v, q.vertices[0]? = some v ∧ (v.getConstraint k).isSome = true) ∧
    ∃ v, q.vertices[q.times.length]? = some v ∧ (v.getConstraint k).isSome = true

end Verif.Spec
