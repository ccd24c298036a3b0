import Verif.Spec.LinearOptCost

/-!
# Specification: the best piecewise polynomials for a problem, and when there is only one
-/

namespace Verif.Spec

/-- A piecewise polynomial for the problem with the least integral of the squared derivative. -/
def Optimal (h dim : ℕ) (q : Problem ℝ) (segs : List (Segment ℝ)) : Prop :=
  Candidate h dim q segs ∧ ∀ segs', Candidate h dim q segs' → energy q.derivative.toNat segs ≤ energy q.derivative.toNat segs'

/-- The same curve, segment by segment: the same durations and the same function in every dimension. -/
def SameCurve (a b : List (Segment ℝ)) : Prop :=
  List.Forall₂ (fun s s' => s.time = s'.time ∧ List.Forall₂ (fun p p' => ∀ x, derivAt p 0 x = derivAt p' 0 x) s.polys s'.polys) a b

/-- How many of the orders below `d` a vertex prescribes. -/
def prescribedBelow (d : ℕ) (v : Vertex ℝ) : ℕ := ((List.range d).filter fun k : ℕ => (v.getConstraint k).isSome).length

/-- Of the orders below `d`, the vertex prescribes the lowest ones (possibly none, possibly all). -/
def NoGaps (d : ℕ) (v : Vertex ℝ) : Prop :=
  ∀ k k' : ℕ, k ≤ k' → k' < d → (v.getConstraint k').isSome = true → (v.getConstraint k).isSome = true

end Verif.Spec
