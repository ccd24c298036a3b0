import Verif.Spec.OptimumUnique

/-!
# Specification: some of the axes of a mission
-/

namespace Verif.Spec

/-- The axes `axes` of a segment, in this order. -/
def someAxes (axes : List ℕ) (s : Segment ℝ) : Segment ℝ := ⟨s.N, s.time, axes.map fun n => s.polys.getD n []⟩

/-- `q'` is the mission `q` reduced to the axes `axes` by `getSubdimension`, of the constraints of orders up to `maxOrder`: the same durations and the same
derivative to optimise. -/
def ReducedTo (axes : List ℕ) (maxOrder : Int) (q q' : Problem ℝ) : Prop :=
  q'.times = q.times ∧ q'.derivative = q.derivative ∧ List.Forall₂ (fun v v' => v.getSubdimension axes maxOrder = .ok (true, v')) q.vertices q'.vertices

end Verif.Spec
