import Verif.Model.CsvDriver
import Verif.Spec.Clock

/-!
# What the table of `tests/trajectory_test.cpp` should contain
-/

namespace Verif.Spec
open Verif

variable {K : Type*} [Field K] [LinearOrder K] [IsStrictOrderedRing K]

/-- `tr` is a flight from rest at `p` through the positions of `ns`, in their order, to rest at the last of them. -/
def FliesThrough (p : V3 K) (ns : List (String × V3 K)) (tr : Trajectory K) : Prop :=
  tr.evaluate 0 0 = .ok [p.x, p.y, p.z] ∧ tr.evaluate 0 1 = .ok [0, 0, 0] ∧ tr.evaluate 0 2 = .ok [0, 0, 0] ∧
  (∃ times : List K, (0 :: times).Pairwise (· < ·) ∧ times.getLast? = some tr.maxTime ∧
    List.Forall₂ (fun (n : String × V3 K) t => tr.evaluate t 0 = .ok [n.2.x, n.2.y, n.2.z]) ns times) ∧
  tr.evaluate tr.maxTime 1 = .ok [0, 0, 0] ∧ tr.evaluate tr.maxTime 2 = .ok [0, 0, 0]

/-- The line for the instant `t`, with position, velocity and acceleration of the flight at `u`. -/
def IsLine (tr : Trajectory K) (t u : K) (l : List K) : Prop :=
  ∃ x v a : V3 K, l = [t, x.x, x.y, x.z, v.x, v.y, v.z, a.x, a.y, a.z] ∧ tr.evaluate u 0 = .ok [x.x, x.y, x.z] ∧
    tr.evaluate u 1 = .ok [v.x, v.y, v.z] ∧ tr.evaluate u 2 = .ok [a.x, a.y, a.z]

end Verif.Spec
