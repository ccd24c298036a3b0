import Verif.Spec.MavMsgs
import Verif.Spec.Trajectory

/-!
# Specification vocabulary for sampled states
-/

namespace Verif.Spec

open Mav

/-- `new` is the flat state at time `t` of a `D`-dimensional motion whose `k`-th derivative is `v k`, written over the state `old`. -/
structure Sample (D : ℕ) (t : ℝ) (v : ℕ → List ℝ) (old new : TrajectoryPoint) : Prop where
  position : ∀ i : Fin 3, (v 0)[(i : ℕ)]? = some (new.position i)
  velocity : ∀ i : Fin 3, (v 1)[(i : ℕ)]? = some (new.velocity i)
  acceleration : ∀ i : Fin 3, (v 2)[(i : ℕ)]? = some (new.acceleration i)
  jerk : ∀ i : Fin 3, (v 3)[(i : ℕ)]? = some (new.jerk i)
  snap : ∀ i : Fin 3, (v 4)[(i : ℕ)]? = some (new.snap i)
  time : new.timeFromStartNs = ⌊t * 1000000000⌋
  stamp : new.timestampNs = old.timestampNs
  /-- four dimensions: the fourth one is the yaw -/
  yaw : D = 4 → ∃ y r a : ℝ, (v 0)[3]? = some y ∧ (v 1)[3]? = some r ∧ (v 2)[3]? = some a ∧
    IsUnitQuat new.orientation ∧ quatToMatrix new.orientation = rotZ y ∧
    new.angularVelocity = ![0, 0, r] ∧ new.angularAcceleration = ![0, 0, a] ∧ new.dof = .dof4
  /-- six dimensions: the last three are the rotation vector -/
  rotation : D = 6 → ∃ r r' r'' : V3, (∀ i : Fin 3, (v 0)[3 + (i : ℕ)]? = some (r i)) ∧
    (∀ i : Fin 3, (v 1)[3 + (i : ℕ)]? = some (r' i)) ∧ (∀ i : Fin 3, (v 2)[3 + (i : ℕ)]? = some (r'' i)) ∧
    IsUnitQuat new.orientation ∧ quatToMatrix new.orientation = matrixFromRotationVector r ∧
    new.angularVelocity = omegaFromRotationVector r r' ∧
    new.angularAcceleration = omegaDotFromRotationVector r r' r'' ∧ new.dof = .dof6
  other : D ≠ 4 → D ≠ 6 → new.orientation = old.orientation ∧ new.angularVelocity = old.angularVelocity ∧
    new.angularAcceleration = old.angularAcceleration ∧ new.dof = .dof4

end Verif.Spec
