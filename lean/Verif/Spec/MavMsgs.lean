import Mathlib.Analysis.Calculus.Deriv.Pi
import Verif.Model.MavMsgs

/-!
# What the rotation helpers are supposed to compute

Independent of the code: rotation matrices, elementary rotations, Rodrigues' formula, and the angular velocity of a
moving frame.
-/

namespace Verif.Mav

open Matrix

/-- A rotation of space: orthogonal, orientation preserving. -/
def IsRotation (m : M3) : Prop := mᵀ * m = 1 ∧ m.det = 1

/-- Rotation about the x axis. -/
noncomputable def rotX (a : ℝ) : M3 :=
  !![1, 0, 0; 0, Real.cos a, -Real.sin a; 0, Real.sin a, Real.cos a]
/-- Rotation about the y axis. -/
noncomputable def rotY (a : ℝ) : M3 :=
  !![Real.cos a, 0, Real.sin a; 0, 1, 0; -Real.sin a, 0, Real.cos a]
/-- Rotation about the z axis. -/
noncomputable def rotZ (a : ℝ) : M3 :=
  !![Real.cos a, -Real.sin a, 0; Real.sin a, Real.cos a, 0; 0, 0, 1]

/-- Rodrigues' formula: `x` turned by the angle `a` about the unit axis `k`. -/
noncomputable def turn (k : V3) (a : ℝ) (x : V3) : V3 :=
  Real.cos a • x + Real.sin a • (k ⨯₃ x) + ((1 - Real.cos a) * (k ⬝ᵥ x)) • k

/-- A vector seen as a pure quaternion. -/
def pureQuat (v : V3) : Quat := quat 0 (v 0) (v 1) (v 2)

/-- A unit quaternion. -/
def IsUnitQuat (q : Quat) : Prop := q.re ^ 2 + q.imI ^ 2 + q.imJ ^ 2 + q.imK ^ 2 = 1

/-- `ω` is the angular velocity (in the fixed frame) of the moving frame `R` at time `t`: every vector attached to the
frame moves with velocity `ω × (its current position)`. -/
def AngularVelocity (R : ℝ → M3) (ω : V3) (t : ℝ) : Prop :=
  ∀ x : V3, HasDerivAt (fun s => R s *ᵥ x) (ω ⨯₃ (R t *ᵥ x)) t

/-- A rigid motion: its linear part is a rotation, which is then also what `rotation()` returns. -/
def Rigid (a : Affine) : Prop := IsRotation a.linear ∧ a.rotation = a.linear

/-- First `b`, then `a`. -/
def Affine.compose (a b : Affine) : Affine :=
  ⟨a.linear * b.linear, a.linear *ᵥ b.translation + a.translation, a.rotation * b.rotation⟩

/-- The inverse of a rigid motion. -/
def Affine.undo (a : Affine) : Affine := ⟨a.linearᵀ, -(a.linearᵀ *ᵥ a.translation), a.rotationᵀ⟩

/-- A trajectory of points whose fields are the derivatives of one another at time `t`. -/
structure Kinematic (p : ℝ → TrajectoryPoint) (t : ℝ) : Prop where
  unit : ∀ᶠ s in nhds t, IsUnitQuat (p s).orientation
  velocity : HasDerivAt (fun s => (p s).position) (p t).velocity t
  acceleration : HasDerivAt (fun s => (p s).velocity) (p t).acceleration t
  jerk : HasDerivAt (fun s => (p s).acceleration) (p t).jerk t
  snap : HasDerivAt (fun s => (p s).jerk) (p t).snap t
  angularVelocity : AngularVelocity (fun s => quatToMatrix (p s).orientation) (p t).angularVelocity t
  angularAcceleration : HasDerivAt (fun s => (p s).angularVelocity) (p t).angularAcceleration t

end Verif.Mav
