import Mathlib.Analysis.Quaternion
import Mathlib.Analysis.SpecialFunctions.Complex.Arg
import Mathlib.Analysis.SpecialFunctions.Trigonometric.Inverse
import Mathlib.LinearAlgebra.CrossProduct
import Mathlib.LinearAlgebra.Matrix.Determinant.Basic
import Mathlib.Algebra.Order.Floor.Ring
import Verif.Model.Basic

/-!
# `mav_msgs`: rotations, time stamps and trajectory points

Model of `/repo/subpackages/mav_trajectory_generation/include/mav_msgs/common.hpp` and `eigen_mav_msgs.hpp`.

`double` is ℝ (rounding is not modelled). `Eigen::Vector3d` is `Fin 3 → ℝ`, `Eigen::Matrix3d` is
`Matrix (Fin 3) (Fin 3) ℝ`, `Eigen::Quaterniond` is Mathlib's quaternion with `w = re`, `x = imI`, `y = imJ`,
`z = imK`. Results which are not finite numbers (division by zero, `asin` outside `[-1, 1]`) are `Fail.nonfinite`.
The parts under `ROS2_SUPPORT` (message conversions) are not compiled and not modelled; `toString` is not modelled.
-/

set_option linter.style.setOption false

namespace Verif.Mav

open Matrix

/-- `Eigen::Vector3d`. -/
abbrev V3 := Fin 3 → ℝ
/-- `Eigen::Matrix3d`. -/
abbrev M3 := Matrix (Fin 3) (Fin 3) ℝ
/-- `Eigen::Quaterniond`. -/
abbrev Quat := Quaternion ℝ

/-- `Eigen::Quaterniond(w, x, y, z)`. -/
def quat (w x y z : ℝ) : Quat := ⟨w, x, y, z⟩

/-- `common.hpp` 36 `kSmallValueCheck`. -/
noncomputable def kSmallValueCheck : ℝ := 1 / 1000000

/-- `Eigen::Vector3d::norm()`. -/
noncomputable def norm3 (v : V3) : ℝ := √(v 0 ^ 2 + v 1 ^ 2 + v 2 ^ 2)

/-- `Eigen::Matrix3d::norm()`: the Frobenius norm. -/
noncomputable def normM (m : M3) : ℝ := √(∑ i, ∑ j, m i j ^ 2)

/-- `Eigen::Matrix3d::trace()`. -/
def traceM (m : M3) : ℝ := m 0 0 + m 1 1 + m 2 2

/-- `std::atan2(y, x)`. Signed zeros are not modelled: on the negative half axis the result is `π`. -/
noncomputable def atan2 (y x : ℝ) : ℝ := Complex.arg ⟨x, y⟩

/-- `common.hpp` 42-56 `MagnitudeOfGravity`. -/
noncomputable def magnitudeOfGravity (height latitude : ℝ) : ℝ :=
  9780327 / 1000000 *
    ((1 + 53024 / 10000000 * (Real.sin latitude * Real.sin latitude) -
        58 / 10000000 * (Real.sin (2 * latitude) * Real.sin (2 * latitude))) -
      3155 / 1000 * (1 / 10000000) * height)

/-- `common.hpp` 111-114 `yawFromQuaternion`. -/
noncomputable def yawFromQuaternion (q : Quat) : ℝ :=
  atan2 (2 * (q.re * q.imK + q.imI * q.imJ)) (1 - 2 * (q.imJ * q.imJ + q.imK * q.imK))

/-- `Eigen::Quaterniond(Eigen::AngleAxisd(angle, axis))`: `w = cos (angle/2)`, `vec = sin (angle/2) * axis`. -/
noncomputable def quatOfAngleAxis (angle : ℝ) (axis : V3) : Quat :=
  quat (Real.cos (angle / 2)) (Real.sin (angle / 2) * axis 0) (Real.sin (angle / 2) * axis 1)
    (Real.sin (angle / 2) * axis 2)

/-- `common.hpp` 116-118 `quaternionFromYaw`. -/
noncomputable def quaternionFromYaw (yaw : ℝ) : Quat := quatOfAngleAxis yaw ![0, 0, 1]

/-- `common.hpp` 141-152 `getEulerAnglesFromQuaternion`: roll, pitch, yaw. `std::asin` returns NaN outside
`[-1, 1]`. -/
noncomputable def getEulerAnglesFromQuaternion (q : Quat) : Res V3 :=
  let s := 2 * (q.re * q.imJ - q.imK * q.imI)
  if s < -1 ∨ 1 < s then .error .nonfinite
  else .ok ![atan2 (2 * (q.re * q.imI + q.imJ * q.imK)) (1 - 2 * (q.imI * q.imI + q.imJ * q.imJ)),
    Real.arcsin s,
    atan2 (2 * (q.re * q.imK + q.imI * q.imJ)) (1 - 2 * (q.imJ * q.imJ + q.imK * q.imK))]

/-- `common.hpp` 154-159 `skewMatrixFromVector`. -/
def skewMatrixFromVector (v : V3) : M3 := !![0, -v 2, v 1; v 2, 0, -v 0; -v 1, v 0, 0]

/-- `common.hpp` 161-172 `vectorFromSkewMatrix`: the returned flag and the vector written. -/
noncomputable def vectorFromSkewMatrix (m : M3) : Bool × V3 :=
  if normM (m + mᵀ) < kSmallValueCheck then (true, ![m 2 1, m 0 2, m 1 0]) else (false, 0)

/-- `common.hpp` 174-186 `isRotationMatrix`. -/
noncomputable def isRotationMatrix (m : M3) : Bool :=
  if normM (mᵀ * m - 1) > kSmallValueCheck then false
  else if m.det - 1 > kSmallValueCheck then false
  else true

/-- `common.hpp` 191-204 `matrixFromRotationVector`. -/
noncomputable def matrixFromRotationVector (v : V3) : M3 :=
  let r := norm3 v
  let k : M3 := if r > 0 then skewMatrixFromVector (fun i => v i / r) else 0
  1 + Real.sin r • k + (1 - Real.cos r) • (k * k)

/-- `common.hpp` 209-247 `vectorFromRotationMatrix`: the returned flag and, when it is written, the vector (`none` when
`*vec` keeps its old value). For `φ` with `sin φ = 0` (a half turn) line 237 divides by zero. -/
noncomputable def vectorFromRotationMatrix (m : M3) : Res (Bool × Option V3) :=
  if isRotationMatrix m = false then .ok (false, none)
  else if normM (m - 1) < kSmallValueCheck then .ok (true, some 0)
  else
    let cosPhi := (traceM m - 1) / 2
    let phi := Real.arccos (max (-1) (min 1 cosPhi))
    if phi < kSmallValueCheck then .ok (true, some 0)
    else if 2 * Real.sin phi = 0 then .error .nonfinite
    else
      match vectorFromSkewMatrix ((phi / (2 * Real.sin phi)) • (m - mᵀ)) with
      | (true, v) => .ok (true, some v)
      | (false, _) => .ok (false, none)

/-- `common.hpp` 252-274 `omegaFromRotationVector`. `phi` is a norm, so `std::abs` is dropped. -/
noncomputable def omegaFromRotationVector (r v : V3) : V3 :=
  let phi := norm3 r
  if phi < 1 / 1000 then v
  else
    let s := skewMatrixFromVector r
    let w : M3 := 1 + ((1 - Real.cos phi) * (1 / phi / phi)) • s +
      ((phi - Real.sin phi) * (1 / phi / phi / phi)) • (s * s)
    w *ᵥ v

/-- `common.hpp` 279-319 `omegaDotFromRotationVector`. -/
noncomputable def omegaDotFromRotationVector (r v a : V3) : V3 :=
  let phi := norm3 r
  if phi < 1 / 1000 then a
  else
    let phiDot := (r ⬝ᵥ v) / phi
    let s := skewMatrixFromVector r
    let sd := skewMatrixFromVector v
    let wVel : M3 :=
      ((phi * Real.sin phi - 2 + 2 * Real.cos phi) * phiDot * (1 / phi / phi / phi)) • s +
      ((-2 * phi - phi * Real.cos phi + 3 * Real.sin phi) * phiDot * (1 / phi / phi / phi / phi)) • (s * s) +
      ((phi - Real.sin phi) * (1 / phi / phi / phi)) • (sd * s)
    let wAcc : M3 := 1 + ((1 - Real.cos phi) * (1 / phi / phi)) • s +
      ((phi - Real.sin phi) * (1 / phi / phi / phi)) • (s * s)
    wVel *ᵥ v + wAcc *ᵥ a

/-- `common.hpp` 344-357 `getSquaredRotorSpeedsFromAllocationAndState`; `n` is the number of rotors, `inertia` the
diagonal of the inertia matrix. -/
noncomputable def getSquaredRotorSpeeds {n : ℕ} (allocationInv : Matrix (Fin n) (Fin 4) ℝ) (inertia : V3) (mass : ℝ)
    (angVel angAcc acc : V3) : Fin n → ℝ :=
  let torque : V3 := (fun i => inertia i * angAcc i) + angVel ⨯₃ (fun i => inertia i * angVel i)
  let thrust := mass * norm3 acc
  allocationInv *ᵥ ![torque 0, torque 1, torque 2, thrust]

/-- `common.hpp` 359-362 `nanosecondsToSeconds`. -/
noncomputable def nanosecondsToSeconds (ns : ℤ) : ℝ := ns / 1000000000

/-- Conversion of a floating point number to an integer: truncation towards zero. -/
noncomputable def truncate (x : ℝ) : ℤ := if 0 ≤ x then ⌊x⌋ else ⌈x⌉

/-- `static_cast<int64_t>` of a floating point number: truncation, undefined behaviour when the result does not fit. -/
noncomputable def toInt64 (x : ℝ) : Res ℤ :=
  if -2 ^ 63 ≤ truncate x ∧ truncate x < 2 ^ 63 then .ok (truncate x) else .error .ub

/-- `common.hpp` 364-368 `secondsToNanoseconds`. -/
noncomputable def secondsToNanoseconds (s : ℝ) : Res ℤ := toInt64 (s * 1000000000)

/-! ## Quaternion operations of Eigen used by the headers -/

/-- `Eigen::Quaterniond::operator*(Vector3d)` (`_transformVector`): `uv = 2 vec × v`, `v + w uv + vec × uv`. -/
def quatRotate (q : Quat) (v : V3) : V3 :=
  let u : V3 := ![q.imI, q.imJ, q.imK]
  let uv : V3 := (2 : ℝ) • (u ⨯₃ v)
  v + q.re • uv + u ⨯₃ uv

/-- `Eigen::Quaterniond::inverse()`: the conjugate over the squared norm, and the zero quaternion for zero. -/
noncomputable def quatInverse (q : Quat) : Quat :=
  let n2 := q.re ^ 2 + q.imI ^ 2 + q.imJ ^ 2 + q.imK ^ 2
  if n2 > 0 then quat (q.re / n2) (-q.imI / n2) (-q.imJ / n2) (-q.imK / n2) else 0

/-- `Eigen::Quaterniond::toRotationMatrix()`. -/
def quatToMatrix (q : Quat) : M3 :=
  let tx := 2 * q.imI
  let ty := 2 * q.imJ
  let tz := 2 * q.imK
  !![1 - (ty * q.imJ + tz * q.imK), ty * q.imI - tz * q.re, tz * q.imI + ty * q.re;
     ty * q.imI + tz * q.re, 1 - (tx * q.imI + tz * q.imK), tz * q.imJ - tx * q.re;
     tz * q.imI - ty * q.re, tz * q.imJ + tx * q.re, 1 - (tx * q.imI + ty * q.imJ)]

/-- The second case of `Eigen::Quaterniond(Eigen::Matrix3d)`, for the index `i` of the largest diagonal entry. -/
noncomputable def quatOfMatrixAt (m : M3) (i : Fin 3) : Quat :=
  let j : Fin 3 := i + 1
  let k : Fin 3 := j + 1
  let t := √(m i i - m j j - m k k + 1)
  let w := (m k j - m j k) * (1 / 2 / t)
  let c : V3 := fun n => if n = i then t / 2 else if n = j then (m j i + m i j) * (1 / 2 / t)
    else (m k i + m i k) * (1 / 2 / t)
  quat w (c 0) (c 1) (c 2)

/-- `Eigen::Quaterniond(Eigen::Matrix3d)` (Ken Shoemake's method, as implemented by Eigen): by the trace when it is
positive, else by the largest diagonal entry. -/
noncomputable def quatOfMatrix (m : M3) : Quat :=
  if 0 < traceM m then
    let t := √(traceM m + 1)
    quat (t / 2) ((m 2 1 - m 1 2) * (1 / 2 / t)) ((m 0 2 - m 2 0) * (1 / 2 / t)) ((m 1 0 - m 0 1) * (1 / 2 / t))
  else
    let i : Fin 3 := if m 1 1 > m 0 0 then 1 else 0
    let i : Fin 3 := if m 2 2 > m i i then 2 else i
    quatOfMatrixAt m i

/-! ## Trajectory points -/

/-- `eigen_mav_msgs.hpp` 33 `MavActuation`. -/
inductive Actuation where
  | dof4
  | dof6
  deriving DecidableEq, Repr

/-- `eigen_mav_msgs.hpp` 163-258 `EigenTrajectoryPoint`; the default values are those of the default constructor
(166-177). The two other constructors leave `timestamp_ns` uninitialised and are not modelled. -/
structure TrajectoryPoint where
  timestampNs : ℤ := -1
  timeFromStartNs : ℤ := 0
  position : V3 := 0
  velocity : V3 := 0
  acceleration : V3 := 0
  jerk : V3 := 0
  snap : V3 := 0
  orientation : Quat := 1
  angularVelocity : V3 := 0
  angularAcceleration : V3 := 0
  dof : Actuation := .dof4

namespace TrajectoryPoint

/-- 228 `getYaw`. -/
noncomputable def getYaw (p : TrajectoryPoint) : ℝ := yawFromQuaternion p.orientation
/-- 229 `getYawRate`. -/
def getYawRate (p : TrajectoryPoint) : ℝ := p.angularVelocity 2
/-- 230 `getYawAcc`. -/
def getYawAcc (p : TrajectoryPoint) : ℝ := p.angularAcceleration 2
/-- 232-234 `setFromYaw`. -/
noncomputable def setFromYaw (p : TrajectoryPoint) (yaw : ℝ) : TrajectoryPoint :=
  { p with orientation := quaternionFromYaw yaw }
/-- 235-239 `setFromYawRate`. -/
def setFromYawRate (p : TrajectoryPoint) (rate : ℝ) : TrajectoryPoint :=
  { p with angularVelocity := ![0, 0, rate] }
/-- 240-244 `setFromYawAcc`. -/
def setFromYawAcc (p : TrajectoryPoint) (acc : ℝ) : TrajectoryPoint :=
  { p with angularAcceleration := ![0, 0, acc] }

end TrajectoryPoint

/-- `Eigen::Affine3d`: `x ↦ linear x + translation`, with what `rotation()` (the rotation part of the linear part's
polar decomposition, computed by Eigen with an SVD) returns. -/
structure Affine where
  linear : M3
  translation : V3
  rotation : M3

/-- `eigen_mav_msgs.hpp` 267-280 `operator*(Affine3d, EigenTrajectoryPoint)`. Eigen multiplies a matrix and a
quaternion by converting the quaternion to a matrix, and the product is converted back to a quaternion. -/
noncomputable def Affine.apply (a : Affine) (p : TrajectoryPoint) : TrajectoryPoint :=
  { p with
    position := a.linear *ᵥ p.position + a.translation
    velocity := a.rotation *ᵥ p.velocity
    acceleration := a.rotation *ᵥ p.acceleration
    jerk := a.rotation *ᵥ p.jerk
    snap := a.rotation *ᵥ p.snap
    orientation := quatOfMatrix (a.rotation * quatToMatrix p.orientation)
    angularVelocity := a.rotation *ᵥ p.angularVelocity
    angularAcceleration := a.rotation *ᵥ p.angularAcceleration }

/-- `eigen_mav_msgs.hpp` 282-330 `EigenOdometry`, without the covariances. -/
structure Odometry where
  timestampNs : ℤ := -1
  position : V3 := 0
  orientation : Quat := 1
  velocityBody : V3 := 0
  angularVelocityBody : V3 := 0

namespace Odometry

/-- 309 `getYaw`. -/
noncomputable def getYaw (o : Odometry) : ℝ := yawFromQuaternion o.orientation
/-- 310-312 `getEulerAngles`. -/
noncomputable def getEulerAngles (o : Odometry) : Res V3 := getEulerAnglesFromQuaternion o.orientation
/-- 313 `getYawRate`. -/
def getYawRate (o : Odometry) : ℝ := o.angularVelocityBody 2
/-- 315-317 `setFromYaw`. -/
noncomputable def setFromYaw (o : Odometry) (yaw : ℝ) : Odometry := { o with orientation := quaternionFromYaw yaw }
/-- 318-322 `setFromYawRate`. -/
def setFromYawRate (o : Odometry) (rate : ℝ) : Odometry := { o with angularVelocityBody := ![0, 0, rate] }
/-- 324-326 `getVelocityWorld`. -/
def getVelocityWorld (o : Odometry) : V3 := quatRotate o.orientation o.velocityBody
/-- 327-329 `setVelocityWorld`. -/
noncomputable def setVelocityWorld (o : Odometry) (v : V3) : Odometry :=
  { o with velocityBody := quatRotate (quatInverse o.orientation) v }

end Odometry

end Verif.Mav
