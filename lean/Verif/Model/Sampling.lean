import Verif.Model.MavMsgs
import Verif.Model.Trajectory

/-!
# Model of `trajectory_sampling.cpp`

All line numbers without a file name are of `subpackages/mav_trajectory_generation/src/trajectory_sampling.cpp`. Real arithmetic.
The output pointers are not null (`CHECK_NOTNULL` otherwise aborts). A function with an output pointer takes the old value and
returns the new one.
-/

namespace Verif.Sampling

open Mav

/-- Eigen `v.head<3>()`: undefined behaviour for shorter vectors. -/
def head3 : List ℝ → Res V3
  | a :: b :: c :: _ => .ok ![a, b, c]
  | _ => .error .ub

/-- Eigen `v.tail<3>()`: undefined behaviour for shorter vectors. -/
def tail3 (l : List ℝ) : Res V3 := if l.length < 3 then .error .ub else head3 (l.drop (l.length - 3))

/-- 154-177 (and 82-107 in the loop of `sampleTrajectoryInRange`): the fields of one state, except its time. -/
noncomputable def writeState (D : ℕ) (position velocity acceleration jerk snap : List ℝ) (state : TrajectoryPoint) :
    Res TrajectoryPoint := do
  let p ← head3 position
  let v ← head3 velocity
  let a ← head3 acceleration
  let j ← head3 jerk
  let s ← head3 snap
  let state := { state with dof := .dof4, position := p, velocity := v, acceleration := a, jerk := j, snap := s }
  if D = 4 then do
    let yaw ← at? position 3
    let yawRate ← at? velocity 3
    let yawAcc ← at? acceleration 3
    return ((state.setFromYaw yaw).setFromYawRate yawRate).setFromYawAcc yawAcc
  else if D = 6 then do
    let r ← tail3 position
    let r' ← tail3 velocity
    let r'' ← tail3 acceleration
    return { state with
      orientation := quatOfMatrix (matrixFromRotationVector r)
      angularVelocity := omegaFromRotationVector r r'
      angularAcceleration := omegaDotFromRotationVector r r' r''
      dof := .dof6 }
  else return state

/-- 141-182 `sampleFlatStateAtTime`, for anything with a dimension and an evaluation. -/
noncomputable def sampleFlatStateAtTime (D : ℕ) (evaluate : ℝ → ℕ → Res (List ℝ)) (t : ℝ) (state : TrajectoryPoint) :
    Res (Bool × TrajectoryPoint) :=
  if D < 3 then .ok (false, state)
  else do
    let position ← evaluate t 0
    let velocity ← evaluate t 1
    let acceleration ← evaluate t 2
    let jerk ← evaluate t 3
    let snap ← evaluate t 4
    let state ← writeState D position velocity acceleration jerk snap state
    let ns ← toInt64 (t * 1000000000)
    return (true, { state with timeFromStartNs := ns })

/-- 27-43 `sampleTrajectoryAtTime`; `getMinTime()` is 0. -/
noncomputable def sampleTrajectoryAtTime (tr : Trajectory ℝ) (t : ℝ) (state : TrajectoryPoint) : Res (Bool × TrajectoryPoint) :=
  if t < 0 ∨ t > tr.maxTime then .ok (false, state)
  else if tr.D < 3 then .ok (false, state)
  else sampleFlatStateAtTime tr.D tr.evaluate t state

/-- 129-139 `sampleSegmentAtTime`. -/
noncomputable def sampleSegmentAtTime (s : Segment ℝ) (t : ℝ) (state : TrajectoryPoint) : Res (Bool × TrajectoryPoint) :=
  if t < 0 ∨ t > s.time then .ok (false, state)
  else sampleFlatStateAtTime s.D s.evaluate t state

/-- 45-110 `sampleTrajectoryInRange`. `states->resize(n)` keeps the states that are there and appends default ones. `fuel` as in
`Trajectory.evaluateRange`. The time is written before the orientation in the code; it does not matter. -/
noncomputable def sampleTrajectoryInRange (fuel : ℕ) (tr : Trajectory ℝ) (tMin tMax dt : ℝ) (states : List TrajectoryPoint) :
    Res (Bool × List TrajectoryPoint) :=
  if tMin < 0 ∨ tMax > tr.maxTime then .ok (false, states)
  else if tr.D < 3 then .ok (false, states)
  else do
    let position ← tr.evaluateRange fuel tMin tMax dt 0
    let velocity ← tr.evaluateRange fuel tMin tMax dt 1
    let acceleration ← tr.evaluateRange fuel tMin tMax dt 2
    let jerk ← tr.evaluateRange fuel tMin tMax dt 3
    let snap ← tr.evaluateRange fuel tMin tMax dt 4
    let new ← (List.range position.length).mapM fun i => do
      let p ← at? position i
      let v ← at? velocity i
      let a ← at? acceleration i
      let j ← at? jerk i
      let s ← at? snap i
      let state ← writeState tr.D p.2 v.2 a.2 j.2 s.2 (states.getD i {})
      let ns ← toInt64 ((tMin + dt * i) * 1000000000)
      return { state with timeFromStartNs := ns }
    return (true, new)

/-- 112-117 `sampleTrajectoryStartDuration`. -/
noncomputable def sampleTrajectoryStartDuration (fuel : ℕ) (tr : Trajectory ℝ) (start duration dt : ℝ)
    (states : List TrajectoryPoint) : Res (Bool × List TrajectoryPoint) :=
  sampleTrajectoryInRange fuel tr start (start + duration) dt states

/-- 119-127 `sampleWholeTrajectory`. -/
noncomputable def sampleWholeTrajectory (fuel : ℕ) (tr : Trajectory ℝ) (dt : ℝ) (states : List TrajectoryPoint) :
    Res (Bool × List TrajectoryPoint) :=
  sampleTrajectoryInRange fuel tr 0 tr.maxTime dt states

end Verif.Sampling
