import Verif.Model.Segment

/-!
# Model of `mav_trajectory_generation::Trajectory`

Source: `subpackages/mav_trajectory_generation/include/mav_trajectory_generation/trajectory.h` (`trajectory.h`) and
`subpackages/mav_trajectory_generation/src/trajectory.cpp` (`trajectory.cpp`). Exact arithmetic as in `Model/Polynomial.lean`.
Reading vertices back is in `Model/TrajectoryVertices.lean`.
-/

namespace Verif

variable {K : Type*}

/-- `trajectory.h` 143-149. -/
structure Trajectory (K : Type*) where
  D : Nat
  N : Nat
  maxTime : K
  segments : List (Segment K)
  deriving DecidableEq, Repr

namespace Trajectory

section Ring
variable [CommRing K]

/-- `trajectory.h` 34 and 47-52: `Trajectory()` and `clear()`. -/
def empty : Trajectory K := ⟨0, 0, 0, []⟩

/-- `trajectory.h` 66-70: the loop of `addSegments` that checks and accumulates `max_time_`. -/
def addTimes (D N : Nat) : List (Segment K) → K → Res K
  | [], acc => .ok acc
  | s :: ss, acc =>
    if s.D ≠ D then .error .check
    else if s.N ≠ N then .error .check
    else addTimes D N ss (acc + s.time)

/-- `trajectory.h` 65-72 `addSegments`. -/
def addSegments (tr : Trajectory K) (segs : List (Segment K)) : Res (Trajectory K) := do
  let m ← addTimes tr.D tr.N segs tr.maxTime
  return { tr with maxTime := m, segments := tr.segments ++ segs }

/-- `trajectory.h` 54-63 `setSegments`. -/
def setSegments (segs : List (Segment K)) : Res (Trajectory K) :=
  match segs with
  | [] => .error .check
  | s :: _ => addSegments ⟨s.D, s.N, 0, []⟩ segs

/-- `trajectory.cpp` 229-235 `getSegmentTimes`. -/
def getSegmentTimes (tr : Trajectory K) : List K := tr.segments.map (·.time)

/-- `trajectory.cpp` 237-260 `addTrajectories`, loop; the Boolean is the return value (on `false` the segments merged so far stay in
`*merged`). -/
def addTrajectoriesLoop (D N : Nat) : List (Trajectory K) → Trajectory K → Res (Bool × Trajectory K)
  | [], merged => .ok (true, merged)
  | t :: ts, merged =>
    if t.D ≠ D ∨ t.N ≠ N then .ok (false, merged)
    else do
      let m ← merged.addSegments t.segments
      addTrajectoriesLoop D N ts m

/-- `trajectory.cpp` 237-260 `addTrajectories` with an output object different from `*this`. -/
def addTrajectories (tr : Trajectory K) (ts : List (Trajectory K)) : Res (Bool × Trajectory K) :=
  addTrajectoriesLoop tr.D tr.N ts tr

/-- `trajectory.cpp` 237-260 `addTrajectories` when the output object is `*this` itself: line 240 clears it before it is read. -/
def addTrajectoriesInPlace (_tr : Trajectory K) (ts : List (Trajectory K)) : Res (Bool × Trajectory K) :=
  addTrajectoriesLoop 0 0 ts empty

/-- `trajectory.cpp` 262-274 `offsetTrajectory`; the Boolean is the return value. A segment that refuses ends the loop, the
earlier ones stay shifted. -/
def offsetLoop (r : List K) : List (Segment K) → Bool × List (Segment K)
  | [] => (true, [])
  | s :: ss =>
    match s.offsetSegment r with
    | none => (false, s :: ss)
    | some s' => let (b, ss') := offsetLoop r ss; (b, s' :: ss')

/-- `trajectory.cpp` 262-274 `offsetTrajectory`. -/
def offsetTrajectory (tr : Trajectory K) (r : List K) : Bool × Trajectory K :=
  if r.length < min tr.D 3 then (false, tr)
  else
    let (b, ss) := offsetLoop r tr.segments
    (b, { tr with segments := ss })

/-- `trajectory.cpp` 143-159 `getTrajectoryWithSingleDimension`: the new segments are `Segment(N_, 1)` with time 0. A negative
dimension passes the signed `CHECK_LT` and fails the unsigned one in `operator[]`. -/
def getTrajectoryWithSingleDimension (tr : Trajectory K) (dim : Int) : Res (Trajectory K) :=
  if (tr.D : Int) ≤ dim then .error .check
  else do
    let segs ← tr.segments.mapM fun s => do
      let p ← if dim < 0 then .error .check else s.index dim.toNat
      return (⟨tr.N, 0, [p]⟩ : Segment K)
    setSegments segs

end Ring

section Field
variable [Field K] [LinearOrder K] [IsStrictOrderedRing K]

/-- `trajectory.cpp` 49-64 (and 95-110): the search loop; returns `accumulated_time` and `i` after the loop. -/
def findSegment (t : K) : List (Segment K) → K → Nat → K × Nat
  | [], acc, i => (acc, i)
  | s :: ss, acc, i =>
    if acc + s.time > t then (acc + s.time, i) else findSegment t ss (acc + s.time) (i + 1)

/-- `trajectory.cpp` 48-79 `evaluate`. For an empty trajectory `segments_.size() - 1` wraps around and `segments_[i]` is
undefined behaviour (`at?` on the empty list). -/
def evaluate (tr : Trajectory K) (t : K) (k : Nat) : Res (List K) :=
  let r := findSegment t tr.segments 0 0
  if t > r.1 then .ok (List.replicate tr.D 0)
  else do
    let i := if tr.segments.length ≤ r.2 then tr.segments.length - 1 else r.2
    let s ← at? tr.segments i
    s.evaluate (t - (r.1 - s.time)) k

/-- `trajectory.cpp` 121-140: the sampling loop of `evaluateRange`. State: accumulated time, segment index, time in segment. `fuel`
bounds the number of iterations; running out of it is `hang`. Output: (sampling time, value) pairs. -/
def rangeLoop (segs : List (Segment K)) (tEnd dt : K) (k : Nat) :
    Nat → K → Nat → K → List (K × List K) → Res (List (K × List K))
  | 0, acc, _, _, out => if acc < tEnd then .error .hang else .ok out
  | fuel + 1, acc, i, tau, out =>
    if acc < tEnd then do
      let s ← at? segs i
      if tau > s.time then
        if segs.length ≤ i + 1 then return out
        else rangeLoop segs tEnd dt k fuel acc (i + 1) (tau - s.time) out
      else do
        let v ← s.evaluate tau k
        rangeLoop segs tEnd dt k fuel (acc + dt) i (tau + dt) (out ++ [(acc, v)])
    else .ok out

/-- `trajectory.cpp` 81-141 `evaluateRange`. Line 85 converts `(t_end - t_start) / dt + 1` to `size_t`: undefined for `dt = 0` and
for values `≤ -1`. (Values beyond 2⁶⁴ and allocation failure are not modelled.) Line 117 reads `segments_[i]` without the guard
that `evaluate` has. -/
def evaluateRange (fuel : Nat) (tr : Trajectory K) (tStart tEnd dt : K) (k : Nat) : Res (List (K × List K)) :=
  if dt = 0 ∨ (tEnd - tStart) / dt + 1 ≤ -1 then .error .ub
  else
    let r := findSegment tStart tr.segments 0 0
    if tStart > r.1 then .ok []
    else do
      let s ← at? tr.segments r.2
      rangeLoop tr.segments tEnd dt k fuel (r.1 - s.time) r.2 (tStart - (r.1 - s.time)) []

/-- `trajectory.cpp` 178-185: the loop of `getTrajectoryWithAppendedDimension`; `none` is `return false`. -/
def appendLoop : List (Segment K) → List (Segment K) → Option (List (Segment K))
  | s :: ss, a :: as =>
    match s.getSegmentWithAppendedDimension a, appendLoop ss as with
    | some x, some xs => some (x :: xs)
    | _, _ => none
  | _, _ => some []

/-- `trajectory.cpp` 161-189 `getTrajectoryWithAppendedDimension`; `none` is `return false`. -/
def getTrajectoryWithAppendedDimension (tr a : Trajectory K) : Res (Option (Trajectory K)) :=
  if tr.N = 0 ∨ tr.D = 0 then .ok (some a)
  else if a.N = 0 ∨ a.D = 0 then .ok (some tr)
  else if tr.segments.length ≠ a.segments.length then .error .check
  else match appendLoop tr.segments a.segments with
    | none => .ok none
    | some segs => do
      let r ← setSegments segs
      return some r

/-- `trajectory.cpp` 365-376 and 416-426: the loop that scales all segments and sums the new times. -/
def scaleAll (tr : Trajectory K) (scaling : K) : Trajectory K :=
  let segs := tr.segments.map fun s => s.scale scaling (1 / scaling)
  { tr with segments := segs, maxTime := segs.foldl (fun acc s => acc + s.time) 0 }

/-- `trajectory.cpp` 363-380 `scaleSegmentTimes`. -/
def scaleSegmentTimes (tr : Trajectory K) (scaling : K) : Bool × Trajectory K :=
  if scaling < 1 / 10 ^ 6 then (false, tr) else (true, tr.scaleAll scaling)

end Field

section Real

/-- `trajectory.cpp` 200-225: the loop of `computeMinMaxMagnitude`: returned flag, minimum and maximum. On `false` (a segment with
negative time) the extrema reached so far stay in the output. -/
noncomputable def minMaxLoop (rf : Poly.RootFinder ℝ) (k : Nat) (dims : List Int) :
    List (Segment ℝ) → Nat → Extremum ℝ → Extremum ℝ → Res (Bool × Extremum ℝ × Extremum ℝ)
  | [], _, mn, mx => .ok (true, mn, mx)
  | s :: ss, idx, mn, mx => do
    let cands ← s.computeMinMaxMagnitudeCandidates rf k 0 s.time dims
    match Segment.selectMinMaxMagnitudeFromCandidates 0 s.time cands ⟨0, 0, 0⟩ ⟨0, 0, 0⟩ with
    | none => .ok (false, mn, mx)
    | some (mnc, mxc) =>
      minMaxLoop rf k dims ss (idx + 1)
        (if mnc.value < mn.value then { mnc with segmentIdx := idx } else mn)
        (if mxc.value > mx.value then { mxc with segmentIdx := idx } else mx)

/-- `trajectory.cpp` 191-227 `computeMinMaxMagnitude`. `mn`, `mx` are the objects passed in, whose time and segment index stay unless a
candidate replaces them. -/
noncomputable def computeMinMaxMagnitude (rf : Poly.RootFinder ℝ) (tr : Trajectory ℝ) (k : Nat) (dims : List Int)
    (mn mx : Extremum ℝ) : Res (Bool × Extremum ℝ × Extremum ℝ) :=
  minMaxLoop rf k dims tr.segments 0 { mn with value := Poly.dblMax } { mx with value := -Poly.dblMax }

/-- `trajectory.cpp` 344-361 `computeMaxVelocityAndAcceleration`: success flag, maximum velocity, maximum acceleration, over all
`D_` dimensions. -/
noncomputable def computeMaxVelocityAndAcceleration (rf : Poly.RootFinder ℝ) (tr : Trajectory ℝ) :
    Res (Bool × ℝ × ℝ) := do
  let dims : List Int := (List.range tr.D).map Int.ofNat
  let v ← tr.computeMinMaxMagnitude rf 1 dims ⟨0, 0, 0⟩ ⟨0, 0, 0⟩
  let a ← tr.computeMinMaxMagnitude rf 2 dims ⟨0, 0, 0⟩ ⟨0, 0, 0⟩
  return (v.1 && a.1, v.2.2.value, a.2.2.value)

/-- `trajectory.cpp` 393-427: the loop of `scaleSegmentTimesToMeetConstraints` with `n` iterations left. The success flag of
`computeMaxVelocityAndAcceleration` is ignored (line 398). `sqrt` of a negative number is NaN in the code; `std::max` then keeps its
first argument, which agrees with `Real.sqrt` being 0 there since the result is compared with 1 first. -/
noncomputable def meetLoop (rf : Poly.RootFinder ℝ) (vMax aMax : ℝ) : Nat → Trajectory ℝ → Res (Bool × Trajectory ℝ)
  | 0, tr => .ok (false, tr)
  | n + 1, tr => do
    let va ← tr.computeMaxVelocityAndAcceleration rf
    if va.2.1 / vMax ≤ 1 + 1 / 1000 ∧ va.2.2 / aMax ≤ 1 + 1 / 1000 then .ok (true, tr)
    else meetLoop rf vMax aMax n (tr.scaleAll (max 1 (max (va.2.1 / vMax) (Real.sqrt (va.2.2 / aMax)))))

/-- `trajectory.cpp` 385-429 `scaleSegmentTimesToMeetConstraints`: at most 20 iterations. A zero limit divides by zero. -/
noncomputable def scaleSegmentTimesToMeetConstraints (rf : Poly.RootFinder ℝ) (tr : Trajectory ℝ) (vMax aMax : ℝ) :
    Res (Bool × Trajectory ℝ) :=
  if vMax = 0 ∨ aMax = 0 then .error .nonfinite
  else meetLoop rf vMax aMax 20 tr

end Real

end Trajectory

end Verif
