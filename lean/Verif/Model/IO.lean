import Mathlib.Algebra.Order.Floor.Ring
import Verif.Model.Trajectory
import Verif.Model.Sampling

/-!
# Model of `io.cpp`

All line numbers without a file name are of `subpackages/mav_trajectory_generation/src/io.cpp`. A YAML document is a tree here;
writing it as text and parsing the text again is in `Model/YamlText.lean`. The behaviour of the accessors
on nodes of the wrong kind is that of yaml-cpp 0.7. The output pointers are not null.
-/

namespace Verif.IO

variable {K : Type}

/-- A `YAML::Node`. Scalars that read as an integer, as another number and as neither are kept apart. `undefined` is what the accessors
return for a missing key or index. -/
inductive Yaml (K : Type) where
  | undefined
  | null
  | int (z : ℤ)
  | real (x : K)
  | text (s : List Char)
  | seq (l : List (Yaml K))
  | map (l : List (String × Yaml K))

namespace Yaml

/-- `node["key"]` on a constant node. A scalar throws `BadSubscript`, an undefined node `InvalidNode`. -/
def get (y : Yaml K) (key : String) : Res (Yaml K) :=
  match y with
  | map l => .ok ((l.lookup key).getD undefined)
  | null => .ok undefined
  | seq _ => .ok undefined
  | _ => .error .exc

/-- `node[i]` on a constant node. (Maps have string keys here.) -/
def idx (y : Yaml K) (i : Nat) : Res (Yaml K) :=
  match y with
  | seq l => .ok (l.getD i undefined)
  | map _ => .ok undefined
  | null => .ok undefined
  | _ => .error .exc

/-- `if (node)`: `IsDefined`. -/
def isDefined : Yaml K → Bool
  | undefined => false
  | _ => true

/-- `IsSequence()`: throws `InvalidNode` on an undefined node. -/
def isSequence : Yaml K → Res Bool
  | undefined => .error .exc
  | seq _ => .ok true
  | _ => .ok false

/-- `size()`: throws `InvalidNode` on an undefined node; 0 for scalars. -/
def size : Yaml K → Res Nat
  | undefined => .error .exc
  | seq l => .ok l.length
  | map l => .ok l.length
  | _ => .ok 0

/-- `as<int>()`: throws `TypedBadConversion` unless the scalar is an integer that fits. (A scalar written from a floating point number
is taken not to read as an integer; the code never does that with its own output.) -/
def asInt : Yaml K → Res ℤ
  | int z => if -2 ^ 31 ≤ z ∧ z < 2 ^ 31 then .ok z else .error .exc
  | _ => .error .exc

/-- `as<uint64_t>()`. -/
def asUInt64 : Yaml K → Res ℕ
  | int z => if 0 ≤ z ∧ z < 2 ^ 64 then .ok z.toNat else .error .exc
  | _ => .error .exc

/-- `as<double>()`. -/
def asDouble [Ring K] : Yaml K → Res K
  | int z => .ok z
  | real x => .ok x
  | _ => .error .exc

end Yaml

section Segments
variable [Field K] [LinearOrder K] [IsStrictOrderedRing K] [FloorRing K]

/-- `segment.h` 58-60 `getTimeNSec`: conversion of a floating point number to `uint64_t`, undefined when it does not fit. -/
def getTimeNSec (s : Segment K) : Res ℕ :=
  if s.time * 1000000000 ≤ -1 ∨ 2 ^ 64 ≤ s.time * 1000000000 then .error .ub
  else .ok ⌊s.time * 1000000000⌋.toNat

/-- `segment.h` 63 `setTimeNSec`. -/
def setTimeNSec (s : Segment K) (ns : ℕ) : Segment K := { s with time := ns / 1000000000 }

/-- 35-41 `coefficientsToYaml`. -/
def coefficientsToYaml (c : Poly K) : Yaml K := .seq (c.map .real)

/-- 43-54 `segmentToYaml`: `push_back` on the missing key creates the sequence, so without dimensions there is no such key. -/
def segmentToYaml (s : Segment K) : Res (Yaml K) := do
  let ns ← getTimeNSec s
  let head : List (String × Yaml K) := [("N", .int s.N), ("D", .int s.D), ("time", .int ns)]
  return .map (if s.polys = [] then head else head ++ [("coefficients", .seq (s.polys.map coefficientsToYaml))])

/-- 56-62 `segmentsToYaml`: a null node if there are no segments. -/
def segmentsToYaml (segs : List (Segment K)) : Res (Yaml K) := do
  let ys ← segs.mapM segmentToYaml
  return if segs = [] then .null else .map [("segments", .seq ys)]

/-- 64-68 `trajectoryToYaml`. -/
def trajectoryToYaml (tr : Trajectory K) : Res (Yaml K) := segmentsToYaml tr.segments

/-- 70-79 `coefficientsFromYaml`; `none` is `return false`. -/
def coefficientsFromYaml (y : Yaml K) : Res (Option (Poly K)) := do
  if ¬ (← y.isSequence) then return none
  let n ← y.size
  let c ← (List.range n).mapM fun i => do (← y.idx i).asDouble
  return some c

/-- `Segment(int N, int D)` with values from a document: a negative size of the vector throws, a negative size of a polynomial is
undefined behaviour. -/
def makeSegment (N D : ℤ) : Res (Segment K) :=
  if N < 0 then .error .ub else if D < 0 then .error .exc else .ok (Segment.mk' N.toNat D.toNat)

/-- 93-97: the loop over the dimensions. The assignment converts the vector to a polynomial of any size. -/
def coefficientsLoop (y : Yaml K) : ℕ → ℕ → Res (Option (List (Poly K)))
  | _, 0 => .ok (some [])
  | i, n + 1 => do
    match ← coefficientsFromYaml (← y.idx i) with
    | none => return none
    | some c =>
      match ← coefficientsLoop y (i + 1) n with
      | none => return none
      | some cs => return some (c :: cs)

/-- 81-102 `segmentFromYaml`; `none` is `return false` (what is left in the output then is not modelled). -/
def segmentFromYaml (y : Yaml K) : Res (Option (Segment K)) := do
  if ¬ (← y.get "N").isDefined then return none
  if ¬ (← y.get "D").isDefined then return none
  if ¬ (← y.get "time").isDefined then return none
  if ¬ (← y.get "coefficients").isDefined then return none
  if ¬ (← (← y.get "coefficients").isSequence) then return none
  let N ← (← y.get "N").asInt
  let D ← (← y.get "D").asInt
  let s : Segment K ← makeSegment N D
  match ← coefficientsLoop (← y.get "coefficients") 0 s.D with
  | none => return none
  | some cs =>
    let ns ← (← y.get "time").asUInt64
    return some (setTimeNSec { s with polys := cs } ns)

/-- 109-111: the loop over the segments. -/
def segmentsLoop (y : Yaml K) : ℕ → ℕ → Res (Option (List (Segment K)))
  | _, 0 => .ok (some [])
  | i, n + 1 => do
    match ← segmentFromYaml (← y.idx i) with
    | none => return none
    | some s =>
      match ← segmentsLoop y (i + 1) n with
      | none => return none
      | some ss => return some (s :: ss)

/-- 104-114 `segmentsFromYaml`. -/
def segmentsFromYaml (y : Yaml K) : Res (Option (List (Segment K))) := do
  if ¬ (← y.isSequence) then return none
  segmentsLoop y 0 (← y.size)

/-- 116-124 `trajectoryFromYaml`; `setSegments` checks. -/
def trajectoryFromYaml (y : Yaml K) : Res (Option (Trajectory K)) := do
  match ← segmentsFromYaml (← y.get "segments") with
  | none => return none
  | some segs => return some (← Trajectory.setSegments segs)

/-! ## Files -/

/-- 143-151: the first `N` coefficients, read without a bounds check. -/
def firstCoefficients (N : ℕ) (c : Poly K) : Res (Yaml K) := do
  let cs ← (List.range N).mapM fun j => at? c j
  return .seq (cs.map .real)

/-- 132-153: one segment. -/
def segmentToTree (s : Segment K) : Res (Yaml K) := do
  let ns ← getTimeNSec s
  let cs ← s.polys.mapM (firstCoefficients s.N)
  return .map [("N", .int s.N), ("D", .int s.D), ("time", .int ns), ("coefficients", .seq cs)]

/-- 126-167 `segmentsToFile`: the document written, and whether the file could be opened. -/
def segmentsToFile (canOpen : Bool) (segs : List (Segment K)) : Res (Bool × Option (Yaml K)) := do
  let ys ← segs.mapM segmentToTree
  return if canOpen then (true, some (.map [("segments", .seq ys)])) else (false, none)

/-- 199-208: the loop over the coefficients of one segment; `none` is `return false`. -/
def fileCoefficients (N : ℕ) (y : Yaml K) : ℕ → ℕ → Res (Option (List (Poly K)))
  | _, 0 => .ok (some [])
  | j, n + 1 => do
    let row ← y.idx j
    if (← row.size) ≠ N then return none
    let c ← (List.range N).mapM fun k => do (← row.idx k).asDouble
    match ← fileCoefficients N y (j + 1) n with
    | none => return none
    | some cs => return some (c :: cs)

/-- 185-212: one segment; `none` is `return false`. -/
def segmentFromTree (y : Yaml K) : Res (Option (Segment K)) := do
  if (← y.get "N").isDefined ∧ (← y.get "D").isDefined ∧ (← y.get "time").isDefined ∧ (← y.get "coefficients").isDefined then
    let N ← (← y.get "N").asInt
    let D ← (← y.get "D").asInt
    let s : Segment K ← makeSegment N D
    let ns ← (← y.get "time").asUInt64
    if (← (← y.get "coefficients").size) ≠ s.D then return none
    match ← fileCoefficients s.N (← y.get "coefficients") 0 s.D with
    | none => return none
    | some cs => return some (setTimeNSec { s with polys := cs } ns)
  else return none

/-- 184-213: the loop over the segments; the segments before a faulty one stay in the output. -/
def fileSegments (y : Yaml K) : ℕ → ℕ → Res (Bool × List (Segment K))
  | _, 0 => .ok (true, [])
  | i, n + 1 => do
    match ← segmentFromTree (← y.idx i) with
    | none => return (false, [])
    | some s =>
      let r ← fileSegments y (i + 1) n
      return (r.1, s :: r.2)

/-- 169-219 `segmentsFromFile`; `none` is a file that cannot be read, which leaves the output as it was. -/
def segmentsFromFile (file : Option (Yaml K)) (old : List (Segment K)) : Res (Bool × List (Segment K)) :=
  match file with
  | none => .ok (false, old)
  | some y => do
    let segs ← y.get "segments"
    if segs.isDefined then fileSegments segs 0 (← segs.size) else return (false, [])

/-- `io.h` 44-50 `trajectoryToFile`. -/
def trajectoryToFile (canOpen : Bool) (tr : Trajectory K) : Res (Bool × Option (Yaml K)) := segmentsToFile canOpen tr.segments

/-- `io.h` 55-62 `trajectoryFromFile`: the segments are set whether or not the file could be read. -/
def trajectoryFromFile (file : Option (Yaml K)) : Res (Bool × Trajectory K) := do
  let r ← segmentsFromFile file []
  return (r.1, ← Trajectory.setSegments r.2)

end Segments

/-! ## Table of sampled states -/

/-- 237-258: one row of the table without its last entry. -/
def tableRow (st : Mav.TrajectoryPoint) : List ℝ :=
  [(st.timeFromStartNs : ℝ), st.position 0, st.position 1, st.position 2, st.velocity 0, st.velocity 1, st.velocity 2,
    st.acceleration 0, st.acceleration 1, st.acceleration 2, st.jerk 0, st.jerk 1, st.jerk 2, st.snap 0, st.snap 1, st.snap 2,
    st.orientation.re, st.orientation.imI, st.orientation.imJ, st.orientation.imK, st.angularVelocity 0, st.angularVelocity 1,
    st.angularVelocity 2, st.angularAcceleration 0, st.angularAcceleration 1, st.angularAcceleration 2, 0]

/-- 261-269: `output(j, 26) = current_segment_time` for every segment, without a check that the table has that many rows. -/
def writeSegmentTimes : List (Segment ℝ) → ℕ → ℝ → List (List ℝ) → Res (List (List ℝ))
  | [], _, _, table => .ok table
  | s :: ss, j, acc, table => do
    let row ← at? table j
    writeSegmentTimes ss (j + 1) (acc + s.time) (table.set j (row.set 26 (acc + s.time)))

/-- 221-279 `sampledTrajectoryStatesToFile`: what is written to the file, `none` if nothing is. -/
noncomputable def sampledTrajectoryStatesToFile (fuel : ℕ) (canOpen : Bool) (tr : Trajectory ℝ) :
    Res (Bool × Option (List (List ℝ))) := do
  let r ← Sampling.sampleWholeTrajectory fuel tr (1 / 100) []
  if ¬ r.1 then return (false, none)
  let table ← writeSegmentTimes tr.segments 0 0 (r.2.map tableRow)
  return if canOpen then (true, some table) else (false, none)

end Verif.IO
