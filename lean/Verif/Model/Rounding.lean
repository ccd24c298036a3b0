import Mathlib.Data.Real.Basic
import Verif.Model.Trajectory

/-!
# Evaluation of trajectories with rounding

The other files model `double` by exact numbers. Here every arithmetic operation is followed by a rounding function `rnd`. Sources:
`subpackages/mav_trajectory_generation/include/mav_trajectory_generation/polynomial.h` (`polynomial.h`), `.../trajectory.h` (`trajectory.h`), `src/segment.cpp` and
`src/trajectory.cpp` of the same package. Overflow, underflow and special values are not modelled. A multiplication and the following addition are rounded separately (no
fused multiply-add). The table of factorials is exact in double precision (`C103_table_exact`).
-/

namespace Verif.Fl

variable (rnd : ℝ → ℝ)

/-- `polynomial.h` 144-147: `for (j = hi - 1; j >= lo; --j) { acc *= t; acc += row[j] * c[j]; }`; `a j` is the rounded product. -/
def hornerLoop (a : Nat → ℝ) (t : ℝ) (lo : Nat) : Nat → ℝ → ℝ
  | 0, acc => acc
  | j + 1, acc => if lo ≤ j then hornerLoop a t lo j (rnd (rnd (acc * t) + a j)) else acc

/-- `polynomial.h` 143-146: the rounded product `row[j] * coefficients_[j]`. -/
def rowTerm (c : Poly ℝ) (d j : Nat) : ℝ := rnd ((baseEntry d j : ℝ) * c.getD j 0)

/-- `polynomial.h` 136-149 `double evaluate(double t, int derivative) const`. -/
def polyEvaluate (c : Poly ℝ) (t : ℝ) (d : Nat) : Res ℝ :=
  if c.length ≤ d then .ok 0
  else if kMaxConvolutionSize < c.length then .error .ub
  else .ok (hornerLoop rnd (rowTerm rnd c d) t d (c.length - 1) (rowTerm rnd c d (c.length - 1)))

/-- `segment.cpp` 51-58 `evaluate`. -/
def segmentEvaluate (s : Segment ℝ) (t : ℝ) (d : Nat) : Res (List ℝ) := s.polys.mapM fun p => polyEvaluate rnd p t d

/-- `trajectory.h` 66-70 (`addSegments`) and `trajectory.cpp` 367-377 (`scaleSegmentTimes`): how the maximum time is summed up. -/
def addTimes : List (Segment ℝ) → ℝ → ℝ
  | [], acc => acc
  | s :: ss, acc => addTimes ss (rnd (acc + s.time))

/-- `trajectory.cpp` 49-64: the search loop; returns `accumulated_time` and `i` after the loop. -/
noncomputable def findSegment (t : ℝ) : List (Segment ℝ) → ℝ → Nat → ℝ × Nat
  | [], acc, i => (acc, i)
  | s :: ss, acc, i => if rnd (acc + s.time) > t then (rnd (acc + s.time), i) else findSegment t ss (rnd (acc + s.time)) (i + 1)

/-- `trajectory.cpp` 48-79 `evaluate`; as in the exact model the index of an empty trajectory is undefined behaviour. -/
noncomputable def evaluate (D : Nat) (segs : List (Segment ℝ)) (t : ℝ) (k : Nat) : Res (List ℝ) :=
  let r := findSegment rnd t segs 0 0
  if t > r.1 then .ok (List.replicate D 0)
  else do
    let i := if segs.length ≤ r.2 then segs.length - 1 else r.2
    let s ← at? segs i
    segmentEvaluate rnd s (rnd (t - rnd (r.1 - s.time))) k

/-- `trajectory.cpp` 121-140: the sampling loop of `evaluateRange`, as in the exact model (`Trajectory.rangeLoop`). -/
noncomputable def rangeLoop (segs : List (Segment ℝ)) (tEnd dt : ℝ) (k : Nat) : Nat → ℝ → Nat → ℝ → List (ℝ × List ℝ) → Res (List (ℝ × List ℝ))
  | 0, acc, _, _, out => if acc < tEnd then .error .hang else .ok out
  | fuel + 1, acc, i, tau, out =>
    if acc < tEnd then do
      let s ← at? segs i
      if tau > s.time then
        if segs.length ≤ i + 1 then return out
        else rangeLoop segs tEnd dt k fuel acc (i + 1) (rnd (tau - s.time)) out
      else do
        let v ← segmentEvaluate rnd s tau k
        rangeLoop segs tEnd dt k fuel (rnd (acc + dt)) i (rnd (tau + dt)) (out ++ [(acc, v)])
    else .ok out

/-- `trajectory.cpp` 81-141 `evaluateRange`, as in the exact model (`Trajectory.evaluateRange`). -/
noncomputable def evaluateRange (fuel : Nat) (segs : List (Segment ℝ)) (tStart tEnd dt : ℝ) (k : Nat) : Res (List (ℝ × List ℝ)) :=
  if dt = 0 ∨ rnd (rnd (rnd (tEnd - tStart) / dt) + 1) ≤ -1 then .error .ub
  else
    let r := findSegment rnd tStart segs 0 0
    if tStart > r.1 then .ok []
    else do
      let s ← at? segs r.2
      rangeLoop rnd segs tEnd dt k fuel (rnd (r.1 - s.time)) r.2 (rnd (tStart - rnd (r.1 - s.time))) []

end Verif.Fl
