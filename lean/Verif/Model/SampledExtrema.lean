import Mathlib.Analysis.Real.Sqrt
import Verif.Model.Trajectory

/-!
# Maxima and costs by sampling

Sources: `mav_trajectory_generation/impl/polynomial_optimization_linear_impl.h` (`lin.h`) and `mav_trajectory_generation/test_utils.h` (`tu.h`). The loops count in
steps of `dt`; `fuel` bounds the number of iterations of the model, running out of it is `hang`.
-/

namespace Verif

/-- Eigen `norm()`. -/
noncomputable def vecNorm (v : List ℝ) : ℝ := Real.sqrt (v.map fun x => x ^ 2).sum

namespace LinOpt

/-- `lin.h` 435-440: a change of direction at the previous sample `tOld` makes it a candidate if the next derivative is small there. `std::signbit` of an exact number: negative. -/
noncomputable def turnCandidate (s : Segment ℝ) (k : Nat) (tOld dir dirNew : ℝ) (cands : List ℝ) : Res (List ℝ) :=
  if ¬((dir < 0) ↔ (dirNew < 0)) then do
    let v ← s.evaluate tOld (k + 1)
    return if vecNorm v < 1 / 100 then cands ++ [tOld] else cands
  else .ok cands

/-- `lin.h` 429-450: the loop. `mOld` is the norm of the value at the previous sample `tOld`. -/
noncomputable def samplingLoop (s : Segment ℝ) (k : Nat) (t1 dt : ℝ) : Nat → ℝ → ℝ → ℝ → ℝ → Bool → List ℝ → Res (List ℝ)
  | 0, t, _, _, _, _, cands => if t ≤ t1 then .error .hang else .ok cands
  | fuel + 1, t, tOld, mOld, dir, last, cands =>
    if t ≤ t1 then do
      let v ← s.evaluate t k
      let dirNew := vecNorm v - mOld
      let cands ← turnCandidate s k tOld dir dirNew cands
      if t + dt > t1 ∧ last = false then samplingLoop s k t1 dt fuel (t1 - dt + dt) t (vecNorm v) dirNew true cands
      else samplingLoop s k t1 dt fuel (t + dt) t (vecNorm v) dirNew last cands
    else .ok cands

/-- `lin.h` 411-456 `computeSegmentMaximumMagnitudeCandidatesBySampling`, on an empty list of candidates. -/
noncomputable def computeSegmentMaximumMagnitudeCandidatesBySampling (fuel : Nat) (s : Segment ℝ) (k : Nat) (t0 t1 dt : ℝ) : Res (List ℝ) := do
  let vNew ← s.evaluate (t0 + dt) k
  let vOld ← s.evaluate t0 k
  let cands ← samplingLoop s k t1 dt fuel (t0 + dt + dt) (t0 + dt) (vecNorm vNew) (vecNorm vNew - vecNorm vOld) false [t0]
  return if cands.getLast? ≠ some t1 then cands ++ [t1] else cands

end LinOpt

/-- `tu.h` 47-52: the loop of `getMaximumMagnitude`. -/
noncomputable def maximumLoop (tr : Trajectory ℝ) (k : Nat) (dt : ℝ) : Nat → ℝ → ℝ → Res ℝ
  | 0, ts, m => if ts < tr.maxTime then .error .hang else .ok m
  | fuel + 1, ts, m =>
    if ts < tr.maxTime then do
      let v ← tr.evaluate ts k
      maximumLoop tr k dt fuel (ts + dt) (if vecNorm v > m then vecNorm v else m)
    else .ok m

/-- `tu.h` 43-54 `getMaximumMagnitude`. -/
noncomputable def getMaximumMagnitude (fuel : Nat) (tr : Trajectory ℝ) (k : Nat) (dt : ℝ) : Res ℝ := maximumLoop tr k dt fuel 0 (-1000000000)

/-- `tu.h` 60-62: the loop of `computeCostNumeric`. -/
noncomputable def costLoop (tr : Trajectory ℝ) (k : Nat) (dt : ℝ) : Nat → ℝ → ℝ → Res ℝ
  | 0, ts, c => if ts < tr.maxTime then .error .hang else .ok c
  | fuel + 1, ts, c =>
    if ts < tr.maxTime then do
      let v ← tr.evaluate ts k
      costLoop tr k dt fuel (ts + dt) (c + (v.map fun x => x ^ 2).sum * dt)
    else .ok c

/-- `tu.h` 56-64 `computeCostNumeric`. -/
noncomputable def computeCostNumeric (fuel : Nat) (tr : Trajectory ℝ) (k : Nat) (dt : ℝ) : Res ℝ := costLoop tr k dt fuel 0 0

end Verif
