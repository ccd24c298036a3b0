import Verif.Spec.Trajectory
import Verif.Model.SampledExtrema

/-!
# Specification: candidates for extrema among samples
-/

namespace Verif.Spec

/-- The Euclidean length of a vector. -/
noncomputable def euclid (v : List ℝ) : ℝ := Real.sqrt (v.map fun x => x ^ 2).sum

/-- The Euclidean length of the `k`-th derivative of a segment. -/
noncomputable def segMagnitude (s : Segment ℝ) (k : ℕ) (t : ℝ) : ℝ := euclid (segDeriv s k t)

/-- Sample `i` in `[t0, t1]`: every `dt` as long as it fits, then the end. -/
noncomputable def samplePoint (t0 t1 dt : ℝ) (i : ℕ) : ℝ := if t0 + i * dt ≤ t1 then t0 + i * dt else t1

/-- At sample `i` of the function `m` the samples change between going down and not going down. -/
def TurnsAt (m : ℕ → ℝ) (i : ℕ) : Prop := ¬(m i < m (i - 1) ↔ m (i + 1) < m i)

/-- The indices of the inner samples at which the magnitude turns and the next derivative is shorter than 1/100; `n` samples fit. -/
noncomputable def innerCandidates (s : Segment ℝ) (k : ℕ) (t0 t1 dt : ℝ) (n : ℕ) : List ℕ :=
  open Classical in
  (List.range' 1 n).filter fun i => TurnsAt (fun i => segMagnitude s k (samplePoint t0 t1 dt i)) i ∧ segMagnitude s (k + 1) (samplePoint t0 t1 dt i) < 1 / 100

end Verif.Spec
