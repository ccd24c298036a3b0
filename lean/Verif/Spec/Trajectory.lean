import Verif.Spec.Polynomial
import Verif.Model.Trajectory

/-!
# Specification vocabulary for segments and trajectories

Only the data types of the model are used here (`Segment`, `Trajectory` and their fields), no function of it.
-/

namespace Verif.Spec

variable {K : Type*} [CommRing K]

/-- Value of the `k`-th derivative of all dimensions of a segment at local time `τ`. -/
noncomputable def segDeriv (s : Segment K) (k : ℕ) (τ : K) : List K :=
  s.polys.map fun p => derivAt p k τ

/-- Sum of the durations of the segments. -/
def duration (segs : List (Segment K)) : K := (segs.map (·.time)).sum

/-- Global time at which segment `j` starts: sum of the durations before it. -/
def startOf (segs : List (Segment K)) (j : ℕ) : K := duration (segs.take j)

/-- All polynomials have the declared number of coefficients, which fits the table of the library. -/
def Regular (s : Segment K) : Prop := (∀ p ∈ s.polys, p.length = s.N) ∧ s.N ≤ 22

/-- A trajectory whose segments are regular and agree with its declared `D`, `N` and maximum time; this is what the constructing
operations establish (property C10). -/
def Consistent (tr : Trajectory K) : Prop :=
  tr.maxTime = duration tr.segments ∧ ∀ s ∈ tr.segments, s.polys.length = tr.D ∧ s.N = tr.N

/-- Euclidean magnitude over the listed dimensions of the `k`-th derivative at local time `τ`. -/
noncomputable def magnitude (s : Segment ℝ) (dims : List ℕ) (k : ℕ) (τ : ℝ) : ℝ :=
  Real.sqrt ((dims.map fun d => derivAt (s.polys.getD d []) k τ ^ 2).sum)

end Verif.Spec
