import Verif.Spec.OptimumUnique
import Mathlib.LinearAlgebra.Matrix.NonsingularInverse

/-!
# Specification: problems and curves seen from another frame of reference, and in another unit of time
-/

namespace Verif.Spec

/-- The vector `A c + b`. -/
def moveVec {n : ℕ} (A : Matrix (Fin n) (Fin n) ℝ) (b : Fin n → ℝ) (c : List ℝ) : List ℝ := List.ofFn fun i => (∑ j, A i j * c.getD j 0) + b i

/-- A value of order `k` in the new frame: positions are turned and moved, derivatives are turned. -/
noncomputable def moveValue {n : ℕ} (A : Matrix (Fin n) (Fin n) ℝ) (b : Fin n → ℝ) (k : Int) (c : List ℝ) : List ℝ :=
  moveVec A (if k = 0 then b else 0) c

/-- A vertex in the new frame. -/
noncomputable def moveVertex {n : ℕ} (A : Matrix (Fin n) (Fin n) ℝ) (b : Fin n → ℝ) (v : Vertex ℝ) : Vertex ℝ :=
  ⟨n, v.constraints.map fun x => (x.1, moveValue A b x.1 x.2)⟩

/-- A problem in the new frame. -/
noncomputable def moveProblem {n : ℕ} (A : Matrix (Fin n) (Fin n) ℝ) (b : Fin n → ℝ) (q : Problem ℝ) : Problem ℝ :=
  { q with vertices := q.vertices.map (moveVertex A b) }

/-- Turning and mirroring, and enlarging or shrinking by the same factor in all directions; `c` is the square of that factor. -/
def Similarity {n : ℕ} (A : Matrix (Fin n) (Fin n) ℝ) (c : ℝ) : Prop := 0 < c ∧ A.transpose * A = c • (1 : Matrix (Fin n) (Fin n) ℝ)

/-- The second curve is the first in the new frame: the same durations, and every derivative at every instant is that of the first in the new frame. -/
def MovedCurve {n : ℕ} (A : Matrix (Fin n) (Fin n) ℝ) (b : Fin n → ℝ) (a a' : List (Segment ℝ)) : Prop :=
  List.Forall₂ (fun s s' => s'.time = s.time ∧ ∀ (k : ℕ) (x : ℝ), segDeriv s' k x = moveValue A b k (segDeriv s k x)) a a'

/-- A vertex when everything takes `σ` times as long. -/
noncomputable def slowVertex (σ : ℝ) (v : Vertex ℝ) : Vertex ℝ := ⟨v.D, v.constraints.map fun x => (x.1, x.2.map (· / σ ^ x.1))⟩

/-- A problem when everything takes `σ` times as long. -/
noncomputable def slowProblem (σ : ℝ) (q : Problem ℝ) : Problem ℝ :=
  { q with vertices := q.vertices.map (slowVertex σ), times := q.times.map (σ * ·) }

/-- The second curve is the first, flown in `σ` times the time. -/
def SlowedCurve (σ : ℝ) (a a' : List (Segment ℝ)) : Prop :=
  List.Forall₂ (fun s s' => s'.time = σ * s.time ∧ ∀ (k : ℕ) (x : ℝ), segDeriv s' k (σ * x) = (segDeriv s k x).map (· / σ ^ k)) a a'

end Verif.Spec
