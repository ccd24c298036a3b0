import Mathlib.LinearAlgebra.Dual.Lemmas
import Mathlib.LinearAlgebra.Matrix.ToLin
import Mathlib.Tactic.Linarith

/-!
# Minimising a positive semidefinite quadratic form over part of the variables
-/

set_option linter.unusedSectionVars false

namespace Verif

open Matrix

variable {K : Type*} [Field K]

/-- A symmetric system is solvable if the right-hand side is orthogonal to the kernel. -/
theorem symmetric_solvable {n : Type*} [Fintype n] [DecidableEq n] (A : Matrix n n K) (hA : Aᵀ = A) (b : n → K)
    (hb : ∀ y, A *ᵥ y = 0 → y ⬝ᵥ b = 0) : ∃ x, A *ᵥ x = b := by
  by_contra hne
  have hmem : b ∉ LinearMap.range A.mulVecLin := by
    rintro ⟨x, hx⟩
    exact hne ⟨x, hx⟩
  obtain ⟨φ, hφ, hker⟩ := Submodule.exists_le_ker_of_notMem hmem
  have hrep : ∀ v, φ v = (fun i => φ (Pi.single i 1)) ⬝ᵥ v := by
    intro v
    have hv : v = ∑ i, v i • (Pi.single i 1 : n → K) := by
      funext j
      rw [Finset.sum_apply, Finset.sum_eq_single j] <;> simp +contextual [eq_comm]
    conv_lhs => rw [hv]
    rw [map_sum]
    refine Finset.sum_congr rfl fun i _ => ?_
    rw [map_smul, smul_eq_mul, mul_comm]
  apply hφ
  rw [hrep b]
  apply hb
  funext i
  have h1 := hker ⟨Pi.single i 1, rfl⟩
  rw [LinearMap.mem_ker, hrep, mulVecLin_apply, dotProduct_mulVec, ← mulVec_transpose, hA, dotProduct_single_one] at h1
  exact h1

variable [LinearOrder K] [IsStrictOrderedRing K] {m n : Type*} [Fintype m] [Fintype n]

theorem quad_add (R : Matrix m m K) (hs : Rᵀ = R) (x e : m → K) :
    (x + e) ⬝ᵥ (R *ᵥ (x + e)) = x ⬝ᵥ (R *ᵥ x) + 2 * (e ⬝ᵥ (R *ᵥ x)) + e ⬝ᵥ (R *ᵥ e) := by
  have : x ⬝ᵥ (R *ᵥ e) = e ⬝ᵥ (R *ᵥ x) := by
    rw [dotProduct_mulVec, ← mulVec_transpose, hs, dotProduct_comm]
  rw [mulVec_add, add_dotProduct, dotProduct_add, dotProduct_add, this]
  ring

/-- A stationary point minimises. -/
theorem psd_optimal (R : Matrix (m ⊕ n) (m ⊕ n) K) (hs : Rᵀ = R) (hp : ∀ x, 0 ≤ x ⬝ᵥ (R *ᵥ x)) (f : m → K) (p p' : n → K)
    (h0 : ∀ a, (R *ᵥ Sum.elim f p) (.inr a) = 0) :
    Sum.elim f p ⬝ᵥ (R *ᵥ Sum.elim f p) ≤ Sum.elim f p' ⬝ᵥ (R *ᵥ Sum.elim f p') := by
  have e : Sum.elim f p' = Sum.elim f p + Sum.elim (0 : m → K) (p' - p) := by
    funext j
    cases j <;> simp
  rw [e, quad_add R hs]
  have : Sum.elim (0 : m → K) (p' - p) ⬝ᵥ (R *ᵥ Sum.elim f p) = 0 := by
    rw [dotProduct, Fintype.sum_sum_type]
    simp [h0]
  rw [this]
  have := hp (Sum.elim (0 : m → K) (p' - p))
  linarith

/-- A null vector of the form is in the kernel. -/
theorem psd_null (R : Matrix m m K) (hs : Rᵀ = R) (hp : ∀ x, 0 ≤ x ⬝ᵥ (R *ᵥ x)) (e z : m → K) (he : e ⬝ᵥ (R *ᵥ e) = 0) :
    e ⬝ᵥ (R *ᵥ z) = 0 := by
  by_contra hne
  set b := e ⬝ᵥ (R *ᵥ z) with hb
  set a := z ⬝ᵥ (R *ᵥ z) with ha
  have h1 := hp (z + (-(a + 1) / (2 * b)) • e)
  rw [quad_add R hs, mulVec_smul, dotProduct_smul, smul_dotProduct, smul_dotProduct, ← hb, ← ha, he] at h1
  simp only [smul_eq_mul, mul_zero, add_zero] at h1
  have : 2 * (-(a + 1) / (2 * b) * b) = -(a + 1) := by field_simp
  rw [this] at h1
  linarith

/-- There is a stationary point. -/
theorem psd_solvable [DecidableEq n] (R : Matrix (m ⊕ n) (m ⊕ n) K) (hs : Rᵀ = R) (hp : ∀ x, 0 ≤ x ⬝ᵥ (R *ᵥ x)) (f : m → K) :
    ∃ p : n → K, R.toBlocks₂₂ *ᵥ p = -(R.toBlocks₂₁ *ᵥ f) := by
  apply symmetric_solvable
  · ext i j
    exact congrFun (congrFun hs (.inr i)) (.inr j)
  · intro y hy
    have e1 : ∀ z, Sum.elim (0 : m → K) y ⬝ᵥ z = y ⬝ᵥ fun a => z (.inr a) := by
      intro z
      simp [dotProduct, Fintype.sum_sum_type]
    have e2 : (fun a => (R *ᵥ Sum.elim (0 : m → K) y) (Sum.inr a)) = R.toBlocks₂₂ *ᵥ y := by
      funext a
      simp [mulVec, dotProduct, Fintype.sum_sum_type, toBlocks₂₂]
    have e3 : (fun a => (R *ᵥ Sum.elim f (0 : n → K)) (Sum.inr a)) = R.toBlocks₂₁ *ᵥ f := by
      funext a
      simp [mulVec, dotProduct, Fintype.sum_sum_type, toBlocks₂₁]
    have := psd_null R hs hp (Sum.elim (0 : m → K) y) (Sum.elim f (0 : n → K)) (by rw [e1, e2, hy, dotProduct_zero])
    rw [e1, e3] at this
    rw [dotProduct_neg, this, neg_zero]

theorem mulVec_inr (R : Matrix (m ⊕ n) (m ⊕ n) K) (f : m → K) (p : n → K) (a : n) :
    (R *ᵥ Sum.elim f p) (.inr a) = (R.toBlocks₂₁ *ᵥ f) a + (R.toBlocks₂₂ *ᵥ p) a := by
  simp [mulVec, dotProduct, Fintype.sum_sum_type, toBlocks₂₁, toBlocks₂₂]

end Verif
