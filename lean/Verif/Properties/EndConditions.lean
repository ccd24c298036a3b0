import Verif.Lemmas.LinearOptMatrix
import Verif.Model.Vertex

/-!
# Property C155: the order up to which the conditions at both ends determine a polynomial
-/

set_option linter.unusedSectionVars false

namespace Verif.Properties
open Verif Verif.Spec Verif.LinOpt

section
variable {K : Type*} [Field K] [LinearOrder K] [IsStrictOrderedRing K]

/-- The polynomial with coefficients `c` has at 0 and `T` the derivatives `a` and `b` of all orders up to `d`. -/
def MeetsEnds (d : ℤ) (T : K) (a b : ℕ → K) (c : List K) : Prop := ∀ k : ℕ, (k : ℤ) ≤ d → derivAt c k 0 = a k ∧ derivAt c k T = b k

theorem highest_even (h : ℕ) (k : ℕ) : ((k : ℤ) ≤ getHighestDerivativeFromN ((h + h : ℕ) : ℤ)) ↔ k < h := by
  unfold getHighestDerivativeFromN
  rw [Int.tdiv_eq_ediv_of_nonneg (by positivity)]
  omega

theorem highest_odd (h : ℕ) (k : ℕ) : ((k : ℤ) ≤ getHighestDerivativeFromN ((h + h + 1 : ℕ) : ℤ)) ↔ k < h := by
  unfold getHighestDerivativeFromN
  rw [Int.tdiv_eq_ediv_of_nonneg (by positivity)]
  omega

theorem derivAt_replicate (n k : ℕ) (t : K) : derivAt (List.replicate n (0 : K)) k t = 0 := by
  have h0 : ofCoeffs (List.replicate n (0 : K)) = 0 := by
    ext i
    rw [coeff_ofCoeffs, Polynomial.coeff_zero, List.getD_eq_getElem?_getD, List.getElem?_replicate]
    split <;> rfl
  unfold derivAt
  rw [h0, Polynomial.iterate_derivative_zero, Polynomial.eval_zero]

/-- C155: for an even number `N` of coefficients, prescribing the derivatives up to `getHighestDerivativeFromN(N)` at both ends of a segment leaves exactly one
polynomial, whatever is prescribed. -/
theorem C155_determines (N : ℕ) (hN : Even N) (T : K) (hT : T ≠ 0) (a b : ℕ → K) :
    ∃! c : List K, c.length = N ∧ MeetsEnds (getHighestDerivativeFromN N) T a b c := by
  obtain ⟨h, rfl⟩ := hN
  have hdet : IsUnit (endpointMap h T).det := (endpointMap_det_ne_zero h T hT).isUnit
  have hmeets : ∀ c : Fin (h + h) → K, MeetsEnds (getHighestDerivativeFromN ((h + h : ℕ) : ℤ)) T a b (List.ofFn c) ↔
      (endpointMap h T).mulVec c = Fin.addCases (fun k : Fin h => a k) (fun k : Fin h => b k) := by
    intro c
    constructor
    · intro hc
      funext r
      refine Fin.addCases (fun i => ?_) (fun i => ?_) r
      · rw [endpointMap_mulVec_start, Fin.addCases_left]
        exact (hc i ((highest_even h i).mpr i.2)).1
      · rw [endpointMap_mulVec_end, Fin.addCases_right]
        exact (hc i ((highest_even h i).mpr i.2)).2
    · intro hc k hk
      have hk := (highest_even h k).mp hk
      refine ⟨?_, ?_⟩
      · have := endpointMap_mulVec_start T c ⟨k, hk⟩
        rw [hc] at this
        simp only [Fin.addCases_left] at this
        exact this.symm
      · have := endpointMap_mulVec_end T c ⟨k, hk⟩
        rw [hc] at this
        simp only [Fin.addCases_right] at this
        exact this.symm
  refine ⟨List.ofFn ((endpointMap h T)⁻¹.mulVec (Fin.addCases (fun k : Fin h => a k) (fun k : Fin h => b k))), ⟨by simp, ?_⟩, ?_⟩
  · rw [hmeets, Matrix.mulVec_mulVec, Matrix.mul_nonsing_inv _ hdet, Matrix.one_mulVec]
  · rintro c ⟨hl, hc⟩
    obtain ⟨f, rfl⟩ : ∃ f : Fin (h + h) → K, c = List.ofFn f := ⟨fun i => c[i], by
      apply List.ext_getElem
      · simp [hl]
      · intro i h1 h2; simp⟩
    have hf := (hmeets f).mp hc
    rw [← hf, Matrix.mulVec_mulVec, Matrix.nonsing_inv_mul _ hdet, Matrix.one_mulVec]

/-- C155, the order cannot be higher: with one order more there are conditions no polynomial with `N` coefficients meets. -/
theorem C155_not_higher (N : ℕ) (hN : Even N) (T : K) (hT : T ≠ 0) :
    ∃ a b : ℕ → K, ∀ c : List K, c.length = N → ¬ MeetsEnds (getHighestDerivativeFromN N + 1) T a b c := by
  obtain ⟨h, rfl⟩ := hN
  refine ⟨fun k => if k = h then 1 else 0, fun _ => 0, fun c hl hc => ?_⟩
  have hh : ((h : ℕ) : ℤ) ≤ getHighestDerivativeFromN ((h + h : ℕ) : ℤ) + 1 := by
    unfold getHighestDerivativeFromN
    rw [Int.tdiv_eq_ediv_of_nonneg (by positivity)]
    omega
  obtain ⟨d, _, hd⟩ := C155_determines (h + h) ⟨h, rfl⟩ T hT (fun _ => 0) (fun _ => 0)
  have hz : MeetsEnds (getHighestDerivativeFromN ((h + h : ℕ) : ℤ)) T (fun _ => 0) (fun _ => 0) c := by
    intro k hk
    obtain ⟨h1, h2⟩ := hc k (by omega)
    have := (highest_even h k).mp hk
    simp only [if_neg (show ¬ k = h by omega)] at h1
    exact ⟨h1, h2⟩
  have hr : MeetsEnds (getHighestDerivativeFromN ((h + h : ℕ) : ℤ)) T (fun _ => 0) (fun _ => 0) (List.replicate (h + h) (0 : K)) := by
    exact fun k _ => ⟨derivAt_replicate _ k 0, derivAt_replicate _ k T⟩
  have e : c = List.replicate (h + h) 0 := (hd c ⟨hl, hz⟩).trans (hd _ ⟨by simp, hr⟩).symm
  have h1 := (hc h hh).1
  simp only [if_true] at h1
  rw [e] at h1
  rw [derivAt_replicate] at h1
  exact zero_ne_one h1

/-- C155, odd numbers of coefficients: the conditions up to `getHighestDerivativeFromN(N)` at both ends never determine the polynomial; whatever meets them can be
changed and still meets them. -/
theorem C155_odd (N : ℕ) (hN : Odd N) (T : K) (a b : ℕ → K) (c : List K) (hl : c.length = N)
    (hc : MeetsEnds (getHighestDerivativeFromN N) T a b c) : ∃ c', c' ≠ c ∧ c'.length = N ∧ MeetsEnds (getHighestDerivativeFromN N) T a b c' := by
  obtain ⟨h, rfl⟩ := hN
  have hN : 2 * h + 1 = h + h + 1 := by omega
  rw [hN] at hc hl ⊢
  obtain ⟨Q, hQ⟩ : ∃ Q : Polynomial K, Q = Polynomial.X ^ h * (Polynomial.X - Polynomial.C T) ^ h := ⟨_, rfl⟩
  have hmon : Q.Monic := by
    rw [hQ]
    exact (Polynomial.monic_X_pow h).mul ((Polynomial.monic_X_sub_C T).pow h)
  have hdeg : Q.natDegree = h + h := by
    rw [hQ, ((Polynomial.monic_X_pow h).natDegree_mul ((Polynomial.monic_X_sub_C T).pow h)), Polynomial.natDegree_X_pow,
      (Polynomial.monic_X_sub_C T).natDegree_pow, Polynomial.natDegree_X_sub_C, mul_one]
  have hroot : ∀ x : K, (Polynomial.X - Polynomial.C x) ^ h ∣ Q → ∀ k < h, (Polynomial.derivative^[k] Q).eval x = 0 := by
    intro x hx k hk
    have h1 := Polynomial.pow_sub_dvd_iterate_derivative_of_pow_dvd k hx
    have h2 : (Polynomial.X - Polynomial.C x) ∣ Polynomial.derivative^[k] Q := (dvd_pow_self _ (by omega)).trans h1
    exact Polynomial.dvd_iff_isRoot.mp h2
  have h0 : ∀ k < h, (Polynomial.derivative^[k] Q).eval 0 = 0 := hroot 0 ⟨(Polynomial.X - Polynomial.C T) ^ h, by rw [hQ, Polynomial.C_0, sub_zero]⟩
  have hT : ∀ k < h, (Polynomial.derivative^[k] Q).eval T = 0 := hroot T ⟨Polynomial.X ^ h, by rw [hQ, mul_comm]⟩
  obtain ⟨c', hc'⟩ : ∃ c' : List K, c' = List.ofFn (fun i : Fin (h + h + 1) => c.getD i 0 + Q.coeff i) := ⟨_, rfl⟩
  have hlen : c'.length = h + h + 1 := by rw [hc', List.length_ofFn]
  have hof : ofCoeffs c' = ofCoeffs c + Q := by
    ext i
    rw [Polynomial.coeff_add, coeff_ofCoeffs, coeff_ofCoeffs]
    by_cases hi : i < h + h + 1
    · rw [List.getD_eq_getElem _ _ (by omega)]
      simp only [hc', List.getElem_ofFn]
    · rw [List.getD_eq_default _ _ (by omega), List.getD_eq_default _ _ (by omega), Polynomial.coeff_eq_zero_of_natDegree_lt (by omega), add_zero]
  have hder : ∀ k t, derivAt c' k t = derivAt c k t + (Polynomial.derivative^[k] Q).eval t := by
    intro k t
    unfold derivAt
    rw [hof, iterate_map_add, Polynomial.eval_add]
  refine ⟨c', ?_, hlen, ?_⟩
  · rintro rfl
    rw [left_eq_add] at hof
    exact hmon.ne_zero hof
  · intro k hk
    have hk' := (highest_odd h k).mp hk
    obtain ⟨h1, h2⟩ := hc k hk
    rw [hder, hder, h0 k hk', hT k hk', add_zero, add_zero]
    exact ⟨h1, h2⟩

/-- The cubic from 1 to 0 in two seconds, at rest at both ends, meets its end conditions up to the order the function gives for four coefficients; among the
polynomials with five coefficients it is not the only one. -/
example : MeetsEnds (getHighestDerivativeFromN 4) (2 : ℚ) (fun k => if k = 0 then 1 else 0) (fun _ => 0) [1, 0, -3 / 4, 1 / 4] := by
  intro k hk
  have hk : k < 2 := (highest_even 2 k).mp hk
  interval_cases k <;> norm_num [derivAt, ofCoeffs, Finset.sum_range_succ, Polynomial.derivative_mul, Polynomial.derivative_pow]

end

end Verif.Properties
