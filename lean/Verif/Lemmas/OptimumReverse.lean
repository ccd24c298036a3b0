import Verif.Spec.OptimumReverse
import Verif.Lemmas.OptimumFrame

/-!
# Lemmas: optimal curves flown backwards are optimal
-/

namespace Verif.Lemmas

open Verif Verif.Spec Verif.Properties Polynomial

/-- A polynomial run backwards from `T`. -/
noncomputable def backPoly (T : ℝ) (p : Poly ℝ) : Poly ℝ := List.ofFn fun i : Fin p.length => ((ofCoeffs p).comp (C T - X)).coeff i

theorem natDegree_ofCoeffs_lt {p : List ℝ} (hp : p ≠ []) : (ofCoeffs p).natDegree < p.length := by
  have hl : 0 < p.length := List.length_pos_iff.mpr hp
  rw [Nat.lt_iff_le_pred hl, natDegree_le_iff_coeff_eq_zero]
  intro i hi
  rw [coeff_ofCoeffs, List.getD_eq_getElem?_getD, List.getElem?_eq_none (by omega)]
  rfl

theorem ofCoeffs_backPoly (T : ℝ) (p : Poly ℝ) : ofCoeffs (backPoly T p) = (ofCoeffs p).comp (C T - X) := by
  by_cases hp : p = []
  · subst hp
    simp [backPoly, ofCoeffs_nil]
  · ext i
    unfold backPoly
    rw [coeff_ofCoeffs, ofFn_getD]
    split
    · rfl
    · rename_i hi
      refine (coeff_eq_zero_of_natDegree_lt ?_).symm
      rw [natDegree_comp]
      have h1 : (C T - X : ℝ[X]).natDegree = 1 := by
        rw [← natDegree_neg, neg_sub, natDegree_X_sub_C]
      rw [h1, mul_one]
      exact (natDegree_ofCoeffs_lt hp).trans_le (by omega)

theorem iterate_derivative_back (T : ℝ) (f : ℝ[X]) (k : ℕ) : derivative^[k] (f.comp (C T - X)) = C ((-1) ^ k) * (derivative^[k] f).comp (C T - X) := by
  induction k with
  | zero => simp
  | succ k ih =>
    rw [Function.iterate_succ_apply', ih, derivative_C_mul, derivative_comp, ← Function.iterate_succ_apply' (f := derivative)]
    simp only [derivative_sub, derivative_C, derivative_X, zero_sub, pow_succ, C_mul, C_neg, C_1]
    ring

theorem derivAt_backPoly (T : ℝ) (p : Poly ℝ) (k : ℕ) (x : ℝ) : derivAt (backPoly T p) k x = (-1) ^ k * derivAt p k (T - x) := by
  unfold derivAt
  rw [ofCoeffs_backPoly, iterate_derivative_back, eval_mul, eval_C, eval_comp, eval_sub, eval_C, eval_X]

/-- A segment flown backwards. -/
noncomputable def backSeg (s : Segment ℝ) : Segment ℝ := ⟨s.N, s.time, s.polys.map (backPoly s.time)⟩

theorem backSeg_deriv (s : Segment ℝ) (k : ℕ) (x : ℝ) : segDeriv (backSeg s) k x = backValue k (segDeriv s k (s.time - x)) := by
  unfold segDeriv backSeg backValue
  rw [List.map_map, List.map_map]
  refine List.map_congr_left fun p _ => ?_
  simp only [Function.comp]
  rw [derivAt_backPoly, zpow_natCast]

theorem backSeg_energy (d : ℕ) (s : Segment ℝ) : segEnergy d (backSeg s) = segEnergy d s := by
  unfold segEnergy backSeg
  rw [List.map_map]
  congr 1
  refine List.map_congr_left fun p _ => ?_
  simp only [Function.comp]
  unfold polyEnergy
  have h1 : ∀ x, derivAt (backPoly s.time p) d x ^ 2 = (fun y => derivAt p d y ^ 2) (s.time - x) := fun x => by
    rw [derivAt_backPoly, mul_pow, ← pow_mul, mul_comm d, pow_mul, neg_one_sq, one_pow, one_mul]
  simp only [h1]
  rw [intervalIntegral.integral_comp_sub_left (fun y => derivAt p d y ^ 2), sub_self, sub_zero]

theorem backVertex_get (v : Vertex ℝ) (k : Int) : (backVertex v).getConstraint k = (v.getConstraint k).map (backValue k) :=
  find_map_value (fun (j : Int) (c : List ℝ) => backValue j c) k v.constraints

theorem back_back (k : Int) (c : List ℝ) : backValue k (backValue k c) = c := by
  unfold backValue
  rw [List.map_map]
  conv_rhs => rw [← List.map_id c]
  refine List.map_congr_left fun x _ => ?_
  simp only [Function.comp, id]
  rw [← mul_assoc, ← mul_zpow]
  norm_num

theorem backVertex_back (v : Vertex ℝ) : backVertex (backVertex v) = v := by
  obtain ⟨D, l⟩ := v
  unfold backVertex
  simp only [List.map_map]
  congr 1
  conv_rhs => rw [← List.map_id l]
  refine List.map_congr_left fun x _ => ?_
  simp only [Function.comp, id, back_back]

theorem backProblem_back (q : Problem ℝ) : backProblem (backProblem q) = q := by
  obtain ⟨vs, ts, d⟩ := q
  unfold backProblem
  simp only [List.map_reverse, List.reverse_reverse, List.map_map]
  congr 1
  conv_rhs => rw [← List.map_id vs]
  exact List.map_congr_left fun v _ => backVertex_back v

theorem back_candidate {h dim : ℕ} {q : Problem ℝ} (hl : q.vertices.length = q.times.length + 1) {a : List (Segment ℝ)} (ha : Candidate h dim q a) :
    Candidate h dim (backProblem q) (a.map backSeg).reverse := by
  have hn : a.length = q.times.length := by rw [← ha.times, List.length_map]
  have get : ∀ (i : ℕ) s', (a.map backSeg).reverse[i]? = some s' → i < a.length ∧ ∃ s, a[a.length - 1 - i]? = some s ∧ s' = backSeg s := by
    intro i s' hi
    have hlt : i < a.length := by
      by_contra hc
      rw [List.getElem?_eq_none (by simpa using hc)] at hi
      cases hi
    rw [List.getElem?_reverse (by simpa using hlt), List.getElem?_map, Option.map_eq_some_iff, List.length_map] at hi
    obtain ⟨s, h1, h2⟩ := hi
    exact ⟨hlt, s, h1, h2.symm⟩
  have vget : ∀ (i : ℕ) v', (backProblem q).vertices[i]? = some v' → i ≤ a.length ∧ ∃ v, q.vertices[a.length - i]? = some v ∧ v' = backVertex v := by
    intro i v' hi
    unfold backProblem at hi
    simp only at hi
    have hlt : i < q.vertices.length := by
      by_contra hc
      rw [List.getElem?_eq_none (by simpa using hc)] at hi
      cases hi
    rw [List.getElem?_reverse (by simpa using hlt), List.getElem?_map, Option.map_eq_some_iff, List.length_map] at hi
    obtain ⟨v, h1, h2⟩ := hi
    rw [show q.vertices.length - 1 - i = a.length - i by omega] at h1
    exact ⟨by omega, v, h1, h2.symm⟩
  constructor
  · rw [List.map_reverse, List.map_map]
    unfold backProblem
    simp only
    rw [← ha.times]
    rfl
  · intro s' hs'
    obtain ⟨s, hs, rfl⟩ := List.mem_map.mp (List.mem_reverse.mp hs')
    simpa [backSeg] using ha.dims s hs
  · intro s' hs' p hp
    obtain ⟨s, hs, rfl⟩ := List.mem_map.mp (List.mem_reverse.mp hs')
    obtain ⟨p', hp', rfl⟩ := List.mem_map.mp hp
    simpa [backPoly] using ha.degree s hs p' hp'
  · intro i s' hi k c' hk
    obtain ⟨hlt, s, h1, rfl⟩ := get i s' hi
    constructor
    · intro v' hv' hc'
      obtain ⟨_, v, e1, rfl⟩ := vget i v' hv'
      rw [backVertex_get, Option.map_eq_some_iff] at hc'
      obtain ⟨c, e2, rfl⟩ := hc'
      rw [backSeg_deriv, sub_zero, (ha.constraints _ s h1 k c hk).2 v (by rw [← e1]; congr 1; omega) e2]
    · intro v' hv' hc'
      obtain ⟨_, v, e1, rfl⟩ := vget (i + 1) v' hv'
      rw [backVertex_get, Option.map_eq_some_iff] at hc'
      obtain ⟨c, e2, rfl⟩ := hc'
      rw [backSeg_deriv, show (backSeg s).time = s.time from rfl, sub_self, (ha.constraints _ s h1 k c hk).1 v (by rw [← e1]; congr 1; omega) e2]
  · intro i s' s2' hi hi2 k hk
    obtain ⟨hlt, s, h1, rfl⟩ := get i s' hi
    obtain ⟨hlt2, s2, h2, rfl⟩ := get (i + 1) s2' hi2
    rw [backSeg_deriv, backSeg_deriv, show (backSeg s).time = s.time from rfl, sub_self, sub_zero,
      ha.smooth _ s2 s h2 (by rw [← h1]; congr 1; omega) k hk]

theorem energy_back (d : ℕ) (a : List (Segment ℝ)) : energy d (a.map backSeg).reverse = energy d a := by
  unfold energy
  rw [List.map_reverse, List.sum_reverse, List.map_map]
  congr 1
  exact List.map_congr_left fun s _ => backSeg_energy d s

/-- Optimal curves flown backwards are optimal for the problem flown backwards. -/
theorem back_optimal {h dim : ℕ} {q : Problem ℝ} (hl : q.vertices.length = q.times.length + 1) {a : List (Segment ℝ)} (ho : Optimal h dim q a) :
    Optimal h dim (backProblem q) (a.map backSeg).reverse := by
  refine ⟨back_candidate hl ho.1, fun b hb => ?_⟩
  have h1 := back_candidate (by simp [backProblem, hl]) hb
  rw [backProblem_back] at h1
  have h2 := ho.2 _ h1
  rw [energy_back] at h2 ⊢
  exact h2

end Verif.Lemmas
