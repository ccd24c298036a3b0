import Verif.Spec.OptimumFrame
import Verif.Properties.OptimumUnique

/-!
# Lemmas: optimal curves are carried to optimal curves
-/

namespace Verif.Lemmas

open Verif Verif.Spec Verif.Properties Polynomial

/-- `F` carries segments to segments: durations by `τ`, the derivatives at both ends by `φ`. -/
def Carries (h dim : ℕ) (F : Segment ℝ → Segment ℝ) (τ : ℝ → ℝ) (φ : ℕ → List ℝ → List ℝ) : Prop :=
  ∀ s : Segment ℝ, s.polys.length = dim → (∀ p ∈ s.polys, p.length ≤ h + h) →
    (F s).time = τ s.time ∧ (F s).polys.length = dim ∧ (∀ p ∈ (F s).polys, p.length ≤ h + h) ∧
    ∀ k < h, segDeriv (F s) k 0 = φ k (segDeriv s k 0) ∧ segDeriv (F s) k (F s).time = φ k (segDeriv s k s.time)

/-- What the vertices of the second problem prescribe is carried over from the first. -/
def Prescribes (h : ℕ) (φ : ℕ → List ℝ → List ℝ) (q q' : Problem ℝ) : Prop :=
  ∀ (i : ℕ) (v' : Vertex ℝ), q'.vertices[i]? = some v' → ∀ k < h, ∀ c', v'.getConstraint k = some c' →
    ∃ v c, q.vertices[i]? = some v ∧ v.getConstraint k = some c ∧ c' = φ k c

theorem carried_candidate {h dim : ℕ} {F : Segment ℝ → Segment ℝ} {τ : ℝ → ℝ} {φ : ℕ → List ℝ → List ℝ} {q q' : Problem ℝ} (hF : Carries h dim F τ φ)
    (ht : q'.times = q.times.map τ) (hv : Prescribes h φ q q') {a : List (Segment ℝ)} (ha : Candidate h dim q a) : Candidate h dim q' (a.map F) := by
  have key : ∀ s ∈ a, _ := fun s hs => hF s (ha.dims s hs) (ha.degree s hs)
  have get : ∀ (i : ℕ) s', (a.map F)[i]? = some s' → ∃ s, a[i]? = some s ∧ s ∈ a ∧ s' = F s := by
    intro i s' hi
    rw [List.getElem?_map, Option.map_eq_some_iff] at hi
    obtain ⟨s, h1, h2⟩ := hi
    exact ⟨s, h1, List.mem_of_getElem? h1, h2.symm⟩
  constructor
  · rw [ht, ← ha.times, List.map_map, List.map_map]
    exact List.map_congr_left fun s hs => (key s hs).1
  · intro s' hs'
    obtain ⟨s, hs, rfl⟩ := List.mem_map.mp hs'
    exact (key s hs).2.1
  · intro s' hs'
    obtain ⟨s, hs, rfl⟩ := List.mem_map.mp hs'
    exact (key s hs).2.2.1
  · intro i s' hi k c' hk
    obtain ⟨s, h1, hm, rfl⟩ := get i s' hi
    constructor
    · intro v' hv' hc'
      obtain ⟨v, c, e1, e2, rfl⟩ := hv i v' hv' k hk c' hc'
      rw [((key s hm).2.2.2 k hk).1, (ha.constraints i s h1 k c hk).1 v e1 e2]
    · intro v' hv' hc'
      obtain ⟨v, c, e1, e2, rfl⟩ := hv (i + 1) v' hv' k hk c' hc'
      rw [((key s hm).2.2.2 k hk).2, (ha.constraints i s h1 k c hk).2 v e1 e2]
  · intro i s' s2' hi hi2 k hk
    obtain ⟨s, h1, hm, rfl⟩ := get i s' hi
    obtain ⟨s2, h2, hm2, rfl⟩ := get (i + 1) s2' hi2
    rw [((key s hm).2.2.2 k hk).2, ((key s2 hm2).2.2.2 k hk).1, ha.smooth i s s2 h1 h2 k hk]

/-- The energy of one segment. -/
noncomputable def segEnergy (d : ℕ) (s : Segment ℝ) : ℝ := (s.polys.map (polyEnergy d s.time)).sum

theorem energy_map (d : ℕ) (F : Segment ℝ → Segment ℝ) (c : ℝ) (a : List (Segment ℝ)) (h : ∀ s ∈ a, segEnergy d (F s) = c * segEnergy d s) :
    energy d (a.map F) = c * energy d a := by
  unfold energy
  rw [List.map_map, ← List.sum_map_mul_left]
  congr 1
  exact List.map_congr_left fun s hs => h s hs

/-- Carrying over in both directions, with the energy multiplied by the same factor for all curves, carries optimal curves to optimal curves. -/
theorem carried_optimal {h dim : ℕ} {F G : Segment ℝ → Segment ℝ} {τ υ : ℝ → ℝ} {φ ψ : ℕ → List ℝ → List ℝ} {q q' : Problem ℝ} {c : ℝ} (hc : 0 < c)
    (hF : Carries h dim F τ φ) (hG : Carries h dim G υ ψ) (ht : q'.times = q.times.map τ) (ht' : q.times = q'.times.map υ) (hv : Prescribes h φ q q')
    (hv' : Prescribes h ψ q' q) (hd : q'.derivative = q.derivative)
    (eF : ∀ s : Segment ℝ, s.polys.length = dim → (∀ p ∈ s.polys, p.length ≤ h + h) →
      segEnergy q.derivative.toNat (F s) = c * segEnergy q.derivative.toNat s)
    (eG : ∀ s : Segment ℝ, s.polys.length = dim → (∀ p ∈ s.polys, p.length ≤ h + h) →
      segEnergy q.derivative.toNat (G s) = c⁻¹ * segEnergy q.derivative.toNat s)
    {a : List (Segment ℝ)} (ha : Optimal h dim q a) : Optimal h dim q' (a.map F) := by
  refine ⟨carried_candidate hF ht hv ha.1, fun b hb => ?_⟩
  rw [hd, energy_map _ F c a fun s hs => eF s (ha.1.dims s hs) (ha.1.degree s hs)]
  have h1 := ha.2 _ (carried_candidate hG ht' hv' hb)
  rw [energy_map _ G c⁻¹ b fun s hs => eG s (hb.dims s hs) (hb.degree s hs)] at h1
  calc c * energy q.derivative.toNat a ≤ c * (c⁻¹ * energy q.derivative.toNat b) := mul_le_mul_of_nonneg_left h1 hc.le
    _ = _ := by rw [← mul_assoc, mul_inv_cancel₀ hc.ne', one_mul]

theorem find_map_value {α : Type} (f : Int → α → α) (k : Int) (l : List (Int × α)) :
    IntMap.find k (l.map fun x => (x.1, f x.1 x.2)) = (IntMap.find k l).map (f k) := by
  induction l with
  | nil => rfl
  | cons x l ih =>
    rw [List.map_cons, IntMap.find, IntMap.find]
    by_cases hk : k = x.1
    · rw [if_pos hk, if_pos hk, hk]; rfl
    · rw [if_neg hk, if_neg hk, ih]

/-! ## Another frame -/

section
variable {n : ℕ} (A : Matrix (Fin n) (Fin n) ℝ) (b : Fin n → ℝ)

theorem moveVertex_get (v : Vertex ℝ) (k : Int) : (moveVertex A b v).getConstraint k = (v.getConstraint k).map (moveValue A b k) :=
  find_map_value (fun k => moveValue A b k) k v.constraints

/-- A segment in the new frame, with `N` coefficients in each dimension. -/
noncomputable def moveSeg (N : ℕ) (s : Segment ℝ) : Segment ℝ :=
  ⟨s.N, s.time, List.ofFn fun i : Fin n => List.ofFn fun m : Fin N => (∑ j, A i j * (s.polys.getD j []).getD m 0) + if (m : ℕ) = 0 then b i else 0⟩

theorem ofFn_getD {α : Type} {n : ℕ} (f : Fin n → α) (d : α) (j : ℕ) : (List.ofFn f).getD j d = if hj : j < n then f ⟨j, hj⟩ else d := by
  rw [List.getD_eq_getElem?_getD, List.getElem?_ofFn]
  split <;> rfl

theorem moved_poly {N : ℕ} (hN : 0 < N) (ps : List (Poly ℝ)) (hd : ∀ p ∈ ps, p.length ≤ N) (i : Fin n) :
    ofCoeffs (List.ofFn fun m : Fin N => (∑ j, A i j * (ps.getD j []).getD m 0) + if (m : ℕ) = 0 then b i else 0) =
      (∑ j : Fin n, C (A i j) * ofCoeffs (ps.getD j [])) + C (b i) := by
  ext m
  rw [coeff_ofCoeffs, ofFn_getD, coeff_add, finset_sum_coeff, coeff_C]
  have hz : ¬ m < N → ∀ j : Fin n, (ps.getD j []).getD m 0 = 0 := by
    intro hm j
    rw [List.getD_eq_getElem?_getD, List.getElem?_eq_none]
    · rfl
    · by_cases hj : (j : ℕ) < ps.length
      · have : ps.getD j [] ∈ ps := by
          rw [List.getD_eq_getElem?_getD, List.getElem?_eq_getElem hj]; exact List.getElem_mem _
        exact (hd _ this).trans (by omega)
      · rw [List.getD_eq_getElem?_getD, List.getElem?_eq_none (by omega)]; simp
  simp only [coeff_C_mul, coeff_ofCoeffs]
  split
  · rfl
  · rename_i hm
    rw [if_neg (by omega)]
    simp only [hz hm, mul_zero, Finset.sum_const_zero, add_zero]

theorem derivAt_combination (ps : List (Poly ℝ)) (i : Fin n) (p : Poly ℝ)
    (hp : ofCoeffs p = (∑ j : Fin n, C (A i j) * ofCoeffs (ps.getD j [])) + C (b i)) (k : ℕ) (x : ℝ) :
    derivAt p k x = (∑ j : Fin n, A i j * derivAt (ps.getD j []) k x) + if k = 0 then b i else 0 := by
  unfold derivAt
  rw [hp, iterate_map_add, iterate_derivative_sum, eval_add, eval_finsetSum]
  congr 1
  · refine Finset.sum_congr rfl fun j _ => ?_
    rw [iterate_derivative_C_mul, eval_C_mul]
  · rcases Nat.eq_zero_or_pos k with rfl | hk
    · simp
    · rw [iterate_derivative_C hk, if_neg hk.ne', eval_zero]

theorem segDeriv_getD (s : Segment ℝ) (k : ℕ) (x : ℝ) (j : ℕ) : (segDeriv s k x).getD j 0 = derivAt (s.polys.getD j []) k x := by
  unfold segDeriv
  rw [List.getD_eq_getElem?_getD, List.getD_eq_getElem?_getD, List.getElem?_map]
  cases s.polys[j]? with
  | none => simp [derivAt, ofCoeffs]
  | some p => rfl

theorem moveSeg_deriv {N : ℕ} (hN : 0 < N) (s : Segment ℝ) (hd : ∀ p ∈ s.polys, p.length ≤ N) (k : ℕ) (x : ℝ) :
    segDeriv (moveSeg A b N s) k x = moveValue A b k (segDeriv s k x) := by
  have hl : (segDeriv (moveSeg A b N s) k x) = List.ofFn fun i : Fin n => derivAt (List.ofFn fun m : Fin N =>
      (∑ j, A i j * (s.polys.getD j []).getD m 0) + if (m : ℕ) = 0 then b i else 0) k x := by
    unfold segDeriv moveSeg
    rw [List.map_ofFn]
    rfl
  rw [hl]
  unfold moveValue moveVec
  congr 1
  funext i
  rw [derivAt_combination A b s.polys i _ (moved_poly A b hN s.polys hd i)]
  simp only [segDeriv_getD]
  congr 1
  by_cases hk : k = 0
  · simp [hk]
  · rw [if_neg hk, if_neg (by exact_mod_cast hk)]; rfl

theorem moveSeg_carries {h : ℕ} (hh : 0 < h) : Carries h n (moveSeg A b (h + h)) id (fun k => moveValue A b k) := by
  intro s _ hd
  refine ⟨rfl, by simp [moveSeg], ?_, fun k _ => ⟨moveSeg_deriv A b (by omega) s hd k 0, moveSeg_deriv A b (by omega) s hd k _⟩⟩
  intro p hp
  obtain ⟨i, rfl⟩ := (List.mem_ofFn' _ _).mp hp
  simp

theorem similarity_norm {A : Matrix (Fin n) (Fin n) ℝ} {c : ℝ} (hA : Similarity A c) (y : Fin n → ℝ) :
    ∑ i, (∑ j, A i j * y j) ^ 2 = c * ∑ j, y j ^ 2 := by
  have h1 : ∑ i, (∑ j, A i j * y j) ^ 2 = dotProduct (A.mulVec y) (A.mulVec y) := by
    simp only [dotProduct, Matrix.mulVec, sq]
  have h2 : dotProduct (A.mulVec y) (A.mulVec y) = dotProduct y ((A.transpose * A).mulVec y) := by
    rw [← Matrix.mulVec_mulVec, Matrix.dotProduct_mulVec y, Matrix.vecMul_transpose]
  rw [h1, h2, hA.2, Matrix.smul_mulVec, Matrix.one_mulVec, dotProduct_smul, smul_eq_mul]
  simp only [dotProduct, sq]

theorem polyEnergy_integrable (d : ℕ) (p : Poly ℝ) (t : ℝ) : IntervalIntegrable (fun x => derivAt p d x ^ 2) MeasureTheory.volume 0 t :=
  ((Polynomial.continuous _).pow 2).intervalIntegrable _ _

theorem sum_map_getD {n : ℕ} (l : List (Poly ℝ)) (hl : l.length = n) (f : Poly ℝ → ℝ) : (l.map f).sum = ∑ j : Fin n, f (l.getD j []) := by
  subst hl
  rw [← List.sum_ofFn]
  congr 1
  apply List.ext_getElem
  · simp
  · intro i h1 h2
    simp only [List.getElem_map, List.getElem_ofFn]
    congr 1
    rw [List.getD_eq_getElem?_getD, List.getElem?_eq_getElem (by simpa using h1)]
    rfl

theorem moveSeg_energy {A : Matrix (Fin n) (Fin n) ℝ} {c : ℝ} (hA : Similarity A c) (b : Fin n → ℝ) {N : ℕ} (hN : 0 < N) {d : ℕ} (hd0 : 0 < d)
    (s : Segment ℝ) (hl : s.polys.length = n) (hd : ∀ p ∈ s.polys, p.length ≤ N) : segEnergy d (moveSeg A b N s) = c * segEnergy d s := by
  unfold segEnergy
  rw [sum_map_getD s.polys hl]
  have h1 : ((moveSeg A b N s).polys.map (polyEnergy d (moveSeg A b N s).time)).sum = ∑ i : Fin n, ∫ x in (0 : ℝ)..s.time,
      (∑ j : Fin n, A i j * derivAt (s.polys.getD j []) d x) ^ 2 := by
    have hp : (moveSeg A b N s).polys.length = n := by simp [moveSeg]
    rw [sum_map_getD _ hp]
    refine Finset.sum_congr rfl fun i _ => ?_
    unfold polyEnergy
    refine intervalIntegral.integral_congr fun x _ => ?_
    have : (moveSeg A b N s).polys.getD i [] = List.ofFn fun m : Fin N => (∑ j, A i j * (s.polys.getD j []).getD m 0) + if (m : ℕ) = 0 then b i else 0 := by
      unfold moveSeg
      rw [ofFn_getD, dif_pos i.2]
    rw [this, derivAt_combination A b s.polys i _ (moved_poly A b hN s.polys hd i), if_neg hd0.ne', add_zero]
  rw [h1]
  unfold polyEnergy
  rw [← intervalIntegral.integral_finsetSum, ← intervalIntegral.integral_finsetSum, ← intervalIntegral.integral_const_mul]
  · refine intervalIntegral.integral_congr fun x _ => ?_
    exact similarity_norm hA _
  · exact fun j _ => polyEnergy_integrable d _ _
  · intro i _
    refine Continuous.intervalIntegrable ?_ _ _
    refine Continuous.pow (continuous_finsetSum _ fun j _ => ?_) 2
    exact continuous_const.mul (Polynomial.continuous _)

end

/-! ## The way back -/

section
variable {n : ℕ} {A : Matrix (Fin n) (Fin n) ℝ} {c : ℝ}

theorem similarity_inverse (hA : Similarity A c) : Similarity (c⁻¹ • A.transpose) c⁻¹ ∧ (c⁻¹ • A.transpose) * A = 1 := by
  have h1 : (c⁻¹ • A.transpose) * A = 1 := by
    rw [Matrix.smul_mul, hA.2, smul_smul, inv_mul_cancel₀ hA.1.ne', one_smul]
  have h2 : A * (c⁻¹ • A.transpose) = 1 := mul_eq_one_comm.mp h1
  refine ⟨⟨inv_pos.mpr hA.1, ?_⟩, h1⟩
  rw [Matrix.transpose_smul, Matrix.transpose_transpose, Matrix.smul_mul, h2]

theorem moveValue_back (hA : Similarity A c) (b : Fin n → ℝ) (k : Int) (v : List ℝ) (hv : v.length = n) :
    moveValue (c⁻¹ • A.transpose) (-(c⁻¹ • A.transpose).mulVec b) k (moveValue A b k v) = v := by
  obtain ⟨_, h1⟩ := similarity_inverse hA
  set B := c⁻¹ • A.transpose with hB
  unfold moveValue moveVec
  apply List.ext_getElem
  · simp [hv]
  · intro i hi1 hi2
    have hi : i < n := by simpa using hi1
    rw [List.getElem_ofFn]
    simp only [ofFn_getD]
    have e : ∀ w b' : Fin n → ℝ, (∑ j : Fin n, B ⟨i, hi⟩ j * (if hj : (j : ℕ) < n then (∑ l, A ⟨j, hj⟩ l * w l) + b' ⟨j, hj⟩ else 0)) =
        w ⟨i, hi⟩ + B.mulVec b' ⟨i, hi⟩ := by
      intro w b'
      have e1 : ∀ j : Fin n, (if hj : (j : ℕ) < n then (∑ l, A ⟨j, hj⟩ l * w l) + b' ⟨j, hj⟩ else 0) = A.mulVec w j + b' j := fun j => by
        rw [dif_pos j.2]; rfl
      simp only [e1, mul_add, Finset.sum_add_distrib]
      have e2 : ∑ j, B ⟨i, hi⟩ j * A.mulVec w j = B.mulVec (A.mulVec w) ⟨i, hi⟩ := rfl
      rw [e2, Matrix.mulVec_mulVec, h1, Matrix.one_mulVec]
      rfl
    rw [e (fun l => v.getD l 0)]
    have e3 : v.getD i 0 = v[i] := by rw [List.getD_eq_getElem?_getD, List.getElem?_eq_getElem hi2]; rfl
    simp only [e3]
    by_cases hk : k = 0
    · simp [hk]
    · simp [hk]

theorem moved_prescribes {h : ℕ} (b : Fin n → ℝ) (q : Problem ℝ) : Prescribes h (fun k => moveValue A b k) q (moveProblem A b q) := by
  intro i v' hv' k hk c' hc'
  unfold moveProblem at hv'
  rw [List.getElem?_map, Option.map_eq_some_iff] at hv'
  obtain ⟨v, h1, rfl⟩ := hv'
  rw [moveVertex_get, Option.map_eq_some_iff] at hc'
  obtain ⟨c, h2, rfl⟩ := hc'
  exact ⟨v, c, h1, h2, rfl⟩

theorem moved_prescribes_back {h : ℕ} (hA : Similarity A c) (b : Fin n → ℝ) (q : Problem ℝ)
    (hq : ∀ v ∈ q.vertices, ∀ (k : Int) (c : List ℝ), k < h → v.getConstraint k = some c → c.length = n) :
    Prescribes h (fun k => moveValue (c⁻¹ • A.transpose) (-(c⁻¹ • A.transpose).mulVec b) k) (moveProblem A b q) q := by
  intro i v hv k hk c' hc'
  refine ⟨moveVertex A b v, moveValue A b k c', ?_, ?_, ?_⟩
  · unfold moveProblem; rw [List.getElem?_map, hv]; rfl
  · rw [moveVertex_get, hc']; rfl
  · exact (moveValue_back hA b k c' (hq v (List.mem_of_getElem? hv) k c' (by exact_mod_cast hk) hc')).symm

/-- Optimal curves are optimal in the new frame. -/
theorem moved_optimal {h : ℕ} (hA : Similarity A c) (b : Fin n → ℝ) (q : Problem ℝ) (ha : AcceptableProblem h n q) (hd : 0 < q.derivative)
    {a : List (Segment ℝ)} (ho : Optimal h n q a) : Optimal h n (moveProblem A b q) (a.map (moveSeg A b (h + h))) := by
  have hh : 0 < h := by have := ha.2.1; omega
  have hdn : 0 < q.derivative.toNat := by omega
  refine carried_optimal hA.1 (moveSeg_carries A b hh) (moveSeg_carries (c⁻¹ • A.transpose) (-(c⁻¹ • A.transpose).mulVec b) hh) (by simp [moveProblem])
    (by simp [moveProblem]) (moved_prescribes b q) (moved_prescribes_back hA b q ha.2.2.2.1) rfl ?_ ?_ ho
  · exact fun s hl hs => moveSeg_energy hA b (by omega) hdn s hl hs
  · exact fun s hl hs => moveSeg_energy (similarity_inverse hA).1 _ (by omega) hdn s hl hs

end

/-! ## Another unit of time -/

/-- A segment flown in `σ` times the time. -/
noncomputable def slowSeg (σ : ℝ) (s : Segment ℝ) : Segment ℝ := ⟨s.N, σ * s.time, s.polys.map fun p => Poly.scaleInTime p σ⁻¹⟩

theorem slowSeg_deriv {σ : ℝ} (hσ : σ ≠ 0) (s : Segment ℝ) (k : ℕ) (x : ℝ) :
    segDeriv (slowSeg σ s) k (σ * x) = (segDeriv s k x).map (· / σ ^ k) := by
  unfold segDeriv slowSeg
  rw [List.map_map, List.map_map]
  refine List.map_congr_left fun p _ => ?_
  simp only [Function.comp]
  rw [derivAt_scaleInTime, ← mul_assoc, inv_mul_cancel₀ hσ, one_mul, inv_pow, div_eq_inv_mul]

theorem slowSeg_carries {h dim : ℕ} {σ : ℝ} (hσ : σ ≠ 0) : Carries h dim (slowSeg σ) (σ * ·) (fun k c => c.map (· / σ ^ k)) := by
  intro s hl hd
  refine ⟨rfl, by simp [slowSeg, hl], ?_, fun k _ => ⟨?_, slowSeg_deriv hσ s k _⟩⟩
  · intro p hp
    obtain ⟨p', h1, rfl⟩ := List.mem_map.mp hp
    rw [length_scaleInTime]; exact hd p' h1
  · have := slowSeg_deriv hσ s k 0
    rwa [mul_zero] at this

theorem slowSeg_energy {σ : ℝ} (hσ : 0 < σ) (d : ℕ) (s : Segment ℝ) : segEnergy d (slowSeg σ s) = σ * (σ⁻¹ ^ d) ^ 2 * segEnergy d s := by
  unfold segEnergy slowSeg
  rw [List.map_map, ← List.sum_map_mul_left]
  congr 1
  refine List.map_congr_left fun p _ => ?_
  simp only [Function.comp]
  unfold polyEnergy
  have h1 : ∀ x, derivAt (Poly.scaleInTime p σ⁻¹) d x ^ 2 = (σ⁻¹ ^ d) ^ 2 * (fun y => derivAt p d y ^ 2) (σ⁻¹ * x) := fun x => by
    rw [derivAt_scaleInTime, mul_pow]
  simp only [h1]
  rw [intervalIntegral.integral_const_mul, intervalIntegral.integral_comp_mul_left (fun y => derivAt p d y ^ 2) (inv_ne_zero hσ.ne'), mul_zero, ← mul_assoc σ⁻¹,
    inv_mul_cancel₀ hσ.ne', one_mul, inv_inv, smul_eq_mul]
  ring

theorem slowVertex_get (σ : ℝ) (v : Vertex ℝ) (k : Int) : (slowVertex σ v).getConstraint k = (v.getConstraint k).map fun c => c.map (· / σ ^ k) :=
  find_map_value (fun (j : Int) (c : List ℝ) => c.map fun x => x / σ ^ j) k v.constraints

theorem slow_back {σ : ℝ} (hσ : σ ≠ 0) (k : ℕ) (c : List ℝ) : (c.map (· / σ ^ k)).map (· / σ⁻¹ ^ k) = c := by
  rw [List.map_map]
  conv_rhs => rw [← List.map_id c]
  refine List.map_congr_left fun x _ => ?_
  simp only [Function.comp, id]
  rw [inv_pow, div_inv_eq_mul, div_mul_cancel₀ _ (pow_ne_zero k hσ)]

/-- Optimal curves are optimal in another unit of time. -/
theorem slowed_optimal {h dim : ℕ} {σ : ℝ} (hσ : 0 < σ) (q : Problem ℝ) {a : List (Segment ℝ)} (ho : Optimal h dim q a) :
    Optimal h dim (slowProblem σ q) (a.map (slowSeg σ)) := by
  refine carried_optimal (c := σ * (σ⁻¹ ^ q.derivative.toNat) ^ 2) (by positivity) (slowSeg_carries hσ.ne')
    (slowSeg_carries (σ := σ⁻¹) (inv_ne_zero hσ.ne')) (q := q) (q' := slowProblem σ q) rfl ?_ ?_ ?_ rfl (fun s _ _ => slowSeg_energy hσ _ s) (fun s _ _ => ?_) ho
  · unfold slowProblem
    simp only [List.map_map]
    conv_lhs => rw [← List.map_id q.times]
    refine List.map_congr_left fun t _ => ?_
    simp only [Function.comp, id]
    rw [← mul_assoc, inv_mul_cancel₀ hσ.ne', one_mul]
  · intro i v' hv' k hk c' hc'
    unfold slowProblem at hv'
    rw [List.getElem?_map, Option.map_eq_some_iff] at hv'
    obtain ⟨v, h1, rfl⟩ := hv'
    rw [slowVertex_get, Option.map_eq_some_iff] at hc'
    obtain ⟨c, h2, rfl⟩ := hc'
    exact ⟨v, c, h1, h2, by simp only [zpow_natCast]⟩
  · intro i v hv k hk c' hc'
    refine ⟨slowVertex σ v, c'.map (· / σ ^ k), ?_, ?_, (slow_back hσ.ne' k c').symm⟩
    · unfold slowProblem; rw [List.getElem?_map, hv]; rfl
    · rw [slowVertex_get, hc']
      simp only [zpow_natCast, Option.map_some]
  · rw [slowSeg_energy (inv_pos.mpr hσ)]
    congr 1
    rw [mul_inv, inv_inv, ← inv_pow, ← inv_pow, inv_inv]

end Verif.Lemmas
