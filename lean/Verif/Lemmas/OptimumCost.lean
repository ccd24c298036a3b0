import Verif.Spec.OptimumCost
import Verif.Lemmas.OptimumReverse

/-!
# Lemmas: a curve cut in two within a segment
-/

namespace Verif.Lemmas

open Verif Verif.Spec Verif.Properties Polynomial

/-- A polynomial from `r` on. -/
noncomputable def laterPoly (r : ℝ) (p : Poly ℝ) : Poly ℝ := List.ofFn fun i : Fin p.length => ((ofCoeffs p).comp (X + C r)).coeff i

theorem ofCoeffs_laterPoly (r : ℝ) (p : Poly ℝ) : ofCoeffs (laterPoly r p) = (ofCoeffs p).comp (X + C r) := by
  by_cases hp : p = []
  · subst hp
    simp [laterPoly, ofCoeffs_nil]
  · ext i
    unfold laterPoly
    rw [coeff_ofCoeffs, ofFn_getD]
    split
    · rfl
    · rename_i hi
      refine (coeff_eq_zero_of_natDegree_lt ?_).symm
      rw [natDegree_comp, natDegree_X_add_C, mul_one]
      exact (natDegree_ofCoeffs_lt hp).trans_le (by omega)

theorem iterate_derivative_later (f : ℝ[X]) (r : ℝ) (k : ℕ) : derivative^[k] (f.comp (X + C r)) = (derivative^[k] f).comp (X + C r) := by
  induction k with
  | zero => rfl
  | succ k ih =>
    rw [Function.iterate_succ_apply', ih, derivative_comp, Function.iterate_succ_apply']
    simp

theorem derivAt_laterPoly (r : ℝ) (p : Poly ℝ) (k : ℕ) (x : ℝ) : derivAt (laterPoly r p) k x = derivAt p k (x + r) := by
  unfold derivAt
  rw [ofCoeffs_laterPoly, iterate_derivative_later, eval_comp, eval_add, eval_X, eval_C]

/-- The first part of a segment. -/
def firstSeg (x : ℝ) (s : Segment ℝ) : Segment ℝ := ⟨s.N, x, s.polys⟩

/-- The second part of a segment. -/
noncomputable def laterSeg (x : ℝ) (s : Segment ℝ) : Segment ℝ := ⟨s.N, s.time - x, s.polys.map (laterPoly x)⟩

theorem laterSeg_deriv (x : ℝ) (s : Segment ℝ) (k : ℕ) (y : ℝ) : segDeriv (laterSeg x s) k y = segDeriv s k (y + x) := by
  unfold segDeriv laterSeg
  rw [List.map_map]
  exact List.map_congr_left fun p _ => derivAt_laterPoly x p k y

theorem cut_energy (d : ℕ) (x : ℝ) (s : Segment ℝ) : segEnergy d (firstSeg x s) + segEnergy d (laterSeg x s) = segEnergy d s := by
  unfold segEnergy firstSeg laterSeg
  rw [List.map_map]
  simp only
  induction s.polys with
  | nil => simp
  | cons p l ih =>
    simp only [List.map_cons, List.sum_cons, Function.comp]
    have h1 : polyEnergy d x p + polyEnergy d (s.time - x) (laterPoly x p) = polyEnergy d s.time p := by
      unfold polyEnergy
      simp only [derivAt_laterPoly]
      rw [intervalIntegral.integral_comp_add_right (fun y => derivAt p d y ^ 2), zero_add, sub_add_cancel]
      exact intervalIntegral.integral_add_adjacent_intervals (((Polynomial.continuous _).pow 2).intervalIntegrable _ _)
        (((Polynomial.continuous _).pow 2).intervalIntegrable _ _)
    linarith

section
variable {h dim i : ℕ} {q : Problem ℝ} {u : Vertex ℝ} {x : ℝ} {a : List (Segment ℝ)} {s : Segment ℝ}

/-- A curve with segment `i` cut in two. -/
noncomputable def cutCurve (i : ℕ) (x : ℝ) (s : Segment ℝ) (a : List (Segment ℝ)) : List (Segment ℝ) :=
  a.take i ++ firstSeg x s :: laterSeg x s :: a.drop (i + 1)

theorem ins_get {α : Type} (l : List α) (y z : α) (hi : i ≤ l.length) (j : ℕ) :
    (l.take i ++ y :: z :: l.drop (i + 1))[j]? = if j < i then l[j]? else if j = i then some y else if j = i + 1 then some z else l[j - 1]? := by
  rcases Nat.lt_trichotomy j i with h | rfl | h
  · rw [if_pos h, List.getElem?_append_left (by rw [List.length_take]; omega), List.getElem?_take_of_lt h]
  · rw [if_neg (by omega), if_pos rfl, List.getElem?_append_right (by rw [List.length_take]; omega), List.length_take, Nat.min_eq_left hi, Nat.sub_self]
    rfl
  · rw [if_neg (by omega), if_neg (by omega), List.getElem?_append_right (by rw [List.length_take]; omega), List.length_take, Nat.min_eq_left hi]
    obtain ⟨m, rfl⟩ := Nat.exists_eq_add_of_lt h
    rw [show i + m + 1 - i = m + 1 by omega, List.getElem?_cons_succ]
    cases m with
    | zero => simp
    | succ m =>
      rw [if_neg (by omega), List.getElem?_cons_succ, List.getElem?_drop]
      congr 1
      omega

theorem ins_get1 {α : Type} (l : List α) (y : α) (hi : i + 1 ≤ l.length) (j : ℕ) :
    (l.take (i + 1) ++ y :: l.drop (i + 1))[j]? = if j ≤ i then l[j]? else if j = i + 1 then some y else l[j - 1]? := by
  rcases Nat.lt_trichotomy j (i + 1) with h | rfl | h
  · rw [if_pos (by omega), List.getElem?_append_left (by rw [List.length_take]; omega), List.getElem?_take_of_lt h]
  · rw [if_neg (by omega), if_pos rfl, List.getElem?_append_right (by rw [List.length_take]; omega), List.length_take, Nat.min_eq_left hi, Nat.sub_self]
    rfl
  · rw [if_neg (by omega), if_neg (by omega), List.getElem?_append_right (by rw [List.length_take]; omega), List.length_take, Nat.min_eq_left hi]
    obtain ⟨m, rfl⟩ := Nat.exists_eq_add_of_lt h
    rw [show i + 1 + m + 1 - (i + 1) = m + 1 by omega, List.getElem?_cons_succ, List.getElem?_drop]
    congr 1

theorem cut_candidate (hl : q.vertices.length = q.times.length + 1) (ha : Candidate h dim q a) (hs : a[i]? = some s)
    (hu : ∀ k < h, ∀ c, u.getConstraint (k : ℕ) = some c → segDeriv s k x = c) : Candidate h dim (withVertex i x u q) (cutCurve i x s a) := by
  have hlen : a.length = q.times.length := by rw [← ha.times, List.length_map]
  have hi : i < a.length := by
    by_contra hc
    rw [List.getElem?_eq_none (by omega)] at hs
    cases hs
  have hsm := List.mem_of_getElem? hs
  have ht : q.times.getD i 0 = s.time := by rw [List.getD_eq_getElem?_getD, ← ha.times, List.getElem?_map, hs]; rfl
  have seg : ∀ {j : ℕ} {y : Segment ℝ}, (cutCurve i x s a)[j]? = some y →
      (j < i ∧ a[j]? = some y) ∨ (j = i ∧ y = firstSeg x s) ∨ (j = i + 1 ∧ y = laterSeg x s) ∨ (i + 2 ≤ j ∧ a[j - 1]? = some y) := by
    intro j y hy
    unfold cutCurve at hy
    rw [ins_get _ _ _ hi.le] at hy
    split at hy
    · exact .inl ⟨by assumption, hy⟩
    · split at hy
      · exact .inr (.inl ⟨by assumption, (Option.some.inj hy).symm⟩)
      · split at hy
        · exact .inr (.inr (.inl ⟨by assumption, (Option.some.inj hy).symm⟩))
        · exact .inr (.inr (.inr ⟨by omega, hy⟩))
  have vtx : ∀ j, (withVertex i x u q).vertices[j]? = if j ≤ i then q.vertices[j]? else if j = i + 1 then some u else q.vertices[j - 1]? :=
    fun j => ins_get1 _ _ (by omega) j
  have mem : ∀ y ∈ cutCurve i x s a, y ∈ a ∨ y = firstSeg x s ∨ y = laterSeg x s := by
    intro y hy
    unfold cutCurve at hy
    rcases List.mem_append.mp hy with hy | hy
    · exact .inl (List.mem_of_mem_take hy)
    · rcases List.mem_cons.mp hy with hy | hy
      · exact .inr (.inl hy)
      · rcases List.mem_cons.mp hy with hy | hy
        · exact .inr (.inr hy)
        · exact .inl (List.mem_of_mem_drop hy)
  have e0 : ∀ k, segDeriv (firstSeg x s) k 0 = segDeriv s k 0 := fun k => rfl
  have e1 : ∀ k, segDeriv (firstSeg x s) k (firstSeg x s).time = segDeriv s k x := fun k => rfl
  have e2 : ∀ k, segDeriv (laterSeg x s) k 0 = segDeriv s k x := fun k => by rw [laterSeg_deriv, zero_add]
  have e3 : ∀ k, segDeriv (laterSeg x s) k (laterSeg x s).time = segDeriv s k s.time := fun k => by
    rw [laterSeg_deriv, show (laterSeg x s).time = s.time - x from rfl, sub_add_cancel]
  refine ⟨?_, ?_, ?_, ?_, ?_⟩
  · unfold cutCurve withVertex
    simp only [List.map_append, List.map_cons, List.map_take, List.map_drop, ha.times, ht]
    rfl
  · intro y hy
    rcases mem y hy with hy | rfl | rfl
    · exact ha.dims y hy
    · exact ha.dims s hsm
    · simpa [laterSeg] using ha.dims s hsm
  · intro y hy p hp
    rcases mem y hy with hy | rfl | rfl
    · exact ha.degree y hy p hp
    · exact ha.degree s hsm p hp
    · obtain ⟨r, hr, rfl⟩ := List.mem_map.mp hp
      simpa [laterPoly] using ha.degree s hsm r hr
  · intro j y hy k c hk
    rcases seg hy with ⟨h1, h2⟩ | ⟨rfl, rfl⟩ | ⟨rfl, rfl⟩ | ⟨h1, h2⟩
    · refine ⟨fun v hv hc => (ha.constraints j y h2 k c hk).1 v ?_ hc, fun v hv hc => (ha.constraints j y h2 k c hk).2 v ?_ hc⟩
      · rwa [vtx, if_pos (by omega)] at hv
      · rwa [vtx, if_pos (by omega)] at hv
    · refine ⟨fun v hv hc => ?_, fun v hv hc => ?_⟩
      · rw [vtx, if_pos le_rfl] at hv
        rw [e0]
        exact (ha.constraints j s hs k c hk).1 v hv hc
      · rw [vtx, if_neg (by omega), if_pos rfl] at hv
        obtain rfl := Option.some.inj hv
        rw [e1]
        exact hu k hk c hc
    · refine ⟨fun v hv hc => ?_, fun v hv hc => ?_⟩
      · rw [vtx, if_neg (by omega), if_pos rfl] at hv
        obtain rfl := Option.some.inj hv
        rw [e2]
        exact hu k hk c hc
      · rw [vtx, if_neg (by omega), if_neg (by omega)] at hv
        rw [e3]
        exact (ha.constraints i s hs k c hk).2 v hv hc
    · refine ⟨fun v hv hc => (ha.constraints _ y h2 k c hk).1 v ?_ hc, fun v hv hc => (ha.constraints _ y h2 k c hk).2 v ?_ hc⟩
      · rwa [vtx, if_neg (by omega), if_neg (by omega)] at hv
      · rw [vtx, if_neg (by omega), if_neg (by omega)] at hv
        rw [← hv]
        congr 1
        omega
  · intro j y z hy hz k hk
    rcases seg hy with ⟨h1, h2⟩ | ⟨rfl, rfl⟩ | ⟨rfl, rfl⟩ | ⟨h1, h2⟩
    · rcases seg hz with ⟨g1, g2⟩ | ⟨g1, rfl⟩ | ⟨g1, _⟩ | ⟨g1, _⟩
      · exact ha.smooth j y z h2 g2 k hk
      · rw [e0]
        exact ha.smooth j y s h2 (by rw [g1]; exact hs) k hk
      · omega
      · omega
    · rcases seg hz with ⟨g1, _⟩ | ⟨g1, _⟩ | ⟨g1, rfl⟩ | ⟨g1, _⟩
      · omega
      · omega
      · rw [e1, e2]
      · omega
    · rcases seg hz with ⟨g1, _⟩ | ⟨g1, _⟩ | ⟨g1, _⟩ | ⟨g1, g2⟩
      · omega
      · omega
      · omega
      · rw [e3]
        exact ha.smooth i s z hs g2 k hk
    · rcases seg hz with ⟨g1, _⟩ | ⟨g1, _⟩ | ⟨g1, _⟩ | ⟨g1, g2⟩
      · omega
      · omega
      · omega
      · refine ha.smooth (j - 1) y z h2 ?_ k hk
        rw [← g2]
        congr 1
        omega

theorem cutCurve_energy (d : ℕ) (hs : a[i]? = some s) : energy d (cutCurve i x s a) = energy d a := by
  have e : a = a.take i ++ s :: a.drop (i + 1) := by
    obtain ⟨hi, rfl⟩ := List.getElem?_eq_some_iff.mp hs
    rw [← List.drop_eq_getElem_cons hi, List.take_append_drop]
  conv_rhs => rw [e]
  have h1 := cut_energy d x s
  unfold segEnergy at h1
  unfold energy cutCurve
  simp only [List.map_append, List.map_cons, List.sum_append, List.sum_cons]
  rw [← h1, add_assoc]

end

end Verif.Lemmas
