import Mathlib.Algebra.Polynomial.Roots
import Mathlib.Algebra.Polynomial.Div
import Mathlib.Data.List.GetD
import Mathlib.Analysis.Complex.Polynomial.Basic
import Verif.Lemmas.RPolyBound

/-!
# Facts about answers of the root finder, and its wrapper
-/

namespace Verif.RPoly

open Polynomial Verif.Spec

theorem arr_eq_descending (p : ℕ → ℝ) : ∀ n, arr p n = descending p n
  | 0 => by simp [arr, descending]
  | n + 1 => by
    rw [arr, arr_eq_descending p n, descending, descending, Finset.sum_range_succ _ (n + 1), Finset.mul_sum]
    simp only [Nat.sub_self, pow_zero, mul_one]
    congr 1
    refine Finset.sum_congr rfl fun i hi => ?_
    have hi' : i ≤ n := by have := Finset.mem_range.mp hi; omega
    rw [show n + 1 - i = (n - i) + 1 by omega, pow_succ]; ring

theorem reverse_getD (t : List ℝ) (n i : ℕ) (h : t.length = n + 1) (hi : i ≤ n) : t.reverse.getD i 0 = t.getD (n - i) 0 := by
  rw [List.getD_eq_getElem?_getD, List.getD_eq_getElem?_getD, List.getElem?_reverse (by omega)]
  congr 2; omega

theorem ofCoeffs_eq_descending (t : List ℝ) (n : ℕ) (h : t.length = n + 1) : ofCoeffs t = descending (fun i => t.reverse.getD i 0) n := by
  unfold ofCoeffs descending
  rw [h, ← Finset.sum_range_reflect]
  refine Finset.sum_congr rfl fun i hi => ?_
  have := Finset.mem_range.mp hi
  rw [show n + 1 - 1 - i = n - i by omega, ← reverse_getD t n i h (by omega)]

/-! ## Answers -/

theorem splitsOff_length {P Q : ℝ[X]} {zs : List ℂ} (h : SplitsOff P zs Q) : zs ≠ [] := by cases h <;> simp

theorem exact_length {P : ℝ[X]} {zs : List ℂ} (h0 : P ≠ 0)
    (h : P.map Complex.ofRealHom = C (P.leadingCoeff : ℂ) * (zs.map fun z => X - C z).prod) : zs.length = P.natDegree := by
  have h1 : (P.map Complex.ofRealHom).natDegree = P.natDegree := natDegree_map _
  have hl : (P.leadingCoeff : ℂ) ≠ 0 := by exact_mod_cast leadingCoeff_ne_zero.mpr h0
  rw [h, natDegree_C_mul hl] at h1
  rw [← h1]
  have := natDegree_multiset_prod_X_sub_C_eq_card (zs : Multiset ℂ)
  simpa using this.symm

theorem answer_length {P : ℝ[X]} {zs : List ℂ} {b : Bool} (h : Answer P zs b) :
    P ≠ 0 ∧ (b = true → zs.length = P.natDegree) ∧ (b = false → zs.length < P.natDegree) := by
  induction h with
  | @origin Q zs b _ ih =>
    obtain ⟨h0, h1, h2⟩ := ih
    refine ⟨mul_ne_zero X_ne_zero h0, ?_, ?_⟩
    · intro hb; rw [natDegree_X_mul h0, List.length_cons, h1 hb]
    · intro hb; rw [natDegree_X_mul h0, List.length_cons]; have := h2 hb; omega
  | exact P zs h0 h1 h2 => exact ⟨h0, fun _ => exact_length h0 h2, fun h => absurd h (by simp)⟩
  | split h1 h2 h3 h4 _ ih =>
    obtain ⟨_, h5, h6⟩ := ih
    refine ⟨fun h => by rw [h, natDegree_zero] at h1; omega, ?_, ?_⟩
    · intro hb; rw [List.length_append, h5 hb]; omega
    · intro hb; rw [List.length_append]; have := h6 hb; omega
  | gaveUp P h => exact ⟨fun h' => by rw [h', natDegree_zero] at h; omega, fun h => absurd h (by simp), fun _ => by simpa using (by omega)⟩

theorem exact_conj {P : ℝ[X]} {zs : List ℂ} (h0 : P ≠ 0)
    (h : P.map Complex.ofRealHom = C (P.leadingCoeff : ℂ) * (zs.map fun z => X - C z).prod) : (zs.map (starRingEnd ℂ)).Perm zs := by
  have hl : (P.leadingCoeff : ℂ) ≠ 0 := by exact_mod_cast leadingCoeff_ne_zero.mpr h0
  have hconj : (P.map Complex.ofRealHom).map (starRingEnd ℂ) = P.map Complex.ofRealHom := by
    rw [Polynomial.map_map]
    congr 1
    ext x; simp
  have h1 : P.map Complex.ofRealHom = C (P.leadingCoeff : ℂ) * ((zs.map (starRingEnd ℂ)).map fun z => X - C z).prod := by
    rw [← hconj, h, Polynomial.map_mul, map_C, Polynomial.map_list_prod, List.map_map, List.map_map]
    congr 2
    · simp
    · congr 1
      funext z; simp
  have hr : ∀ l : List ℂ, (C (P.leadingCoeff : ℂ) * (l.map fun z => X - C z).prod : ℂ[X]).roots = (l : Multiset ℂ) := by
    intro l
    rw [roots_C_mul _ hl]
    have := roots_multiset_prod_X_sub_C (l : Multiset ℂ)
    simpa using this
  have := hr zs
  rw [← h, h1, hr] at this
  exact Multiset.coe_eq_coe.mp this

theorem answer_conj {P : ℝ[X]} {zs : List ℂ} {b : Bool} (h : Answer P zs b) : (zs.map (starRingEnd ℂ)).Perm zs := by
  induction h with
  | origin _ ih => simpa using ih
  | exact P zs h0 h1 h2 => exact exact_conj h0 h2
  | split h1 h2 h3 h4 _ ih =>
    rw [List.map_append]
    refine List.Perm.append ?_ ih
    cases h2 with
    | one s r Q _ _ => simp
    | two s l Q R _ _ h _ =>
      rcases h with h | ⟨hs, hl, _⟩
      · rw [h]; simpa using List.Perm.swap _ _ _
      · have e1 : (starRingEnd ℂ) s = s := Complex.conj_eq_iff_im.mpr hs
        have e2 : (starRingEnd ℂ) l = l := Complex.conj_eq_iff_im.mpr hl
        simp [e1, e2]
  | gaveUp => simp

/-! ## Zeros at the origin -/

theorem stripZeros_le (op : ℕ → ℝ) : ∀ n, stripZeros op n ≤ n
  | 0 => le_rfl
  | n + 1 => by rw [stripZeros]; split; exact (stripZeros_le op n).trans (by omega); exact le_rfl

theorem stripZeros_zero (op : ℕ → ℝ) : ∀ n i, stripZeros op n < i → i ≤ n → op i = 0
  | 0, i, h1, h2 => absurd h1 (by omega)
  | n + 1, i, h1, h2 => by
    rw [stripZeros] at h1
    split at h1
    · rename_i h
      by_cases hi : i = n + 1
      · rw [hi]; exact h
      · exact stripZeros_zero op n i h1 (by omega)
    · omega

theorem stripZeros_ne (op : ℕ → ℝ) (h0 : op 0 ≠ 0) : ∀ n, op (stripZeros op n) ≠ 0
  | 0 => h0
  | n + 1 => by
    rw [stripZeros]
    split
    · exact stripZeros_ne op h0 n
    · assumption

theorem arr_strip (op : ℕ → ℝ) (N : ℕ) : ∀ k, (∀ i, N < i → i ≤ N + k → op i = 0) → arr op (N + k) = X ^ k * arr op N
  | 0, _ => by simp
  | k + 1, h => by
    rw [← add_assoc, arr, arr_strip op N k (fun i h1 h2 => h i h1 (by omega)), h (N + k + 1) (by omega) (by omega), pow_succ]
    simp; ring

theorem answer_origin {P : ℝ[X]} {zs : List ℂ} {b : Bool} (h : Answer P zs b) : ∀ k, Answer (X ^ k * P) (List.replicate k 0 ++ zs) b
  | 0 => by simpa using h
  | k + 1 => by
    rw [pow_succ', mul_assoc, List.replicate_succ, List.cons_append]
    exact .origin (answer_origin h k)

theorem rpoly_answer (fuel : ℕ) (op : ℕ → ℝ) (n : ℕ) (h0 : op 0 ≠ 0) (hn : n ≤ 100) (o : Option (List Zero)) (h : rpoly fuel op n = .ok o) :
    ∃ zs b, o = some zs ∧ Answer (descending op n) (zs.map toC) b := by
  unfold rpoly at h
  rw [if_neg (by omega), if_pos h0] at h
  simp only at h
  cases hm : mainLoop fuel (stripZeros op n + 1) (stripZeros op n) op (√(1 / 2)) (-√(1 / 2)) with
  | error e => rw [hm] at h; cases h
  | ok zs =>
    rw [hm] at h
    cases h
    obtain ⟨b, hb⟩ := mainLoop_answer fuel _ _ _ _ _ _ (Nat.lt_succ_self _) h0 hm
    refine ⟨_, b, rfl, ?_⟩
    have hle := stripZeros_le op n
    have := answer_origin hb (n - stripZeros op n)
    rw [← arr_eq_descending]
    have he := arr_strip op (stripZeros op n) (n - stripZeros op n) (fun i h1 h2 => stripZeros_zero op n i h1 (by omega))
    rw [show stripZeros op n + (n - stripZeros op n) = n by omega] at he
    rw [he, List.map_append, List.map_replicate]
    have e0 : toC (0, 0) = 0 := rfl
    rwa [e0]

/-! ## Trimming -/

theorem findLast_append (c d : List ℝ) (hd : ∀ x ∈ d, |x| < dblMin) :
    findLastNonZeroCoeff (c ++ d) (c ++ d).length = findLastNonZeroCoeff c c.length := by
  have h2 : ∀ n, n ≤ c.length → findLastNonZeroCoeff (c ++ d) n = findLastNonZeroCoeff c n := by
    intro n
    induction n with
    | zero => intro _; rfl
    | succ n ih =>
      intro hn
      have : (c ++ d).getD n 0 = c.getD n 0 := by rw [List.getD_append _ _ _ _ (by omega)]
      rw [findLastNonZeroCoeff, findLastNonZeroCoeff, this, ih (by omega)]
  have h1 : ∀ k, k ≤ d.length → findLastNonZeroCoeff (c ++ d) (c.length + k) = findLastNonZeroCoeff (c ++ d) c.length := by
    intro k
    induction k with
    | zero => intro _; rfl
    | succ k ih =>
      intro hk
      rw [← add_assoc, findLastNonZeroCoeff, if_neg, ih (by omega)]
      have : (c ++ d).getD (c.length + k) 0 = d.getD k 0 := by rw [List.getD_append_right _ _ _ _ (by omega)]; congr 1; omega
      rw [this, List.getD_eq_getElem _ _ (by omega)]
      exact not_le.mpr (hd _ (List.getElem_mem _))
  rw [List.length_append, h1 d.length le_rfl, h2 c.length le_rfl]

theorem findLast_lt (c : List ℝ) : ∀ n l, findLastNonZeroCoeff c n = some l → l < n ∧ dblMin ≤ |c.getD l 0|
  | 0, l, h => by cases h
  | n + 1, l, h => by
    rw [findLastNonZeroCoeff] at h
    split at h
    · cases h; exact ⟨by omega, by assumption⟩
    · obtain ⟨h1, h2⟩ := findLast_lt c n l h; exact ⟨by omega, h2⟩

theorem findLast_tiny (c : List ℝ) : ∀ n, (∀ i < n, |c.getD i 0| < dblMin) → findLastNonZeroCoeff c n = none
  | 0, _ => rfl
  | n + 1, h => by
    rw [findLastNonZeroCoeff, if_neg (not_le.mpr (h n (by omega))), findLast_tiny c n fun i hi => h i (by omega)]

theorem dblMin_pos : 0 < dblMin := by unfold dblMin; positivity

theorem findRoots_append (fuel : ℕ) (c d : List ℝ) (hd : ∀ x ∈ d, |x| < dblMin) : findRoots fuel (c ++ d) = findRoots fuel c := by
  unfold findRoots
  rw [findLast_append c d hd]
  cases h : findLastNonZeroCoeff c c.length with
  | none => rfl
  | some last =>
    obtain ⟨h1, _⟩ := findLast_lt c _ _ h
    simp only
    rw [List.take_append_of_le_length (by omega)]

/-- The wrapper on a list whose last coefficient is kept. -/
theorem findRoots_eq (fuel n : ℕ) (t : List ℝ) (hl : t.length = n + 2) (hlast : dblMin ≤ |t.getD (n + 1) 0|) (hn : n + 1 ≤ 100) :
    findRoots fuel t = (do
      match ← rpoly fuel (fun i => t.reverse.getD i 0) (n + 1) with
      | some zs => if 0 < zs.length then return (true, some zs) else return (false, none)
      | none => return (false, none)) := by
  unfold findRoots
  rw [hl, findLastNonZeroCoeff, if_pos hlast]
  simp only
  rw [if_neg (by omega), if_neg (by omega), List.take_of_length_le (by omega)]
  rfl

theorem trimmed_exists (c : List ℝ) : ∃ t, Trimmed c t := by
  induction c using List.reverseRecOn with
  | nil => exact ⟨[], [], rfl, by simp, by simp⟩
  | append_singleton c x ih =>
    by_cases hx : |x| < 1 / 2 ^ 1022
    · obtain ⟨t, d, rfl, h1, h2⟩ := ih
      refine ⟨t, d ++ [x], by simp, ?_, h2⟩
      intro y hy
      rcases List.mem_append.mp hy with hy | hy
      · exact h1 y hy
      · rw [List.mem_singleton.mp hy]; exact hx
    · exact ⟨c ++ [x], [], by simp, by simp, by simpa using not_lt.mp hx⟩

theorem trimmed_last {c t : List ℝ} (h : Trimmed c t) (n : ℕ) (hl : t.length = n + 1) : dblMin ≤ |t.getD n 0| := by
  obtain ⟨_, _, _, h⟩ := h
  have : t.getLast? = some (t.getD n 0) := by
    rw [List.getLast?_eq_getElem?, hl, List.getD_eq_getElem?_getD]
    rw [show n + 1 - 1 = n from rfl, List.getElem?_eq_getElem (by omega)]; rfl
  exact h _ (by rw [this]; rfl)

theorem trimmed_findRoots {c t : List ℝ} (h : Trimmed c t) (fuel : ℕ) : findRoots fuel c = findRoots fuel t := by
  obtain ⟨d, rfl, h1, _⟩ := h
  exact findRoots_append fuel t d h1

theorem last_ne_zero {c t : List ℝ} (h : Trimmed c t) (n : ℕ) (hl : t.length = n + 1) : t.getD n 0 ≠ 0 := by
  have := trimmed_last h n hl
  intro h0
  rw [h0, abs_zero] at this
  exact absurd dblMin_pos (not_lt.mpr this)

theorem trimmed_degree {c t : List ℝ} (h : Trimmed c t) (n : ℕ) (hl : t.length = n + 1) :
    (ofCoeffs t).natDegree = n ∧ (ofCoeffs t).leadingCoeff = t.getD n 0 ∧ ofCoeffs t ≠ 0 := by
  rw [ofCoeffs_eq_descending t n hl, ← arr_eq_descending]
  have h0 : t.reverse.getD 0 0 = t.getD n 0 := reverse_getD t n 0 hl (by omega)
  have := arr_degree (fun i => t.reverse.getD i 0) (by rw [h0]; exact last_ne_zero h n hl) n
  rwa [h0] at this

/-! ## Degree at most two -/

theorem mainLoop_small (fuel n N : ℕ) (hN : N ≤ 2) (p : ℕ → ℝ) (h0 : p 0 ≠ 0) (xx yy : ℝ) :
    ∃ zs, mainLoop fuel (n + 1) N p xx yy = .ok zs ∧ ExactZeros (arr p N) (zs.map toC) := by
  obtain ⟨hd, hl, hn⟩ := arr_degree p h0 N
  unfold ExactZeros
  rw [hl]
  interval_cases N
  · exact ⟨[], rfl, by simp [arr]⟩
  · refine ⟨[(-(p 1 / p 0), 0)], rfl, ?_⟩
    simp only [List.map_cons, List.map_nil, List.prod_cons, List.prod_nil, mul_one, toC_real]
    simp only [arr, Polynomial.map_add, Polynomial.map_mul, map_X, map_C, Complex.ofRealHom_eq_coe]
    rw [mul_sub, ← C_mul]
    have h0' : (p 0 : ℂ) ≠ 0 := by exact_mod_cast h0
    have : (p 0 : ℂ) * ((-(p 1 / p 0) : ℝ) : ℂ) = -(p 1 : ℂ) := by push_cast; field_simp
    rw [this, C_neg]; ring
  · refine ⟨[((quad (p 0) (p 1) (p 2)).sr, (quad (p 0) (p 1) (p 2)).si), ((quad (p 0) (p 1) (p 2)).lr, (quad (p 0) (p 1) (p 2)).li)], rfl, ?_⟩
    have := quad_factors (p 0) (p 1) (p 2) h0
    simp only [List.map_cons, List.map_nil, List.prod_cons, List.prod_nil, mul_one, toC_pair_s, toC_pair_l, this]
    simp only [arr, Polynomial.map_add, Polynomial.map_mul, map_X, map_C, Complex.ofRealHom_eq_coe]
    ring

theorem exactZeros_origin {P : ℝ[X]} {zs : List ℂ} (h : ExactZeros P zs) (k : ℕ) : ExactZeros (X ^ k * P) (List.replicate k 0 ++ zs) := by
  unfold ExactZeros at h ⊢
  rw [Polynomial.map_mul, h, List.map_append, List.prod_append, List.map_replicate, List.prod_replicate, leadingCoeff_mul, leadingCoeff_X_pow]
  simp only [Polynomial.map_pow, map_X, C_0, sub_zero, one_mul]
  ring

/-- When all coefficients but three consecutive ones vanish, the zeros are exact. -/
theorem rpoly_small (fuel : ℕ) (op : ℕ → ℝ) (n : ℕ) (h0 : op 0 ≠ 0) (hn : n ≤ 100) (h : ∀ i, 2 < i → i ≤ n → op i = 0) :
    ∃ zs, rpoly fuel op n = .ok (some zs) ∧ ExactZeros (descending op n) (zs.map toC) := by
  have hle := stripZeros_le op n
  have hs : stripZeros op n ≤ 2 := by
    by_contra hc
    exact stripZeros_ne op h0 n (h _ (by omega) hle)
  obtain ⟨zs, h1, h2⟩ := mainLoop_small fuel (stripZeros op n) _ hs op h0 (√(1 / 2)) (-√(1 / 2))
  refine ⟨List.replicate (n - stripZeros op n) (0, 0) ++ zs, ?_, ?_⟩
  · unfold rpoly
    rw [if_neg (by omega), if_pos h0]
    simp only [h1]
    rfl
  · have := exactZeros_origin h2 (n - stripZeros op n)
    rw [← arr_eq_descending]
    have he := arr_strip op (stripZeros op n) (n - stripZeros op n) (fun i h1 h2 => stripZeros_zero op n i h1 (by omega))
    rw [show stripZeros op n + (n - stripZeros op n) = n by omega] at he
    rw [he, List.map_append, List.map_replicate]
    have e0 : toC (0, 0) = 0 := rfl
    rwa [e0]

theorem exactZeros_length {P : ℝ[X]} {zs : List ℂ} (h0 : P ≠ 0) (h : ExactZeros P zs) : zs.length = P.natDegree := exact_length h0 h

theorem exactZeros_real {P : ℝ[X]} {zs : List ℂ} (h0 : P ≠ 0) (h : ExactZeros P zs) (x : ℝ) (hx : P.eval x = 0) : (x : ℂ) ∈ zs := by
  have hl : (P.leadingCoeff : ℂ) ≠ 0 := by exact_mod_cast leadingCoeff_ne_zero.mpr h0
  have h1 : (P.map Complex.ofRealHom).eval (x : ℂ) = 0 := by
    have := eval_map_apply (f := Complex.ofRealHom) (p := P) x
    rw [show (x : ℂ) = Complex.ofRealHom x from rfl, this, hx]; simp
  rw [h, eval_mul, eval_C, mul_eq_zero] at h1
  have h2 := h1.resolve_left hl
  rw [eval_list_prod, List.prod_eq_zero_iff, List.map_map] at h2
  obtain ⟨z, hz, hz0⟩ := List.mem_map.mp h2
  simp only [Function.comp, eval_sub, eval_X, eval_C] at hz0
  rwa [sub_eq_zero.mp hz0]

end Verif.RPoly
