import Mathlib.Data.List.GetD
import Mathlib.Data.Prod.Lex
import Mathlib.Data.Finset.Card
import Verif.Lemmas.LinearOptMatrix
import Verif.Lemmas.Vertex
import Verif.Lemmas.PlannerInv

/-!
# The constraint sets and the reordering matrix
-/

set_option linter.unusedSectionVars false
set_option linter.unusedSimpArgs false

namespace Verif

open Spec Lemmas

namespace Constraint
variable {K : Type*}

/-- The key of a constraint, ordered lexicographically. -/
def key (c : Constraint K) : ℕ ×ₗ ℕ := toLex (c.vertexIdx, c.constraintIdx)

theorem lt_iff (a b : Constraint K) : a.lt b = true ↔ a.key < b.key := by
  unfold lt key
  rw [Prod.Lex.toLex_lt_toLex]
  simp only
  split
  · simp; omega
  · split
    · simp; omega
    · split
      · simp; omega
      · simp; omega

theorem eqKey_iff (a b : Constraint K) : a.eqKey b = true ↔ a.key = b.key := by
  unfold eqKey key
  simp [Bool.and_eq_true, Prod.ext_iff]

theorem mem_setInsert (c x : Constraint K) (l : List (Constraint K)) (h : x ∈ setInsert c l) : x = c ∨ x ∈ l := by
  induction l with
  | nil => simpa [setInsert] using h
  | cons a l ih =>
    unfold setInsert at h
    split at h
    · simpa using h
    · split at h
      · rcases List.mem_cons.mp h with h | h
        · exact .inr (by simp [h])
        · rcases ih h with h | h
          · exact .inl h
          · exact .inr (by simp [h])
      · exact .inr h

theorem mem_setInsert_of_mem (c x : Constraint K) (l : List (Constraint K)) (h : x ∈ l) : x ∈ setInsert c l := by
  induction l with
  | nil => cases h
  | cons a l ih =>
    unfold setInsert
    split
    · simp [List.mem_cons.mp h]
    · split
      · rcases List.mem_cons.mp h with h | h
        · simp [h]
        · exact List.mem_cons_of_mem _ (ih h)
      · exact h

theorem exists_key_setInsert (c : Constraint K) (l : List (Constraint K)) : ∃ x ∈ setInsert c l, x.key = c.key := by
  induction l with
  | nil => exact ⟨c, by simp [setInsert], rfl⟩
  | cons a l ih =>
    unfold setInsert
    split
    · exact ⟨c, by simp, rfl⟩
    · split
      · obtain ⟨x, hx, e⟩ := ih
        exact ⟨x, List.mem_cons_of_mem _ hx, e⟩
      · rename_i h1 h2
        rw [lt_iff] at h1 h2
        exact ⟨a, by simp, le_antisymm (not_lt.mp h1) (not_lt.mp h2)⟩

theorem sorted_setInsert (c : Constraint K) (l : List (Constraint K)) (h : l.Pairwise fun a b => a.key < b.key) :
    (setInsert c l).Pairwise fun a b => a.key < b.key := by
  induction l with
  | nil => simp [setInsert]
  | cons a l ih =>
    rw [List.pairwise_cons] at h
    unfold setInsert
    split
    · rename_i hlt
      rw [lt_iff] at hlt
      rw [List.pairwise_cons]
      refine ⟨fun x hx => ?_, List.pairwise_cons.mpr h⟩
      rcases List.mem_cons.mp hx with e | hx
      · rw [e]; exact hlt
      · exact hlt.trans (h.1 x hx)
    · split
      · rename_i hlt
        rw [lt_iff] at hlt
        rw [List.pairwise_cons]
        refine ⟨fun x hx => ?_, ih h.2⟩
        rcases mem_setInsert _ _ _ hx with e | hx
        · rw [e]; exact hlt
        · exact h.1 x hx
      · exact List.pairwise_cons.mpr h

end Constraint

namespace LinOpt
variable {K : Type*} {h : ℕ}

section Sets

/-- What the loops keep: both sets sorted, and their elements are the ones seen, up to equal keys. -/
theorem constraintSets_spec [Zero K] (seq : List (Bool × Constraint K)) :
    (constraintSets seq).1.Pairwise (fun a b => a.key < b.key) ∧ (constraintSets seq).2.Pairwise (fun a b => a.key < b.key) ∧
    (∀ x ∈ (constraintSets seq).1, (true, x) ∈ seq) ∧ (∀ x ∈ (constraintSets seq).2, (false, x) ∈ seq) ∧
    (∀ x, (true, x) ∈ seq → ∃ y ∈ (constraintSets seq).1, y.key = x.key) ∧
    (∀ x, (false, x) ∈ seq → ∃ y ∈ (constraintSets seq).2, y.key = x.key) := by
  induction seq using List.reverseRecOn with
  | nil => simp [constraintSets]
  | append_singleton seq c ih =>
    have e : constraintSets (seq ++ [c]) = if c.1 then (c.2.setInsert (constraintSets seq).1, (constraintSets seq).2)
        else ((constraintSets seq).1, c.2.setInsert (constraintSets seq).2) := by
      unfold constraintSets
      rw [List.foldl_append]
      rfl
    obtain ⟨i1, i2, i3, i4, i5, i6⟩ := ih
    obtain ⟨b, c⟩ := c
    cases b
    · simp only [Bool.false_eq_true, if_false] at e
      rw [e]
      refine ⟨i1, Constraint.sorted_setInsert _ _ i2, fun x hx => List.mem_append_left _ (i3 x hx), ?_, ?_, ?_⟩
      · intro x hx
        rcases Constraint.mem_setInsert _ _ _ hx with hx | hx
        · rw [hx]; simp
        · exact List.mem_append_left _ (i4 x hx)
      · intro x hx
        rw [List.mem_append] at hx
        rcases hx with hx | hx
        · exact i5 x hx
        · simp at hx
      · intro x hx
        rw [List.mem_append] at hx
        rcases hx with hx | hx
        · obtain ⟨y, hy, ey⟩ := i6 x hx
          exact ⟨y, Constraint.mem_setInsert_of_mem _ _ _ hy, ey⟩
        · simp at hx
          rw [hx]
          exact Constraint.exists_key_setInsert _ _
    · simp only [if_true] at e
      rw [e]
      refine ⟨Constraint.sorted_setInsert _ _ i1, i2, ?_, fun x hx => List.mem_append_left _ (i4 x hx), ?_, ?_⟩
      · intro x hx
        rcases Constraint.mem_setInsert _ _ _ hx with hx | hx
        · rw [hx]; simp
        · exact List.mem_append_left _ (i3 x hx)
      · intro x hx
        rw [List.mem_append] at hx
        rcases hx with hx | hx
        · obtain ⟨y, hy, ey⟩ := i5 x hx
          exact ⟨y, Constraint.mem_setInsert_of_mem _ _ _ hy, ey⟩
        · simp at hx
          rw [hx]
          exact Constraint.exists_key_setInsert _ _
      · intro x hx
        rw [List.mem_append] at hx
        rcases hx with hx | hx
        · exact i6 x hx
        · simp at hx

variable [Zero K]

theorem constraintOf_key (dimension idx : ℕ) (v : Vertex K) (k : ℕ) : (constraintOf dimension idx v k).2.key = toLex (idx, k) := by
  unfold constraintOf
  split <;> rfl

/-- The constraint sequence is exactly the constraints of the vertices at their indices, orders below `h`. -/
theorem mem_constraintSeq (dimension n : ℕ) (vs : List (Vertex K)) (x : Bool × Constraint K) :
    x ∈ constraintSeq h dimension n vs ↔ ∃ idx v k, vs[idx]? = some v ∧ k < h ∧ x = constraintOf dimension idx v k := by
  unfold constraintSeq
  rw [List.mem_flatMap]
  constructor
  · rintro ⟨⟨v, idx⟩, hv, hx⟩
    rw [List.mem_zipIdx_iff_getElem?] at hv
    simp only at hx
    have hx' : x ∈ (List.range h).map (constraintOf dimension idx v) := by
      split at hx
      · exact hx
      · rw [List.mem_append] at hx; exact hx.elim id id
    rw [List.mem_map] at hx'
    obtain ⟨k, hk, e⟩ := hx'
    exact ⟨idx, v, k, hv, List.mem_range.mp hk, e.symm⟩
  · rintro ⟨idx, v, k, hv, hk, e⟩
    refine ⟨(v, idx), List.mem_zipIdx_iff_getElem?.mpr hv, ?_⟩
    have : x ∈ (List.range h).map (constraintOf dimension idx v) := by
      rw [e]; exact List.mem_map_of_mem (List.mem_range.mpr hk)
    simp only
    split
    · exact this
    · exact List.mem_append_left _ this

/-- Sequence elements are determined by their key. -/
theorem constraintSeq_unique (dimension n : ℕ) (vs : List (Vertex K)) (x y : Bool × Constraint K)
    (hx : x ∈ constraintSeq h dimension n vs) (hy : y ∈ constraintSeq h dimension n vs) (e : x.2.key = y.2.key) : x = y := by
  rw [mem_constraintSeq] at hx hy
  obtain ⟨i, v, k, hv, hk, ex⟩ := hx
  obtain ⟨j, w, l, hw, hl, ey⟩ := hy
  rw [ex, ey, constraintOf_key, constraintOf_key] at e
  have e' := Prod.mk.inj (toLex.injective e)
  rw [e'.1] at hv
  rw [hv] at hw
  rw [ex, ey, e'.1, e'.2, Option.some.inj hw]

/-- The fixed constraints: those a vertex has, of order below `h`. -/
theorem mem_fixed (dimension n : ℕ) (vs : List (Vertex K)) (x : Constraint K) :
    x ∈ (constraintSets (constraintSeq h dimension n vs)).1 ↔
      ∃ v, vs[x.vertexIdx]? = some v ∧ x.constraintIdx < h ∧ v.getConstraint x.constraintIdx = some x.value := by
  obtain ⟨_, _, s3, _, s5, _⟩ := constraintSets_spec (constraintSeq h dimension n vs)
  constructor
  · intro hx
    obtain ⟨i, v, k, hv, hk, e⟩ := (mem_constraintSeq _ _ _ _).mp (s3 x hx)
    unfold constraintOf at e
    split at e
    · rename_i c hc
      have e2 := (Prod.mk.inj e).2
      rw [e2]
      exact ⟨v, hv, hk, hc⟩
    · simp at e
  · rintro ⟨v, hv, hk, hc⟩
    have hm : (true, x) ∈ constraintSeq h dimension n vs := by
      refine (mem_constraintSeq _ _ _ _).mpr ⟨x.vertexIdx, v, x.constraintIdx, hv, hk, ?_⟩
      unfold constraintOf
      rw [hc]
    obtain ⟨y, hy, ey⟩ := s5 x hm
    have := constraintSeq_unique _ _ _ _ _ (s3 y hy) hm ey
    rw [← (Prod.mk.inj this).2]
    exact hy

/-- The free constraints: those of order below `h` a vertex does not have. -/
theorem mem_free (dimension n : ℕ) (vs : List (Vertex K)) (x : Constraint K) :
    x ∈ (constraintSets (constraintSeq h dimension n vs)).2 ↔
      ∃ v, vs[x.vertexIdx]? = some v ∧ x.constraintIdx < h ∧ v.getConstraint x.constraintIdx = none ∧
        x.value = List.replicate dimension 0 := by
  obtain ⟨_, _, _, s4, _, s6⟩ := constraintSets_spec (constraintSeq h dimension n vs)
  constructor
  · intro hx
    obtain ⟨i, v, k, hv, hk, e⟩ := (mem_constraintSeq _ _ _ _).mp (s4 x hx)
    unfold constraintOf at e
    split at e
    · simp at e
    · rename_i hc
      have e2 := (Prod.mk.inj e).2
      rw [e2]
      exact ⟨v, hv, hk, hc, rfl⟩
  · rintro ⟨v, hv, hk, hc, hz⟩
    have hm : (false, x) ∈ constraintSeq h dimension n vs := by
      refine (mem_constraintSeq _ _ _ _).mpr ⟨x.vertexIdx, v, x.constraintIdx, hv, hk, ?_⟩
      unfold constraintOf
      rw [hc]
      simp only
      rw [← hz]
    obtain ⟨y, hy, ey⟩ := s6 x hm
    have := constraintSeq_unique _ _ _ _ _ (s4 y hy) hm ey
    rw [← (Prod.mk.inj this).2]
    exact hy

/-- No key occurs twice among the columns. -/
theorem cols_nodup (dimension n : ℕ) (vs : List (Vertex K)) :
    (((constraintSets (constraintSeq h dimension n vs)).1 ++ (constraintSets (constraintSeq h dimension n vs)).2).map
      Constraint.key).Nodup := by
  obtain ⟨s1, s2, s3, s4, _, _⟩ := constraintSets_spec (constraintSeq h dimension n vs)
  have nd : ∀ l : List (Constraint K), l.Pairwise (fun a b => a.key < b.key) → (l.map Constraint.key).Nodup := by
    intro l hl
    rw [List.Nodup, List.pairwise_map]
    exact hl.imp fun hab => ne_of_lt hab
  rw [List.map_append, List.nodup_append]
  refine ⟨nd _ s1, nd _ s2, ?_⟩
  intro a ha b hb e
  rw [List.mem_map] at ha hb
  obtain ⟨x, hx, ex⟩ := ha
  obtain ⟨y, hy, ey⟩ := hb
  have := constraintSeq_unique _ _ _ _ _ (s3 x hx) (s4 y hy) (by simp only; rw [ex, ey, e])
  simp at this

/-- Every key of a vertex index and an order below `h` is a column. -/
theorem key_mem_cols (dimension n : ℕ) (vs : List (Vertex K)) (i k : ℕ) (hi : i < vs.length) (hk : k < h) :
    ∃ (m : ℕ) (c : Constraint K), ((constraintSets (constraintSeq h dimension n vs)).1 ++ (constraintSets (constraintSeq h dimension n vs)).2)[m]? = some c ∧
      c.key = toLex (i, k) := by
  have hv : vs[i]? = some vs[i] := List.getElem?_eq_getElem hi
  cases hc : (vs[i]).getConstraint k with
  | some c =>
    have := (mem_fixed (h := h) dimension n vs ⟨i, k, c⟩).mpr ⟨_, hv, hk, hc⟩
    obtain ⟨m, hm⟩ := List.mem_iff_getElem?.mp (List.mem_append_left (constraintSets (constraintSeq h dimension n vs)).2 this)
    exact ⟨m, _, hm, rfl⟩
  | none =>
    have := (mem_free (h := h) dimension n vs ⟨i, k, List.replicate dimension 0⟩).mpr ⟨_, hv, hk, hc, rfl⟩
    obtain ⟨m, hm⟩ := List.mem_iff_getElem?.mp (List.mem_append_right (constraintSets (constraintSeq h dimension n vs)).1 this)
    exact ⟨m, _, hm, rfl⟩

/-! ### Layout -/

/-- One copy of the constraints of a vertex. -/
def onceOf (h dimension : ℕ) (v : Vertex K) (idx : ℕ) : List (Bool × Constraint K) := (List.range h).map (constraintOf dimension idx v)

/-- The constraints by segment: those of its start vertex, then those of its end vertex. -/
def bySegment (h dimension : ℕ) : List (Vertex K) → ℕ → List (Bool × Constraint K)
  | v :: w :: l, s => onceOf h dimension v s ++ (onceOf h dimension w (s + 1) ++ bySegment h dimension (w :: l) (s + 1))
  | _, _ => []

theorem flatMap_eq_bySegment (dimension n : ℕ) (l : List (Vertex K)) (v w : Vertex K) (s : ℕ) (hs : s + (l.length + 2) = n + 1) :
    onceOf h dimension v s ++ ((w :: l).zipIdx (s + 1)).flatMap (fun (x : Vertex K × ℕ) =>
      if x.2 = 0 ∨ x.2 = n then onceOf h dimension x.1 x.2 else onceOf h dimension x.1 x.2 ++ onceOf h dimension x.1 x.2) =
    bySegment h dimension (v :: w :: l) s := by
  induction l generalizing v w s with
  | nil =>
    simp only [List.length_nil] at hs
    simp only [List.zipIdx_cons, List.zipIdx_nil, List.flatMap_cons, List.flatMap_nil, bySegment]
    rw [if_pos (Or.inr (by omega))]
  | cons a l ih =>
    simp only [List.length_cons] at hs
    rw [List.zipIdx_cons, List.flatMap_cons]
    simp only
    rw [if_neg (by omega), List.append_assoc, ih w a (s + 1) (by omega)]
    simp only [bySegment]

theorem constraintSeq_eq (dimension : ℕ) (v w : Vertex K) (l : List (Vertex K)) :
    constraintSeq h dimension (l.length + 1) (v :: w :: l) = bySegment h dimension (v :: w :: l) 0 := by
  rw [← flatMap_eq_bySegment dimension (l.length + 1) l v w 0 (by omega)]
  unfold constraintSeq
  rw [List.zipIdx_cons, List.flatMap_cons]
  simp only [true_or, if_true]
  rfl

theorem length_onceOf (dimension : ℕ) (v : Vertex K) (s : ℕ) : (onceOf h dimension v s).length = h := by simp [onceOf]

theorem length_bySegment (dimension : ℕ) (l : List (Vertex K)) (s : ℕ) : (bySegment h dimension l s).length = (l.length - 1) * (h + h) := by
  induction l generalizing s with
  | nil => simp [bySegment]
  | cons v l ih =>
    cases l with
    | nil => simp [bySegment]
    | cons w l =>
      simp only [bySegment, List.length_append, length_onceOf, ih, List.length_cons]
      simp only [Nat.add_sub_cancel]
      ring

/-- Entry `j` of segment `i` belongs to derivative `j` of vertex `i`, or derivative `j - h` of vertex `i + 1`. -/
theorem getElem?_bySegment (dimension : ℕ) (vs : List (Vertex K)) (s i j : ℕ) (v w : Vertex K) (hv : vs[i]? = some v)
    (hw : vs[i + 1]? = some w) (hj : j < h + h) :
    (bySegment h dimension vs s)[i * (h + h) + j]? =
      some (if j < h then constraintOf dimension (s + i) v j else constraintOf dimension (s + i + 1) w (j - h)) := by
  induction i generalizing vs s with
  | zero =>
    obtain ⟨l, rfl⟩ : ∃ l, vs = v :: w :: l := by
      match vs, hv, hw with
      | a :: b :: l, hv, hw =>
        simp at hv hw
        exact ⟨l, by rw [hv, hw]⟩
    simp only [bySegment, Nat.zero_mul, Nat.zero_add, Nat.add_zero]
    by_cases h1 : j < h
    · rw [List.getElem?_append_left (by rw [length_onceOf]; exact h1), if_pos h1]
      simp [onceOf, List.getElem?_range h1]
    · rw [List.getElem?_append_right (by rw [length_onceOf]; omega), length_onceOf,
        List.getElem?_append_left (by rw [length_onceOf]; omega), if_neg h1]
      simp [onceOf, List.getElem?_range (by omega : j - h < h)]
  | succ i ih =>
    match vs, hv, hw with
    | a :: b :: l, hv, hw =>
      have := ih (b :: l) (s + 1) (by simpa using hv) (by simpa using hw)
      simp only [bySegment]
      have e0 : (i + 1) * (h + h) = i * (h + h) + (h + h) := by ring
      rw [List.getElem?_append_right (by rw [length_onceOf]; omega),
        List.getElem?_append_right (by rw [length_onceOf, length_onceOf]; omega)]
      rw [length_onceOf, length_onceOf]
      have e : (i + 1) * (h + h) + j - h - h = i * (h + h) + j := by omega
      rw [e, this]
      have e1 : s + 1 + i = s + (i + 1) := by omega
      rw [e1]
    | [a], hv, hw => simp at hw

theorem getElem?_constraintSeq (dimension : ℕ) (vs : List (Vertex K)) (n i j : ℕ) (v w : Vertex K) (hn : vs.length = n + 1)
    (hv : vs[i]? = some v) (hw : vs[i + 1]? = some w) (hj : j < h + h) :
    (constraintSeq h dimension n vs)[i * (h + h) + j]? =
      some (if j < h then constraintOf dimension i v j else constraintOf dimension (i + 1) w (j - h)) := by
  match vs, hn, hv, hw with
  | a :: b :: l, hn, hv, hw =>
    have e : n = l.length + 1 := by simp at hn; omega
    rw [e, constraintSeq_eq, getElem?_bySegment dimension _ 0 i j v w hv hw hj]
    simp
  | [a], hn, hv, hw => simp at hw

theorem length_constraintSeq (dimension : ℕ) (vs : List (Vertex K)) (n : ℕ) (hn : vs.length = n + 1) (hpos : 0 < n) :
    (constraintSeq h dimension n vs).length = n * (h + h) := by
  match vs, hn with
  | a :: b :: l, hn =>
    have e : n = l.length + 1 := by simp at hn; omega
    rw [e, constraintSeq_eq, length_bySegment]
    simp
  | [a], hn => simp at hn; omega

end Sets

section Field
variable [Field K] [LinearOrder K] [IsStrictOrderedRing K]

/-- A one-hot row times a vector picks the entry at the column with the row's key. -/
theorem dot_reorderRow (cols : List (Constraint K)) (ca : Constraint K) (d : List K) (hn : (cols.map Constraint.key).Nodup)
    (m : ℕ) (c : Constraint K) (hm : cols[m]? = some c) (hk : c.key = ca.key) (hd : d.length = cols.length) :
    dot (reorderRow cols ca) d = d.getD m 0 := by
  have zero : ∀ (cols : List (Constraint K)) (d : List K), (∀ c ∈ cols, c.key ≠ ca.key) → dot (reorderRow cols ca) d = 0 := by
    intro cols
    induction cols with
    | nil => intro d _; simp [dot, reorderRow]
    | cons a cols ih =>
      intro d hne
      cases d with
      | nil => simp [dot, reorderRow]
      | cons x d =>
        have h1 : ca.eqKey a = false := by
          rw [← Bool.not_eq_true, Constraint.eqKey_iff]
          exact fun e => hne a (by simp) e.symm
        have := ih d fun c hc => hne c (by simp [hc])
        unfold dot reorderRow at this ⊢
        simp only [List.map_cons, List.zipWith_cons_cons, List.sum_cons, h1]
        rw [this]
        simp
  induction cols generalizing d m with
  | nil => simp at hm
  | cons a cols ih =>
    cases d with
    | nil => simp at hd
    | cons x d =>
      simp only [List.map_cons, List.nodup_cons] at hn
      cases m with
      | zero =>
        simp at hm
        have h1 : ca.eqKey a = true := by rw [Constraint.eqKey_iff, hm, hk]
        have := zero cols d fun c' hc' e => hn.1 (by rw [hm, hk, ← e]; exact List.mem_map_of_mem hc')
        unfold dot reorderRow at this ⊢
        simp only [List.map_cons, List.zipWith_cons_cons, List.sum_cons, h1]
        rw [this]
        simp
      | succ m =>
        simp at hm
        have h1 : ca.eqKey a = false := by
          rw [← Bool.not_eq_true, Constraint.eqKey_iff, ← hk]
          exact fun e => hn.1 (by rw [← e]; exact List.mem_map_of_mem (List.mem_of_getElem? hm))
        have := ih d hn.2 m hm (by simpa using hd)
        unfold dot reorderRow at this ⊢
        simp only [List.map_cons, List.zipWith_cons_cons, List.sum_cons, h1]
        rw [this]
        simp

end Field

end LinOpt

end Verif
