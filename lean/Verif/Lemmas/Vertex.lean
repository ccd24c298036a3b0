import Verif.Spec.Vertex
import Verif.Lemmas.TrajectoryOps

set_option linter.unusedSectionVars false

/-!
# Lemmas about the constraint map and vertices of a trajectory
-/

namespace Verif

open Spec

namespace IntMap
variable {α : Type*}

theorem find_insert (k j : Int) (v : α) (l : List (Int × α)) :
    find j (insert k v l) = if j = k then some v else find j l := by
  induction l with
  | nil => simp [insert, find]
  | cons a l ih =>
    obtain ⟨k', v'⟩ := a
    unfold insert
    by_cases h1 : k < k'
    · rw [if_pos h1]; simp [find]
    · rw [if_neg h1]
      by_cases h2 : k = k'
      · subst h2; rw [if_pos rfl]; simp only [find]; split <;> rfl
      · rw [if_neg h2]
        simp only [find, ih]
        by_cases h3 : j = k'
        · subst h3; rw [if_pos rfl, if_neg (fun h => h2 h.symm), if_pos rfl]
        · rw [if_neg h3, if_neg h3]

theorem mem_insert (k : Int) (v : α) (l : List (Int × α)) (x : Int × α) (h : x ∈ insert k v l) : x = (k, v) ∨ x ∈ l := by
  induction l with
  | nil => simpa [insert] using h
  | cons a l ih =>
    obtain ⟨k', v'⟩ := a
    unfold insert at h
    split at h
    · simpa using h
    · split at h
      · simp at h; rcases h with h | h
        · left; exact h
        · right; simp [h]
      · simp at h; rcases h with h | h
        · right; simp [h]
        · rcases ih h with h | h
          · left; exact h
          · right; simp [h]

theorem sorted_insert (k : Int) (v : α) (l : List (Int × α)) (h : l.Pairwise (fun a b => a.1 < b.1)) :
    (insert k v l).Pairwise (fun a b => a.1 < b.1) := by
  induction l with
  | nil => simp [insert]
  | cons a l ih =>
    obtain ⟨k', v'⟩ := a
    rw [List.pairwise_cons] at h
    unfold insert
    split
    · rename_i h1
      rw [List.pairwise_cons, List.pairwise_cons]
      refine ⟨?_, h⟩
      intro b hb
      simp at hb
      rcases hb with rfl | hb
      · exact h1
      · exact lt_trans h1 (h.1 b hb)
    · split
      · rename_i h2; subst h2
        rw [List.pairwise_cons]; exact h
      · rename_i h1 h2
        rw [List.pairwise_cons]
        refine ⟨?_, ih h.2⟩
        intro b hb
        rcases mem_insert k v l b hb with rfl | hb
        · simp only; omega
        · exact h.1 b hb

theorem find_none_of_lt (k : Int) (l : List (Int × α)) (h : ∀ b ∈ l, k < b.1) : find k l = none := by
  induction l with
  | nil => rfl
  | cons a l ih =>
    have := h a (by simp)
    simp only [find]
    rw [if_neg (by omega)]
    exact ih (fun b hb => h b (by simp [hb]))

theorem find_erase (k j : Int) (l : List (Int × α)) (h : l.Pairwise (fun a b => a.1 < b.1)) :
    find j (erase k l) = if j = k then none else find j l := by
  induction l with
  | nil => simp [erase, find]
  | cons a l ih =>
    obtain ⟨k', v'⟩ := a
    rw [List.pairwise_cons] at h
    unfold erase
    by_cases h1 : k = k'
    · subst h1; rw [if_pos rfl]
      by_cases hj : j = k
      · subst hj; rw [if_pos rfl]; exact find_none_of_lt _ _ h.1
      · rw [if_neg hj]; simp [find, hj]
    · rw [if_neg h1]
      simp only [find, ih h.2]
      by_cases h3 : j = k'
      · subst h3; rw [if_pos rfl, if_neg (fun h => h1 h.symm), if_pos rfl]
      · rw [if_neg h3, if_neg h3]

theorem mem_erase (k : Int) (l : List (Int × α)) (x : Int × α) (h : x ∈ erase k l) : x ∈ l := by
  induction l with
  | nil => exact h
  | cons a l ih =>
    obtain ⟨k', v'⟩ := a
    unfold erase at h
    split at h
    · simp [h]
    · simp at h; rcases h with h | h
      · simp [h]
      · simp [ih h]

theorem sorted_erase (k : Int) (l : List (Int × α)) (h : l.Pairwise (fun a b => a.1 < b.1)) :
    (erase k l).Pairwise (fun a b => a.1 < b.1) := by
  induction l with
  | nil => simp [erase]
  | cons a l ih =>
    obtain ⟨k', v'⟩ := a
    rw [List.pairwise_cons] at h
    unfold erase
    split
    · exact h.2
    · rw [List.pairwise_cons]; exact ⟨fun b hb => h.1 b (mem_erase k l b hb), ih h.2⟩

theorem find_some_iff (l : List (Int × α)) (h : l.Pairwise (fun a b => a.1 < b.1)) (k : Int) (v : α) :
    find k l = some v ↔ (k, v) ∈ l := by
  induction l with
  | nil => simp [find]
  | cons a l ih =>
    obtain ⟨k', v'⟩ := a
    rw [List.pairwise_cons] at h
    simp only [find, List.mem_cons, Prod.mk.injEq]
    by_cases h1 : k = k'
    · subst h1
      rw [if_pos rfl]
      constructor
      · intro e; left; exact ⟨rfl, (Option.some.inj e).symm⟩
      · rintro (⟨_, rfl⟩ | hm)
        · rfl
        · exact absurd (h.1 _ hm) (lt_irrefl _)
    · rw [if_neg h1, ih h.2]; simp [h1]

end IntMap

section Vertex
variable {K : Type*}

theorem represents_getConstraint (v : Vertex K) (hw : WellFormed v) : Represents v v.getConstraint :=
  fun k c => (IntMap.find_some_iff v.constraints hw.1 k c).symm

theorem addConstraint_ok (v : Vertex K) (k : Int) (c : List K) (hw : WellFormed v) (h : c.length = v.D) :
    ∃ w, v.addConstraint k c = .ok w ∧ w.D = v.D ∧ WellFormed w ∧
      ∀ j, w.getConstraint j = if j = k then some c else v.getConstraint j := by
  refine ⟨{ v with constraints := IntMap.insert k c v.constraints }, by rw [Vertex.addConstraint, if_pos h], rfl,
    ⟨IntMap.sorted_insert k c _ hw.1, ?_⟩, fun j => IntMap.find_insert k j c _⟩
  intro x hx
  rcases IntMap.mem_insert k c _ x hx with rfl | hx
  · exact h
  · exact hw.2 x hx

theorem zeroLoop_spec [Zero K] (D n i : ℕ) (m : List (Int × List K)) (hs : m.Pairwise (fun a b => a.1 < b.1))
    (hl : ∀ x ∈ m, x.2.length = D) :
    (Vertex.zeroLoop D n i m).Pairwise (fun a b => a.1 < b.1) ∧ (∀ x ∈ Vertex.zeroLoop D n i m, x.2.length = D) ∧
    ∀ j : Int, IntMap.find j (Vertex.zeroLoop D n i m) =
      if (i : Int) ≤ j ∧ j < (i : Int) + n then some (List.replicate D 0) else IntMap.find j m := by
  induction n generalizing i m with
  | zero =>
    refine ⟨hs, hl, fun j => ?_⟩
    rw [if_neg (by push_cast; omega)]; rfl
  | succ n ih =>
    obtain ⟨h1, h2, h3⟩ := ih (i + 1) (IntMap.insert (i : Int) (List.replicate D 0) m) (IntMap.sorted_insert _ _ _ hs) (by
      intro x hx
      rcases IntMap.mem_insert _ _ _ x hx with rfl | hx
      · simp
      · exact hl x hx)
    refine ⟨h1, h2, fun j => ?_⟩
    unfold Vertex.zeroLoop
    rw [h3 j, IntMap.find_insert]
    push_cast
    by_cases hj : j = i
    · subst hj
      rw [if_neg (by omega), if_pos rfl, if_pos (by omega)]
    · rw [if_neg hj]
      by_cases h : (i : Int) + 1 ≤ j ∧ j < (i : Int) + 1 + n
      · rw [if_pos h, if_pos (by omega)]
      · rw [if_neg h, if_neg (by omega)]

theorem makeStartOrEnd_ok [Zero K] (v : Vertex K) (c : List K) (n : Int) (hw : WellFormed v) (h : c.length = v.D) :
    ∃ w, v.makeStartOrEnd c n = .ok w ∧ w.D = v.D ∧ WellFormed w ∧
      ∀ j, w.getConstraint j = if j = 0 then some c else if 1 ≤ j ∧ j ≤ n then some (List.replicate v.D 0) else v.getConstraint j := by
  obtain ⟨w, h1, h2, h3, h4⟩ := addConstraint_ok v 0 c hw h
  obtain ⟨g1, g2, g3⟩ := zeroLoop_spec w.D n.toNat 1 w.constraints h3.1 h3.2
  refine ⟨{ w with constraints := Vertex.zeroLoop w.D n.toNat 1 w.constraints }, ?_, h2, ⟨g1, g2⟩, ?_⟩
  · unfold Vertex.makeStartOrEnd; rw [h1]; rfl
  · intro j
    have := g3 j
    have e4 := h4 j
    unfold Vertex.getConstraint at e4 ⊢
    simp only
    rw [this, e4, h2]
    by_cases hj : j = 0
    · subst hj; simp
    · rw [if_neg hj, if_neg hj]
      by_cases hr : 1 ≤ j ∧ j ≤ n
      · rw [if_pos hr, if_pos (by push_cast; omega)]
      · rw [if_neg hr, if_neg (by push_cast; omega)]

theorem wellFormed_mk' (D : ℕ) : WellFormed (Vertex.mk' D : Vertex K) := ⟨by simp [Vertex.mk'], by simp [Vertex.mk']⟩

theorem removeConstraint_spec (v : Vertex K) (k : Int) (hw : WellFormed v) :
    (v.removeConstraint k).1 = (v.getConstraint k).isSome ∧ (v.removeConstraint k).2.D = v.D ∧
      WellFormed (v.removeConstraint k).2 ∧
      ∀ j, (v.removeConstraint k).2.getConstraint j = if j = k then none else v.getConstraint j := by
  unfold Vertex.removeConstraint Vertex.getConstraint
  cases h : IntMap.find k v.constraints with
  | some c =>
    refine ⟨rfl, rfl, ⟨IntMap.sorted_erase _ _ hw.1, fun x hx => hw.2 x (IntMap.mem_erase _ _ x hx)⟩, fun j => ?_⟩
    exact IntMap.find_erase k j _ hw.1
  | none =>
    refine ⟨rfl, rfl, hw, fun j => ?_⟩
    by_cases hj : j = k
    · subst hj; simp [h]
    · simp [hj]

end Vertex

section Traj
variable {K : Type*} [Field K] [LinearOrder K] [IsStrictOrderedRing K]

/-- Evaluation inside the closed time range succeeds and gives a vector of the trajectory's dimension. -/
theorem evaluate_total (tr : Trajectory K) (t : K) (k : ℕ) (hc : Consistent tr) (hT : ∀ s ∈ tr.segments, 0 ≤ s.time)
    (hR : ∀ s ∈ tr.segments, Regular s) (hne : tr.segments ≠ []) (h0 : 0 ≤ t) (h1 : t ≤ duration tr.segments) :
    ∃ x, tr.evaluate t k = .ok x ∧ x.length = tr.D := by
  rcases lt_or_eq_of_le h1 with h | h
  · obtain ⟨j, s, hj, a, b⟩ := exists_segment tr.segments t h0 h
    have hm := List.mem_of_getElem? hj
    exact ⟨_, evaluate_inside tr t k j s hT (hR s hm).le hj a b, by rw [segDeriv_length, (hc.2 s hm).1]⟩
  · obtain ⟨pre, s, hps⟩ : ∃ pre s, tr.segments = pre ++ [s] :=
      ⟨tr.segments.dropLast, tr.segments.getLast hne, (List.dropLast_append_getLast hne).symm⟩
    have hm : s ∈ tr.segments := by rw [hps]; simp
    rw [h]
    exact ⟨_, evaluate_end tr k pre s hps hT (hR s hm).le, by rw [segDeriv_length, (hc.2 s hm).1]⟩

theorem vertexLoop_spec (tr : Trajectory K) (t : K) (n i : ℕ) (v : Vertex K) (hw : WellFormed v) (hD : v.D = tr.D)
    (hev : ∀ k, ∃ x, tr.evaluate t k = .ok x ∧ x.length = tr.D) :
    ∃ w, tr.vertexLoop t n i v = .ok w ∧ w.D = tr.D ∧ WellFormed w ∧
      (∀ j : ℕ, i ≤ j → j < i + n → ∃ x, tr.evaluate t j = .ok x ∧ w.getConstraint j = some x) ∧
      ∀ j : Int, ¬ ((i : Int) ≤ j ∧ j < i + n) → w.getConstraint j = v.getConstraint j := by
  induction n generalizing i v with
  | zero => exact ⟨v, rfl, hD, hw, fun j a b => by omega, fun j _ => rfl⟩
  | succ n ih =>
    obtain ⟨x, hx, hl⟩ := hev i
    obtain ⟨w, h1, h2, h3, h4⟩ := addConstraint_ok v (i : Int) x hw (by rw [hl, hD])
    obtain ⟨w', g1, g2, g3, g4, g5⟩ := ih (i + 1) w h3 (by rw [h2, hD])
    refine ⟨w', ?_, g2, g3, ?_, ?_⟩
    · unfold Trajectory.vertexLoop; rw [hx]; simp only [bind, Except.bind, h1]; exact g1
    · intro j hj1 hj2
      by_cases hj : j = i
      · subst hj
        refine ⟨x, hx, ?_⟩
        rw [g5 j (by push_cast; omega), h4, if_pos rfl]
      · exact g4 j (by omega) (by omega)
    · intro j hj
      push_cast at hj
      rw [g5 j (by push_cast; omega), h4, if_neg (by omega)]

theorem getVertexAtTime_spec (tr : Trajectory K) (t : K) (k : ℕ) (hc : Consistent tr) (hT : ∀ s ∈ tr.segments, 0 ≤ s.time)
    (hR : ∀ s ∈ tr.segments, Regular s) (hne : tr.segments ≠ []) (h0 : 0 ≤ t) (h1 : t ≤ duration tr.segments) :
    ∃ w, tr.getVertexAtTime t k = .ok w ∧ w.D = tr.D ∧ WellFormed w ∧
      (∀ j : ℕ, j ≤ k → ∃ x, tr.evaluate t j = .ok x ∧ w.getConstraint j = some x) ∧
      ∀ j : Int, (j < 0 ∨ (k : Int) < j) → w.getConstraint j = none := by
  obtain ⟨w, a1, a2, a3, a4, a5⟩ := vertexLoop_spec tr t (k + 1) 0 (Vertex.mk' tr.D) (wellFormed_mk' _) rfl
    (fun j => evaluate_total tr t j hc hT hR hne h0 h1)
  refine ⟨w, a1, a2, a3, fun j hj => a4 j (by omega) (by omega), fun j hj => ?_⟩
  rw [a5 j (by push_cast; omega)]; rfl

end Traj

end Verif
