import Verif.Spec.Hermite
import Verif.Lemmas.PlannerPlan
import Mathlib.Tactic.IntervalCases

/-! # The example optimizer meets the contract -/

set_option linter.unusedSectionVars false
set_option linter.unusedSimpArgs false

namespace Verif.Lemmas
open Verif Verif.Spec

variable {K : Type*} [Field K] [LinearOrder K] [IsStrictOrderedRing K] [FloorSemiring K]

theorem hermite_start (a b : ℕ → K) (k : ℕ) (h : k ≤ 4) : derivAt (hermite a b) k 0 = a k := by
  rw [derivAt_eq_sum]
  interval_cases k <;> simp [hermite, Finset.sum_range_succ, Poly.rowTerm, baseEntry_eq, Nat.descFactorial] <;> ring

theorem hermite_end (a b : ℕ → K) (k : ℕ) (h : k ≤ 4) : derivAt (hermite a b) k 1 = b k := by
  rw [derivAt_eq_sum]
  interval_cases k <;> simp [hermite, Finset.sum_range_succ, Poly.rowTerm, baseEntry_eq, Nat.descFactorial] <;> ring

theorem hermiteSegments_length (vs : List (Vertex K)) : (hermiteSegments vs).length = vs.length - 1 := by
  induction vs with
  | nil => rfl
  | cons v vs ih =>
    cases vs with
    | nil => rfl
    | cons w vs => simp only [hermiteSegments, List.length_cons] at ih ⊢; omega

theorem hermiteSegments_get (vs : List (Vertex K)) (i : ℕ) (v w : Vertex K) (hv : vs[i]? = some v) (hw : vs[i + 1]? = some w) :
    (hermiteSegments vs)[i]? = some (hermiteSegment v w) := by
  induction vs generalizing i with
  | nil => simp at hv
  | cons a vs ih =>
    cases vs with
    | nil => simp at hw
    | cons b vs =>
      cases i with
      | zero => simp at hv hw; subst hv; subst hw; rfl
      | succ i => simp only [hermiteSegments, List.getElem?_cons_succ] at hv hw ⊢; exact ih i hv hw

theorem hermiteSegments_mem (vs : List (Vertex K)) (s : Segment K) (h : s ∈ hermiteSegments vs) : ∃ v w, s = hermiteSegment v w := by
  induction vs with
  | nil => simp [hermiteSegments] at h
  | cons a vs ih =>
    cases vs with
    | nil => simp [hermiteSegments] at h
    | cons b vs =>
      simp only [hermiteSegments, List.mem_cons] at h
      rcases h with rfl | h
      · exact ⟨a, b, rfl⟩
      · exact ih h

theorem hermite_startOf (vs : List (Vertex K)) (i : ℕ) (h : i ≤ (hermiteSegments vs).length) : startOf (hermiteSegments vs) i = (i : K) := by
  induction i with
  | zero => simp [startOf_zero]
  | succ i ih =>
    have hi : (hermiteSegments vs)[i]? = some (hermiteSegments vs)[i] := by simp
    obtain ⟨v, w, hs⟩ := hermiteSegments_mem vs _ (List.getElem_mem (show i < (hermiteSegments vs).length by omega))
    rw [startOf_succ _ _ _ hi, ih (by omega), hs]
    simp [hermiteSegment]

theorem hermite_regular (v w : Vertex K) : Regular (hermiteSegment v w) := by
  refine ⟨?_, by simp [hermiteSegment]⟩
  intro p hp
  simp only [hermiteSegment, List.mem_cons, List.not_mem_nil, or_false] at hp
  rcases hp with rfl | rfl | rfl <;> rfl

theorem hermite_segmentwise : Segmentwise (hermiteEnv : Env K) := by
  intro vs speed tr h
  simp only [hermiteEnv, hermiteOptimize] at h
  split at h
  · rename_i hc
    rw [← Except.ok.inj h]
    have hl := hermiteSegments_length vs
    refine ⟨⟨rfl, ?_, ⟨?_, ?_⟩, ?_, ?_⟩, ?_⟩
    · intro h0
      simp only at h0
      rw [h0] at hl
      simp at hl
      omega
    · simp only
      rw [← startOf_length, hermite_startOf _ _ le_rfl, hl]
    · intro s hs
      obtain ⟨v, w, rfl⟩ := hermiteSegments_mem vs s hs
      exact ⟨rfl, rfl⟩
    · intro s hs
      obtain ⟨v, w, rfl⟩ := hermiteSegments_mem vs s hs
      exact one_pos
    · intro s hs
      obtain ⟨v, w, rfl⟩ := hermiteSegments_mem vs s hs
      exact hermite_regular v w
    · simp only
      omega
  · cases h

theorem list3_eq (c : List K) (h : c.length = 3) : [c.getD 0 0, c.getD 1 0, c.getD 2 0] = c := by
  match c, h with
  | [a, b, d], _ => rfl

theorem mem_of_find (k : Int) (l : List (Int × List K)) (c : List K) (h : IntMap.find k l = some c) : (k, c) ∈ l := by
  induction l with
  | nil => cases h
  | cons x l ih =>
    obtain ⟨k', v'⟩ := x
    simp only [IntMap.find] at h
    split at h
    · rename_i hk
      rw [hk, Option.some.inj h]; simp
    · simp [ih h]

theorem hermite_meets : MeetsVertices (hermiteEnv : Env K) := by
  intro vs speed tr h _ i v hv k c hk hc
  obtain ⟨⟨_, _, _, hpos, hreg⟩, _⟩ := hermite_segmentwise vs speed tr h
  simp only [hermiteEnv, hermiteOptimize] at h
  split at h
  · rename_i hall
    have h := Except.ok.inj h
    subst h
    simp only at hpos hreg ⊢
    have hc3 : c.length = 3 := by
      have : ((k : Int), c) ∈ v.constraints := by
        unfold Vertex.getConstraint at hc
        exact mem_of_find _ _ _ hc
      exact hall.2 v (List.mem_of_getElem? hv) _ this
    have hpre : ∀ d, prescribed v d k = c.getD d 0 := by intro d; simp [prescribed, hc]
    have hlt : i < vs.length := by
      by_contra hcn
      rw [List.getElem?_eq_none (by omega)] at hv
      cases hv
    have hl := hermiteSegments_length vs
    by_cases hi : i + 1 < vs.length
    · have hw : vs[i + 1]? = some vs[i + 1] := by simp
      have hs := hermiteSegments_get vs i v _ hv hw
      rw [evaluate_inside ⟨3, 10, ((vs.length - 1 : ℕ) : K), hermiteSegments vs⟩ _ k i _ (fun s hs => (hpos s hs).le)
        (fun p hp => by rw [(hermite_regular _ _).1 p hp]; simp [hermiteSegment]) hs le_rfl (by simp [hermiteSegment])]
      simp only [segDeriv, hermiteSegment, sub_self, List.map_cons, List.map_nil, hermite_start _ _ k hk, hpre]
      rw [list3_eq c hc3]
    · have hie : i = (hermiteSegments vs).length := by omega
      obtain ⟨j, rfl⟩ : ∃ j, i = j + 1 := ⟨i - 1, by omega⟩
      have hw : vs[j]? = some vs[j] := by simp
      have hs := hermiteSegments_get vs j _ v hw hv
      have hsplit : hermiteSegments vs = (hermiteSegments vs).dropLast ++ [hermiteSegment vs[j] v] := by
        obtain ⟨h1, h2⟩ := split_at _ _ _ hs
        conv_lhs => rw [h1]
        rw [List.drop_eq_nil_of_le (by omega), List.dropLast_eq_take]
        congr 2
        omega
      have hst : startOf (hermiteSegments vs) (j + 1) = duration (hermiteSegments vs) := by rw [hie, startOf_length]
      rw [hst, evaluate_end ⟨3, 10, ((vs.length - 1 : ℕ) : K), hermiteSegments vs⟩ k _ _ hsplit (fun s hs => (hpos s hs).le)
        (fun p hp => by rw [(hermite_regular _ _).1 p hp]; simp [hermiteSegment])]
      simp only [segDeriv, hermiteSegment, List.map_cons, List.map_nil, hermite_end _ _ k hk, hpre]
      rw [list3_eq c hc3]
  · cases h

end Verif.Lemmas
