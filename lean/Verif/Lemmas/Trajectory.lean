import Mathlib.Tactic.Linarith
import Mathlib.Tactic.Ring
import Verif.Lemmas.Polynomial
import Verif.Spec.Trajectory

set_option linter.unusedSectionVars false

namespace Verif

open Spec

variable {K : Type*}

section Ring
variable [CommRing K]

theorem mapM_ok {α β : Type*} (f : α → Res β) (g : α → β) (l : List α) (h : ∀ a ∈ l, f a = .ok (g a)) :
    l.mapM f = .ok (l.map g) := by
  induction l with
  | nil => rfl
  | cons a l ih =>
    rw [List.mapM_cons, h a (by simp), ih (fun x hx => h x (by simp [hx]))]
    rfl

theorem segment_evaluate_eq (s : Segment K) (t : K) (k : ℕ) (h : ∀ p ∈ s.polys, p.length ≤ 22) :
    s.evaluate t k = .ok (segDeriv s k t) :=
  mapM_ok _ _ _ fun p hp => evaluate_eq p t k (h p hp)

theorem Spec.Regular.le {s : Segment K} (h : Regular s) : ∀ p ∈ s.polys, p.length ≤ 22 :=
  fun p hp => (h.1 p hp).le.trans h.2

theorem segDeriv_length (s : Segment K) (k : ℕ) (t : K) : (segDeriv s k t).length = s.polys.length := by
  simp [segDeriv]

@[simp] theorem duration_nil : duration ([] : List (Segment K)) = 0 := by simp [duration]
@[simp] theorem duration_cons (s : Segment K) (l : List (Segment K)) : duration (s :: l) = s.time + duration l := by
  simp [duration]
@[simp] theorem duration_append (l m : List (Segment K)) : duration (l ++ m) = duration l + duration m := by
  simp [duration]

theorem foldl_time (l : List (Segment K)) (a : K) : l.foldl (fun acc s => acc + s.time) a = a + duration l := by
  induction l generalizing a with
  | nil => simp
  | cons s l ih => simp [ih, add_assoc]

theorem split_at (l : List (Segment K)) (j : ℕ) (s : Segment K) (h : l[j]? = some s) :
    l = l.take j ++ s :: l.drop (j + 1) ∧ (l.take j).length = j := by
  obtain ⟨hj, rfl⟩ := List.getElem?_eq_some_iff.mp h
  refine ⟨?_, by simp; omega⟩
  rw [List.cons_getElem_drop_succ, List.take_append_drop]

end Ring

section Field
variable [Field K] [LinearOrder K] [IsStrictOrderedRing K]

theorem duration_nonneg (l : List (Segment K)) (h : ∀ s ∈ l, 0 ≤ s.time) : 0 ≤ duration l := by
  induction l with
  | nil => simp
  | cons s l ih =>
    rw [duration_cons]
    exact add_nonneg (h s (by simp)) (ih fun x hx => h x (by simp [hx]))

theorem findSegment_mid (t : K) (pre : List (Segment K)) (s : Segment K) (post : List (Segment K)) (acc : K) (i : ℕ)
    (hpre : ∀ s ∈ pre, 0 ≤ s.time) (h1 : acc + duration pre ≤ t) (h2 : t < acc + duration pre + s.time) :
    Trajectory.findSegment t (pre ++ s :: post) acc i = (acc + duration pre + s.time, i + pre.length) := by
  induction pre generalizing acc i with
  | nil => simp at h1 h2 ⊢; simp [Trajectory.findSegment, h2]
  | cons p pre ih =>
    simp only [duration_cons] at h1 h2
    have hd := duration_nonneg pre fun x hx => hpre x (by simp [hx])
    rw [List.cons_append, Trajectory.findSegment, if_neg (by linarith),
      ih (acc + p.time) (i + 1) (fun x hx => hpre x (by simp [hx])) (by linarith) (by linarith)]
    simp only [duration_cons, List.length_cons, Prod.mk.injEq]
    exact ⟨by ring, by omega⟩

theorem findSegment_end (t : K) (l : List (Segment K)) (acc : K) (i : ℕ)
    (hl : ∀ s ∈ l, 0 ≤ s.time) (h1 : acc + duration l ≤ t) :
    Trajectory.findSegment t l acc i = (acc + duration l, i + l.length) := by
  induction l generalizing acc i with
  | nil => simp [Trajectory.findSegment]
  | cons p l ih =>
    simp only [duration_cons] at h1
    have hd := duration_nonneg l fun x hx => hl x (by simp [hx])
    rw [Trajectory.findSegment, if_neg (by linarith), ih (acc + p.time) (i + 1) (fun x hx => hl x (by simp [hx])) (by linarith)]
    simp only [duration_cons, List.length_cons, Prod.mk.injEq]
    exact ⟨by ring, by omega⟩

theorem evaluate_inside (tr : Trajectory K) (t : K) (k j : ℕ) (s : Segment K)
    (hT : ∀ s ∈ tr.segments, 0 ≤ s.time) (hR : ∀ p ∈ s.polys, p.length ≤ 22) (hj : tr.segments[j]? = some s)
    (h1 : startOf tr.segments j ≤ t) (h2 : t < startOf tr.segments j + s.time) :
    tr.evaluate t k = .ok (segDeriv s k (t - startOf tr.segments j)) := by
  obtain ⟨hs, hlen⟩ := split_at tr.segments j s hj
  have hjl := (List.getElem?_eq_some_iff.mp hj).1
  have hf : Trajectory.findSegment t tr.segments 0 0 = (startOf tr.segments j + s.time, j) := by
    conv_lhs => rw [hs]
    rw [findSegment_mid t (tr.segments.take j) s _ 0 0 (fun x hx => hT x (List.mem_of_mem_take hx))
      (by simpa [startOf] using h1) (by simpa [startOf] using h2), hlen]
    simp [startOf]
  unfold Trajectory.evaluate
  simp only [hf]
  rw [if_neg (not_lt.mpr h2.le), if_neg (by omega)]
  simp only [at?, hj, bind, Except.bind]
  rw [segment_evaluate_eq s _ k hR]
  congr 2
  ring

theorem evaluate_end (tr : Trajectory K) (k : ℕ) (pre : List (Segment K)) (s : Segment K)
    (hsegs : tr.segments = pre ++ [s])
    (hT : ∀ s ∈ tr.segments, 0 ≤ s.time) (hR : ∀ p ∈ s.polys, p.length ≤ 22) :
    tr.evaluate (duration tr.segments) k = .ok (segDeriv s k s.time) := by
  unfold Trajectory.evaluate
  rw [findSegment_end _ _ _ _ hT (by simp)]
  simp only [zero_add, gt_iff_lt, lt_irrefl, if_false, le_refl, if_true]
  have : tr.segments[tr.segments.length - 1]? = some s := by rw [hsegs]; simp
  simp only [at?, this, bind, Except.bind]
  rw [segment_evaluate_eq s _ k hR]
  congr 2
  ring

theorem evaluate_beyond (tr : Trajectory K) (t : K) (k : ℕ) (hT : ∀ s ∈ tr.segments, 0 ≤ s.time)
    (h : duration tr.segments < t) : tr.evaluate t k = .ok (List.replicate tr.D 0) := by
  unfold Trajectory.evaluate
  rw [findSegment_end _ _ _ _ hT (by simpa using h.le)]
  simp only [zero_add, gt_iff_lt, h, if_true]

theorem evaluate_before (tr : Trajectory K) (t : K) (k : ℕ) (s : Segment K) (post : List (Segment K))
    (hsegs : tr.segments = s :: post) (hs : 0 ≤ s.time) (hR : ∀ p ∈ s.polys, p.length ≤ 22) (h : t < 0) :
    tr.evaluate t k = .ok (segDeriv s k t) := by
  have h' : t < 0 + s.time := by linarith
  have hf : Trajectory.findSegment t (s :: post) 0 0 = (0 + s.time, 0) := by
    rw [Trajectory.findSegment, if_pos h']
  unfold Trajectory.evaluate
  rw [hsegs, hf]
  simp only [zero_add] at h' ⊢
  rw [if_neg (not_lt.mpr h'.le), if_neg (by simp)]
  simp only [at?, List.getElem?_cons_zero, bind, Except.bind]
  rw [segment_evaluate_eq s _ k hR]
  congr 2
  ring

theorem startOf_succ (segs : List (Segment K)) (j : ℕ) (s : Segment K) (hj : segs[j]? = some s) :
    startOf segs (j + 1) = startOf segs j + s.time := by
  obtain ⟨hlt, rfl⟩ := List.getElem?_eq_some_iff.mp hj
  have : segs.take (j + 1) = segs.take j ++ [segs[j]] := by rw [List.take_append_getElem]
  rw [startOf, this, duration_append, startOf]; simp

theorem startOf_zero (segs : List (Segment K)) : startOf segs 0 = 0 := by simp [startOf]

theorem startOf_length (segs : List (Segment K)) : startOf segs segs.length = duration segs := by simp [startOf]

/-- Every time before the end is in the half-open interval of exactly one segment. -/
theorem exists_segment (segs : List (Segment K)) (t : K) (h0 : 0 ≤ t) (h1 : t < duration segs) :
    ∃ (j : ℕ) (s : Segment K), segs[j]? = some s ∧ startOf segs j ≤ t ∧ t < startOf segs j + s.time := by
  induction segs generalizing t with
  | nil => simp at h1; exact absurd h1 (not_lt.mpr h0)
  | cons s l ih =>
    by_cases ht : t < s.time
    · exact ⟨0, s, rfl, by simpa [startOf_zero] using h0, by simpa [startOf_zero] using ht⟩
    · push Not at ht
      obtain ⟨j, s', hj, h2, h3⟩ := ih (t - s.time) (by linarith) (by rw [duration_cons] at h1; linarith)
      refine ⟨j + 1, s', by simpa using hj, ?_, ?_⟩
      · simp only [startOf, List.take_succ_cons, duration_cons] at h2 ⊢; linarith
      · simp only [startOf, List.take_succ_cons, duration_cons] at h3 ⊢; linarith

theorem startOf_lt (segs : List (Segment K)) (hpos : ∀ s ∈ segs, 0 < s.time) (i j : ℕ) (hij : i < j) (hj : j ≤ segs.length) :
    startOf segs i < startOf segs j := by
  induction j with
  | zero => omega
  | succ j ih =>
    have hlt : j < segs.length := by omega
    rw [startOf_succ segs j segs[j] (by simp)]
    have := hpos segs[j] (by simp)
    rcases Nat.lt_succ_iff_lt_or_eq.mp hij with h | h
    · have := ih h (by omega); linarith
    · rw [h]; linarith

end Field

end Verif
