import Mathlib.Algebra.Order.Round
import Mathlib.Data.Int.Log
import Mathlib.Tactic.Linarith
import Mathlib.Tactic.Positivity
import Verif.Lemmas.Polynomial
import Verif.Lemmas.Trajectory
import Verif.Lemmas.Extremum
import Verif.Spec.Rounding

/-!
# Property C103: evaluation with rounding
-/

set_option linter.unusedSectionVars false

namespace Verif.Properties
open Verif Verif.Spec

/-! ## Horner's rule -/

/-- Two more roundings. -/
theorem two_roundings {u : ℝ} {rnd : ℝ → ℝ} (hu : 0 ≤ u) (hr : RelativeError u rnd) {s s' S a a' t θ : ℝ} (hθ : 0 ≤ θ) (hS : |s| ≤ S) (hs : |s' - s| ≤ θ * S)
    (ha : |a' - a| ≤ u * |a|) :
    |rnd (rnd (s' * t) + a') - (s * t + a)| ≤ ((1 + θ) * (1 + u) ^ 2 - 1) * (S * |t| + |a|) := by
  have h1 := hr (s' * t)
  have h2 := hr (rnd (s' * t) + a')
  have hS0 : 0 ≤ S := (abs_nonneg _).trans hS
  have ht := abs_nonneg t
  have ha0 := abs_nonneg a
  -- the product
  have e1 : |s' * t| ≤ (1 + θ) * (S * |t|) := by
    rw [abs_mul]
    have : |s'| ≤ (1 + θ) * S := by
      have := abs_sub_abs_le_abs_sub s' s
      nlinarith
    nlinarith
  have e2 : |s' * t - s * t| ≤ θ * (S * |t|) := by
    rw [← sub_mul, abs_mul]; nlinarith
  have e3 : |rnd (s' * t) - s * t| ≤ ((1 + θ) * (1 + u) - 1) * (S * |t|) := by
    have : |rnd (s' * t) - s * t| ≤ |rnd (s' * t) - s' * t| + |s' * t - s * t| := abs_sub_le _ _ _
    have h3 : u * |s' * t| ≤ u * ((1 + θ) * (S * |t|)) := mul_le_mul_of_nonneg_left e1 hu
    nlinarith
  -- the sum
  have e4 : |rnd (s' * t) + a' - (s * t + a)| ≤ ((1 + θ) * (1 + u) - 1) * (S * |t|) + u * |a| := by
    have : rnd (s' * t) + a' - (s * t + a) = (rnd (s' * t) - s * t) + (a' - a) := by ring
    rw [this]
    exact (abs_add_le _ _).trans (add_le_add e3 ha)
  have e5 : |s * t + a| ≤ S * |t| + |a| := by
    refine (abs_add_le _ _).trans (add_le_add ?_ le_rfl)
    rw [abs_mul]; exact mul_le_mul_of_nonneg_right hS ht
  have e6 : |rnd (s' * t) + a'| ≤ (1 + θ) * (1 + u) * (S * |t|) + (1 + u) * |a| := by
    have := abs_sub_abs_le_abs_sub (rnd (s' * t) + a') (s * t + a)
    nlinarith
  have e7 : |rnd (rnd (s' * t) + a') - (s * t + a)| ≤ |rnd (rnd (s' * t) + a') - (rnd (s' * t) + a')| + |rnd (s' * t) + a' - (s * t + a)| := abs_sub_le _ _ _
  have e8 : u * |rnd (s' * t) + a'| ≤ u * ((1 + θ) * (1 + u) * (S * |t|) + (1 + u) * |a|) := mul_le_mul_of_nonneg_left e6 hu
  have e9 : 0 ≤ θ * (1 + u) ^ 2 * |a| := by positivity
  nlinarith

theorem hornerLoop_close {u : ℝ} {rnd : ℝ → ℝ} (hu : 0 ≤ u) (hr : RelativeError u rnd) (a a' : ℕ → ℝ) (ha : ∀ j, |a' j - a j| ≤ u * |a j|) (t : ℝ) (lo : ℕ) :
    ∀ (j : ℕ) (s s' S : ℝ) (k : ℕ), lo ≤ j → |s| ≤ S → |s' - s| ≤ ((1 + u) ^ k - 1) * S →
      |Fl.hornerLoop rnd a' t lo j s' - Poly.hornerLoop a t lo j s| ≤ ((1 + u) ^ (k + 2 * (j - lo)) - 1) * Poly.hornerLoop (fun j => |a j|) |t| lo j S := by
  intro j
  induction j with
  | zero => intro s s' S k hj _ hs; simpa [Fl.hornerLoop, Poly.hornerLoop, show lo = 0 by omega] using hs
  | succ j ih =>
    intro s s' S k hj hS hs
    by_cases hlo : lo ≤ j
    · rw [Fl.hornerLoop, Poly.hornerLoop, Poly.hornerLoop, if_pos hlo, if_pos hlo, if_pos hlo]
      have hθ : 0 ≤ (1 + u) ^ k - 1 := sub_nonneg.mpr (one_le_pow₀ (by linarith))
      have h := two_roundings hu hr (t := t) hθ hS hs (ha j)
      have e : (1 + ((1 + u) ^ k - 1)) * (1 + u) ^ 2 = (1 + u) ^ (k + 2) := by ring
      rw [e] at h
      have hS' : |s * t + a j| ≤ S * |t| + |a j| := by
        refine (abs_add_le _ _).trans (add_le_add ?_ le_rfl)
        rw [abs_mul]; exact mul_le_mul_of_nonneg_right hS (abs_nonneg _)
      have := ih (s * t + a j) (rnd (rnd (s' * t) + a' j)) (S * |t| + |a j|) (k + 2) hlo hS' h
      rw [show k + 2 * (j + 1 - lo) = k + 2 + 2 * (j - lo) by omega]
      exact this
    · rw [Fl.hornerLoop, Poly.hornerLoop, Poly.hornerLoop, if_neg hlo, if_neg hlo, if_neg hlo, show j + 1 - lo = 0 by omega]
      simpa using hs

/-- C103: evaluating a derivative of a polynomial with rounding: the result differs from the exact value by at most `(1+u)^(2(N-d)-1) - 1` times the sum of the absolute
values of the terms. -/
theorem C103_polynomial (u : ℝ) (rnd : ℝ → ℝ) (hu : 0 ≤ u) (hr : RelativeError u rnd) (c : List ℝ) (t : ℝ) (d : ℕ) (hN : c.length ≤ 22) :
    ∃ v, Fl.polyEvaluate rnd c t d = .ok v ∧ |v - derivAt c d t| ≤ ((1 + u) ^ (2 * (c.length - d) - 1) - 1) * absTerms c d t := by
  unfold Fl.polyEvaluate
  by_cases hd : c.length ≤ d
  · rw [if_pos hd]
    refine ⟨0, rfl, ?_⟩
    rw [derivAt_of_length_le _ _ _ hd]
    simp [absTerms, hd]
  · rw [if_neg hd, if_neg (by unfold kMaxConvolutionSize; omega)]
    refine ⟨_, rfl, ?_⟩
    have he := evaluate_eq c t d hN
    unfold Poly.evaluate at he
    rw [if_neg hd, if_neg (by unfold kMaxConvolutionSize; omega)] at he
    rw [← Except.ok.inj he]
    have ha : ∀ j, |Fl.rowTerm rnd c d j - Poly.rowTerm c d j| ≤ u * |Poly.rowTerm c d j| := fun j => hr _
    have h := hornerLoop_close hu hr (Poly.rowTerm c d) (Fl.rowTerm rnd c d) ha t d (c.length - 1) (Poly.rowTerm c d (c.length - 1)) (Fl.rowTerm rnd c d (c.length - 1))
      |Poly.rowTerm c d (c.length - 1)| 1 (by omega) le_rfl (by simpa using ha _)
    rw [show 1 + 2 * (c.length - 1 - d) = 2 * (c.length - d) - 1 by omega] at h
    have hsum : Poly.hornerLoop (fun j => |Poly.rowTerm c d j|) |t| d (c.length - 1) |Poly.rowTerm c d (c.length - 1)| = absTerms c d t := by
      rw [hornerLoop_eq _ _ _ _ _ (by omega)]
      unfold absTerms
      obtain ⟨m, hm⟩ : ∃ m, c.length = d + m + 1 := ⟨c.length - d - 1, by omega⟩
      rw [Finset.sum_Ico_eq_sum_range, hm, show d + m + 1 - d = m + 1 by omega, show d + m + 1 - 1 - d = m by omega, Finset.sum_range_succ, add_comm]
      have hterm : ∀ j, |Poly.rowTerm c d (d + j)| = ((d + j).descFactorial d : ℝ) * |c.getD (d + j) 0| := by
        intro j
        rw [Poly.rowTerm, baseEntry_eq, abs_mul, abs_of_nonneg (Nat.cast_nonneg _)]
      congr 1
      · refine Finset.sum_congr rfl fun j _ => ?_
        rw [hterm, show d + j - d = j by omega]
      · rw [show d + m + 1 - 1 = d + m by omega, hterm, show d + m - d = m by omega]
    rw [hsum] at h
    exact h

/-! ## Finding the segment -/

theorem addTimes_fold (rnd : ℝ → ℝ) (segs : List (Segment ℝ)) (acc : ℝ) : Fl.addTimes rnd segs acc = (segs.map (·.time)).foldl (fun acc x => rnd (acc + x)) acc := by
  induction segs generalizing acc with
  | nil => rfl
  | cons s ss ih => rw [Fl.addTimes, ih]; rfl

/-- C103: the maximum time of a trajectory is the computed sum of the segment times. -/
theorem C103_max_time (rnd : ℝ → ℝ) (segs : List (Segment ℝ)) : Fl.addTimes rnd segs 0 = roundedSum rnd (segs.map (·.time)) := addTimes_fold rnd segs 0

theorem findSegment_cases (rnd : ℝ → ℝ) (t : ℝ) (segs : List (Segment ℝ)) (acc : ℝ) (i : ℕ) :
    let A := fun j => ((segs.take j).map (·.time)).foldl (fun acc x => rnd (acc + x)) acc
    (∃ j < segs.length, Fl.findSegment rnd t segs acc i = (A (j + 1), i + j) ∧ t < A (j + 1) ∧ ∀ m, 1 ≤ m → m ≤ j → A m ≤ t) ∨
    (Fl.findSegment rnd t segs acc i = (A segs.length, i + segs.length) ∧ ∀ m, 1 ≤ m → m ≤ segs.length → A m ≤ t) := by
  induction segs generalizing acc i with
  | nil => exact Or.inr ⟨rfl, fun m h1 h2 => by simp at h2; omega⟩
  | cons s ss ih =>
    intro A
    by_cases h : rnd (acc + s.time) > t
    · refine Or.inl ⟨0, by simp, ?_, ?_, fun m h1 h2 => by omega⟩
      · rw [Fl.findSegment, if_pos h]; simp [A]
      · simpa [A] using h
    · have hA : ∀ m, A (m + 1) = ((ss.take m).map (·.time)).foldl (fun acc x => rnd (acc + x)) (rnd (acc + s.time)) := by
        intro m; simp [A]
      have h1 : A 1 ≤ t := by simpa [A] using h
      rcases ih (rnd (acc + s.time)) (i + 1) with ⟨j, hj, e, ht, hm⟩ | ⟨e, hm⟩
      · refine Or.inl ⟨j + 1, by simpa using hj, ?_, by rw [hA]; exact ht, ?_⟩
        · rw [Fl.findSegment, if_neg h, e, hA, show i + 1 + j = i + (j + 1) by omega]
        · intro m h1' h2
          rcases Nat.eq_or_lt_of_le h1' with rfl | h3
          · exact h1
          · obtain ⟨m', rfl⟩ : ∃ m', m = m' + 1 := ⟨m - 1, by omega⟩
            rw [hA]; exact hm m' (by omega) (by omega)
      · refine Or.inr ⟨?_, ?_⟩
        · rw [Fl.findSegment, if_neg h, e, List.length_cons, hA, show i + 1 + ss.length = i + (ss.length + 1) by omega]
        · intro m h1' h2
          rcases Nat.eq_or_lt_of_le h1' with rfl | h3
          · exact h1
          · obtain ⟨m', rfl⟩ : ∃ m', m = m' + 1 := ⟨m - 1, by omega⟩
            rw [hA]; exact hm m' (by omega) (by simpa using h2)

/-- C103: whatever the rounding does, a time up to the computed maximum time belongs to a segment: the one whose computed start is not after it and whose computed end is after it, or the last one.
In particular evaluation at the maximum time is never out of range. -/
theorem C103_in_range (rnd : ℝ → ℝ) (D : ℕ) (segs : List (Segment ℝ)) (hne : segs ≠ []) (t : ℝ) (h0 : 0 ≤ t) (ht : t ≤ Fl.addTimes rnd segs 0) (k : ℕ) :
    ∃ j s, segs[j]? = some s ∧ roundedStart rnd segs j ≤ t ∧ (t < roundedStart rnd segs (j + 1) ∨ j + 1 = segs.length ∧ t = roundedStart rnd segs (j + 1)) ∧
      Fl.evaluate rnd D segs t k = Fl.segmentEvaluate rnd s (rnd (t - rnd (roundedStart rnd segs (j + 1) - s.time))) k := by
  have hstart : ∀ m, 1 ≤ m → ((segs.take m).map (·.time)).foldl (fun acc x => rnd (acc + x)) 0 = roundedStart rnd segs m := fun m _ => rfl
  have hz : roundedStart rnd segs 0 ≤ t := by simpa [roundedStart, roundedSum] using h0
  unfold Fl.evaluate
  rcases findSegment_cases rnd t segs 0 0 with ⟨j, hj, e, h1, h2⟩ | ⟨e, h2⟩
  · refine ⟨j, segs[j], List.getElem?_eq_getElem hj, ?_, Or.inl h1, ?_⟩
    · rcases Nat.eq_zero_or_pos j with rfl | hp
      · exact hz
      · exact h2 j hp le_rfl
    · rw [e]
      simp only [Nat.zero_add]
      rw [if_neg (not_lt.mpr h1.le), if_neg (by omega)]
      unfold at?
      rw [List.getElem?_eq_getElem hj]
      rfl
  · have hl : 1 ≤ segs.length := List.length_pos_iff.mpr hne
    have hj : segs.length - 1 < segs.length := by omega
    have hA : roundedStart rnd segs segs.length = Fl.addTimes rnd segs 0 := by
      rw [C103_max_time, roundedStart, List.take_length]
    have he : t = roundedStart rnd segs segs.length := le_antisymm (by rw [hA]; exact ht) (h2 segs.length hl le_rfl)
    refine ⟨segs.length - 1, segs[segs.length - 1], List.getElem?_eq_getElem hj, ?_, Or.inr ⟨by omega, ?_⟩, ?_⟩
    · rcases Nat.eq_zero_or_pos (segs.length - 1) with h | hp
      · rw [h]; exact hz
      · exact h2 _ hp (by omega)
    · rw [show segs.length - 1 + 1 = segs.length by omega]; exact he
    · rw [e]
      simp only [Nat.zero_add]
      rw [if_neg (not_lt.mpr (show t ≤ _ by rw [hstart _ hl]; exact he.le)), if_pos le_rfl]
      unfold at?
      rw [List.getElem?_eq_getElem hj, show segs.length - 1 + 1 = segs.length by omega]
      rfl

theorem fold_mono (rnd : ℝ → ℝ) (hr : OrderedRounding rnd) (l : List ℝ) (hl : ∀ x ∈ l, 0 ≤ x) (acc : ℝ) (ha : rnd acc = acc) :
    acc ≤ l.foldl (fun acc x => rnd (acc + x)) acc := by
  induction l generalizing acc with
  | nil => exact le_rfl
  | cons x xs ih =>
    have h1 : acc ≤ rnd (acc + x) := by
      have h := hr.1 (show acc ≤ acc + x by linarith [hl x (by simp)])
      rwa [ha] at h
    exact h1.trans (ih (fun y hy => hl y (by simp [hy])) _ (hr.2 _))

theorem fold_fixed (rnd : ℝ → ℝ) (hr : OrderedRounding rnd) (l : List ℝ) (acc : ℝ) (ha : rnd acc = acc) :
    rnd (l.foldl (fun acc x => rnd (acc + x)) acc) = l.foldl (fun acc x => rnd (acc + x)) acc := by
  induction l generalizing acc with
  | nil => exact ha
  | cons x xs ih => exact ih _ (hr.2 _)

/-- C103: times after the computed maximum time are out of range: zeros are returned. -/
theorem C103_out_of_range (rnd : ℝ → ℝ) (hr : OrderedRounding rnd) (h0 : rnd 0 = 0) (D : ℕ) (segs : List (Segment ℝ)) (hT : ∀ s ∈ segs, 0 ≤ s.time) (t : ℝ)
    (ht : Fl.addTimes rnd segs 0 < t) (k : ℕ) : Fl.evaluate rnd D segs t k = .ok (List.replicate D 0) := by
  unfold Fl.evaluate
  have hmono : ∀ m, roundedStart rnd segs m ≤ Fl.addTimes rnd segs 0 := by
    intro m
    rw [C103_max_time]
    unfold roundedStart roundedSum
    conv_rhs => rw [← List.take_append_drop m segs, List.map_append, List.foldl_append]
    refine fold_mono rnd hr _ ?_ _ (fold_fixed rnd hr _ _ h0)
    intro x hx
    obtain ⟨s, hs, rfl⟩ := List.mem_map.mp hx
    exact hT s (List.mem_of_mem_drop hs)
  rcases findSegment_cases rnd t segs 0 0 with ⟨j, hj, e, h1, _⟩ | ⟨e, _⟩
  · exact absurd (lt_of_lt_of_le h1 (hmono (j + 1))) (not_lt.mpr ht.le)
  · rw [e]
    simp only
    exact if_pos (lt_of_le_of_lt (hmono segs.length) ht)

/-! ## The time in the segment -/

/-- Error of a sum. -/
theorem fold_close {u : ℝ} {rnd : ℝ → ℝ} (hu : 0 ≤ u) (hr : RelativeError u rnd) (l : List ℝ) (hl : ∀ x ∈ l, 0 ≤ x) (acc acc' : ℝ) (m : ℕ) (ha : 0 ≤ acc)
    (h : |acc' - acc| ≤ ((1 + u) ^ m - 1) * acc) :
    |l.foldl (fun acc x => rnd (acc + x)) acc' - (acc + l.sum)| ≤ ((1 + u) ^ (m + l.length) - 1) * (acc + l.sum) := by
  induction l generalizing acc acc' m with
  | nil => simpa using h
  | cons x xs ih =>
    have hx := hl x (by simp)
    have hθ : 0 ≤ (1 + u) ^ m - 1 := sub_nonneg.mpr (one_le_pow₀ (by linarith))
    have h1 := hr (acc' + x)
    have h2 : |acc' + x - (acc + x)| ≤ ((1 + u) ^ m - 1) * (acc + x) := by
      rw [show acc' + x - (acc + x) = acc' - acc by ring]
      nlinarith
    have h3 : |acc' + x| ≤ (1 + u) ^ m * (acc + x) := by
      have := abs_sub_abs_le_abs_sub (acc' + x) (acc + x)
      rw [abs_of_nonneg (show 0 ≤ acc + x by linarith)] at this
      linarith
    have h4 : |rnd (acc' + x) - (acc + x)| ≤ ((1 + u) ^ (m + 1) - 1) * (acc + x) := by
      have : |rnd (acc' + x) - (acc + x)| ≤ |rnd (acc' + x) - (acc' + x)| + |acc' + x - (acc + x)| := abs_sub_le _ _ _
      have h5 : u * |acc' + x| ≤ u * ((1 + u) ^ m * (acc + x)) := mul_le_mul_of_nonneg_left h3 hu
      rw [pow_succ]
      nlinarith
    have := ih (fun y hy => hl y (by simp [hy])) (acc + x) (rnd (acc' + x)) (m + 1) (by linarith) h4
    rw [List.sum_cons, List.length_cons, ← add_assoc, show m + (xs.length + 1) = m + 1 + xs.length by omega]
    exact this

/-- C103: the computed time in segment `j`: its error. -/
theorem C103_local_time (u : ℝ) (rnd : ℝ → ℝ) (hu : 0 ≤ u) (hr : RelativeError u rnd) (segs : List (Segment ℝ)) (hT : ∀ s ∈ segs, 0 ≤ s.time) (j : ℕ) (s : Segment ℝ)
    (hj : segs[j]? = some s) (t : ℝ) :
    |rnd (t - rnd (roundedStart rnd segs (j + 1) - s.time)) - (t - startOf segs j)| ≤ ((1 + u) ^ (j + 3) - 1) * (startOf segs j + s.time) + u * |t| := by
  obtain ⟨hlt, hs⟩ := List.getElem?_eq_some_iff.mp hj
  have hsum : ((segs.take (j + 1)).map (·.time)).sum = startOf segs j + s.time := by
    rw [List.take_succ_eq_append_getElem hlt, List.map_append, List.sum_append, hs]
    simp [startOf, duration]
  have hlen : ((segs.take (j + 1)).map (·.time)).length = j + 1 := by
    rw [List.length_map, List.length_take]; omega
  have hs0 : 0 ≤ s.time := hT s (List.mem_of_getElem? hj)
  have hj0 : 0 ≤ startOf segs j := duration_nonneg _ fun x hx => hT x (List.mem_of_mem_take hx)
  have h1 := fold_close hu hr ((segs.take (j + 1)).map (·.time)) (by
    intro x hx
    obtain ⟨y, hy, rfl⟩ := List.mem_map.mp hx
    exact hT y (List.mem_of_mem_take hy)) 0 0 0 le_rfl (by simp)
  rw [hsum, hlen, zero_add, zero_add] at h1
  change |roundedStart rnd segs (j + 1) - _| ≤ _ at h1
  set x := roundedStart rnd segs (j + 1)
  set A := startOf segs j + s.time with hA
  have hA0 : 0 ≤ A := by linarith
  set θ := (1 + u) ^ (j + 1) - 1 with hθd
  have hθ : 0 ≤ θ := sub_nonneg.mpr (one_le_pow₀ (by linarith))
  have e : (1 + u) ^ (j + 3) - 1 = (1 + θ) * (1 + u) * (1 + u) - 1 := by rw [hθd]; ring
  rw [e]
  have h2 : |x - s.time| ≤ (1 + θ) * A := by
    have := abs_le.mp h1
    rw [abs_le]
    constructor <;> nlinarith
  have h3 := hr (x - s.time)
  have h4 : |rnd (x - s.time) - startOf segs j| ≤ ((1 + θ) * (1 + u) - 1) * A := by
    have : |rnd (x - s.time) - startOf segs j| ≤ |rnd (x - s.time) - (x - s.time)| + |x - s.time - startOf segs j| := abs_sub_le _ _ _
    have h5 : |x - s.time - startOf segs j| ≤ θ * A := by rw [show x - s.time - startOf segs j = x - A by rw [hA]; ring]; exact h1
    have h6 : u * |x - s.time| ≤ u * ((1 + θ) * A) := mul_le_mul_of_nonneg_left h2 hu
    nlinarith
  set y := rnd (x - s.time)
  have h7 := hr (t - y)
  have h8 : |t - y| ≤ |t| + (1 + θ) * (1 + u) * A := by
    have h9 : |y| ≤ (1 + θ) * (1 + u) * A := by
      have := abs_sub_abs_le_abs_sub y (startOf segs j)
      rw [abs_of_nonneg hj0] at this
      linarith
    exact (abs_sub _ _).trans (add_le_add le_rfl h9)
  have h10 : |rnd (t - y) - (t - startOf segs j)| ≤ |rnd (t - y) - (t - y)| + |t - y - (t - startOf segs j)| := abs_sub_le _ _ _
  have h11 : |t - y - (t - startOf segs j)| = |y - startOf segs j| := by rw [abs_sub_comm]; congr 1; ring
  have h12 : u * |t - y| ≤ u * (|t| + (1 + θ) * (1 + u) * A) := mul_le_mul_of_nonneg_left h8 hu
  nlinarith

/-- Evaluating a segment with rounding. -/
theorem segment_near (u : ℝ) (rnd : ℝ → ℝ) (hu : 0 ≤ u) (hr : RelativeError u rnd) (s : Segment ℝ) (hs : Regular s) (τ : ℝ) (k : ℕ) :
    ∃ vs, Fl.segmentEvaluate rnd s τ k = .ok vs ∧ NearDerivative u s k τ vs := by
  have hp : ∀ p ∈ s.polys, ∃ v, Fl.polyEvaluate rnd p τ k = .ok v ∧ |v - derivAt p k τ| ≤ ((1 + u) ^ (2 * (s.N - k) - 1) - 1) * absTerms p k τ := by
    intro p hp
    have := C103_polynomial u rnd hu hr p τ k (hs.le p hp)
    rwa [hs.1 p hp] at this
  choose! g hg1 hg2 using hp
  refine ⟨s.polys.map g, mapM_ok _ _ _ fun p hp => hg1 p hp, by simp, ?_⟩
  intro d p v hd hv
  rw [List.getElem?_map, hd] at hv
  rw [← Option.some.inj hv]
  exact hg2 p (List.mem_of_getElem? hd)

/-- C103: evaluating a trajectory with rounding: some segment is evaluated at almost the right time, and each component of the result is almost the derivative of that segment there. -/
theorem C103_trajectory (u : ℝ) (rnd : ℝ → ℝ) (hu : 0 ≤ u) (hr : RelativeError u rnd) (D : ℕ) (segs : List (Segment ℝ)) (hne : segs ≠ []) (hT : ∀ s ∈ segs, 0 ≤ s.time)
    (hR : ∀ s ∈ segs, Regular s) (t : ℝ) (h0 : 0 ≤ t) (ht : t ≤ Fl.addTimes rnd segs 0) (k : ℕ) :
    ∃ j s τ vs, segs[j]? = some s ∧ roundedStart rnd segs j ≤ t ∧ (t < roundedStart rnd segs (j + 1) ∨ j + 1 = segs.length ∧ t = roundedStart rnd segs (j + 1)) ∧
      |τ - (t - startOf segs j)| ≤ ((1 + u) ^ (j + 3) - 1) * (startOf segs j + s.time) + u * t ∧
      Fl.evaluate rnd D segs t k = .ok vs ∧ NearDerivative u s k τ vs := by
  obtain ⟨j, s, hj, h1, h2, he⟩ := C103_in_range rnd D segs hne t h0 ht k
  have hl := C103_local_time u rnd hu hr segs hT j s hj t
  rw [abs_of_nonneg h0] at hl
  obtain ⟨vs, hv, hn⟩ := segment_near u rnd hu hr s (hR s (List.mem_of_getElem? hj)) (rnd (t - rnd (roundedStart rnd segs (j + 1) - s.time))) k
  exact ⟨j, s, _, vs, hj, h1, h2, hl, he.trans hv, hn⟩

/-- C103: hence the distance of each component to the value at the right time, if the next derivative of the segment is at most `M` (in absolute value) up to the error of the time. -/
theorem C103_accuracy (u : ℝ) (rnd : ℝ → ℝ) (hu : 0 ≤ u) (hr : RelativeError u rnd) (D : ℕ) (segs : List (Segment ℝ)) (hne : segs ≠ []) (hT : ∀ s ∈ segs, 0 ≤ s.time)
    (hR : ∀ s ∈ segs, Regular s) (t : ℝ) (h0 : 0 ≤ t) (ht : t ≤ Fl.addTimes rnd segs 0) (k : ℕ) (M B : ℝ)
    (hM : ∀ j s, segs[j]? = some s → ∀ p ∈ s.polys, ∀ τ, |τ - (t - startOf segs j)| ≤ ((1 + u) ^ (j + 3) - 1) * (startOf segs j + s.time) + u * t →
      |derivAt p (k + 1) τ| ≤ M ∧ absTerms p k τ ≤ B) :
    ∃ j s vs, segs[j]? = some s ∧ roundedStart rnd segs j ≤ t ∧ (t < roundedStart rnd segs (j + 1) ∨ j + 1 = segs.length ∧ t = roundedStart rnd segs (j + 1)) ∧
      Fl.evaluate rnd D segs t k = .ok vs ∧ vs.length = s.polys.length ∧
      ∀ (d : ℕ) p v, s.polys[d]? = some p → vs[d]? = some v → |v - derivAt p k (t - startOf segs j)| ≤
        ((1 + u) ^ (2 * (s.N - k) - 1) - 1) * B + M * (((1 + u) ^ (j + 3) - 1) * (startOf segs j + s.time) + u * t) := by
  obtain ⟨j, s, τ, vs, hj, h1, h2, hτ, he, hlen, hv⟩ := C103_trajectory u rnd hu hr D segs hne hT hR t h0 ht k
  refine ⟨j, s, vs, hj, h1, h2, he, hlen, fun d p v hd hvd => ?_⟩
  have h := hv d p v hd hvd
  have hp := List.mem_of_getElem? hd
  set E := ((1 + u) ^ (j + 3) - 1) * (startOf segs j + s.time) + u * t
  have hE : 0 ≤ E := (abs_nonneg _).trans hτ
  have hM0 : 0 ≤ M := (abs_nonneg _).trans (hM j s hj p hp τ hτ).1
  have hmv := (convex_uIcc (t - startOf segs j) τ).norm_image_sub_le_of_norm_hasDerivWithin_le (f := fun x => derivAt p k x) (f' := fun x => derivAt p (k + 1) x) (C := M)
    (fun z _ => (hasDerivAt_derivAt p k z).hasDerivWithinAt)
    (by
      intro z hz
      refine (hM j s hj p hp z ?_).1
      exact (Set.abs_sub_left_of_mem_uIcc hz).trans hτ)
    Set.left_mem_uIcc Set.right_mem_uIcc
  rw [Real.norm_eq_abs, Real.norm_eq_abs] at hmv
  have hθ : 0 ≤ (1 + u) ^ (2 * (s.N - k) - 1) - 1 := sub_nonneg.mpr (one_le_pow₀ (by linarith))
  have h3 : ((1 + u) ^ (2 * (s.N - k) - 1) - 1) * absTerms p k τ ≤ ((1 + u) ^ (2 * (s.N - k) - 1) - 1) * B := mul_le_mul_of_nonneg_left (hM j s hj p hp τ hτ).2 hθ
  have h4 : M * |τ - (t - startOf segs j)| ≤ M * E := mul_le_mul_of_nonneg_left hτ hM0
  have h5 : |v - derivAt p k (t - startOf segs j)| ≤ |v - derivAt p k τ| + |derivAt p k τ - derivAt p k (t - startOf segs j)| := abs_sub_le _ _ _
  linarith

/-! ## A rounding with these properties -/

theorem nearestNonneg_zero (p : ℕ) : nearestNonneg p 0 = 0 := by simp [nearestNonneg]

theorem two_zpow_pos (e : ℤ) : (0 : ℝ) < 2 ^ e := zpow_pos (by norm_num) e

theorem log_bounds {x : ℝ} (hx : 0 < x) : (2 : ℝ) ^ Int.log 2 x ≤ x ∧ x < (2 : ℝ) ^ (Int.log 2 x + 1) :=
  ⟨by exact_mod_cast Int.zpow_log_le_self (b := 2) (by norm_num) hx, by exact_mod_cast Int.lt_zpow_succ_log_self (b := 2) (by norm_num) x⟩

theorem zpow_split (e f : ℤ) : (2 : ℝ) ^ e = 2 ^ (e - f) * 2 ^ f := by
  rw [← zpow_add₀ (by norm_num), sub_add_cancel]

/-- The rounded number lies between the powers of two around the number. -/
theorem nearestNonneg_bounds {p : ℕ} (hp : 1 ≤ p) {x : ℝ} (hx : 0 < x) :
    ∃ m : ℤ, nearestNonneg p x = m * 2 ^ (Int.log 2 x - p + 1) ∧ 2 ^ (p - 1) ≤ m ∧ m ≤ 2 ^ p := by
  obtain ⟨h1, h2⟩ := log_bounds hx
  set e := Int.log 2 x - p + 1 with he
  have hpos := two_zpow_pos e
  refine ⟨round (x / 2 ^ e), rfl, ?_, ?_⟩
  · rw [round_eq, Int.le_floor]
    have : (2 : ℝ) ^ (p - 1) ≤ x / 2 ^ e := by
      rw [le_div_iff₀ hpos, ← zpow_natCast, ← zpow_add₀ (by norm_num), show ((p - 1 : ℕ) : ℤ) + e = Int.log 2 x by rw [he]; omega]
      exact h1
    push_cast
    linarith
  · have : x / 2 ^ e < (2 : ℝ) ^ p := by
      rw [div_lt_iff₀ hpos, ← zpow_natCast, ← zpow_add₀ (by norm_num), show (p : ℤ) + e = Int.log 2 x + 1 by rw [he]; omega]
      exact h2
    rw [round_eq, ← Int.lt_add_one_iff, Int.floor_lt]
    push_cast
    linarith

theorem nearestNonneg_nonneg {p : ℕ} (hp : 1 ≤ p) {x : ℝ} (hx : 0 ≤ x) : 0 ≤ nearestNonneg p x := by
  rcases eq_or_lt_of_le hx with rfl | h
  · rw [nearestNonneg_zero]
  · obtain ⟨m, e, h1, _⟩ := nearestNonneg_bounds hp h
    rw [e]
    have : (0 : ℤ) ≤ m := le_trans (by positivity) h1
    exact mul_nonneg (by exact_mod_cast this) (two_zpow_pos _).le

theorem nearestNonneg_close (p : ℕ) {x : ℝ} (hx : 0 ≤ x) : |nearestNonneg p x - x| ≤ 2⁻¹ ^ p * x := by
  rcases eq_or_lt_of_le hx with rfl | h
  · rw [nearestNonneg_zero]; simp
  · obtain ⟨h1, _⟩ := log_bounds h
    unfold nearestNonneg
    set e := Int.log 2 x - p + 1 with he
    have hpos := two_zpow_pos e
    have e1 : (round (x / 2 ^ e) : ℝ) * 2 ^ e - x = (round (x / 2 ^ e) - x / 2 ^ e) * 2 ^ e := by field_simp
    rw [e1, abs_mul, abs_of_pos hpos]
    have h3 : |(round (x / 2 ^ e) : ℝ) - x / 2 ^ e| ≤ 1 / 2 := by rw [abs_sub_comm]; exact abs_sub_round _
    have h4 : (2 : ℝ) ^ e = 2 * 2⁻¹ ^ p * 2 ^ Int.log 2 x := by
      rw [he, zpow_add_one₀ (by norm_num), zpow_sub₀ (by norm_num), zpow_natCast, inv_pow]
      ring
    calc _ ≤ 1 / 2 * (2 : ℝ) ^ e := mul_le_mul_of_nonneg_right h3 hpos.le
      _ = 2⁻¹ ^ p * 2 ^ Int.log 2 x := by rw [h4]; ring
      _ ≤ 2⁻¹ ^ p * x := mul_le_mul_of_nonneg_left h1 (by positivity)

theorem nearestNonneg_mono {p : ℕ} (hp : 1 ≤ p) {x y : ℝ} (hx : 0 ≤ x) (hxy : x ≤ y) : nearestNonneg p x ≤ nearestNonneg p y := by
  rcases eq_or_lt_of_le hx with rfl | h
  · rw [nearestNonneg_zero]; exact nearestNonneg_nonneg hp hxy
  have hy : 0 < y := h.trans_le hxy
  have hl : Int.log 2 x ≤ Int.log 2 y := Int.log_mono_right h hxy
  rcases eq_or_lt_of_le hl with he | hlt
  · unfold nearestNonneg
    rw [he]
    refine mul_le_mul_of_nonneg_right ?_ (two_zpow_pos _).le
    have : x / 2 ^ (Int.log 2 y - p + 1) ≤ y / 2 ^ (Int.log 2 y - p + 1) := div_le_div_of_nonneg_right hxy (two_zpow_pos _).le
    rw [round_eq, round_eq]
    exact_mod_cast Int.floor_mono (by linarith)
  · obtain ⟨m, em, _, hm⟩ := nearestNonneg_bounds hp h
    obtain ⟨m', em', hm', _⟩ := nearestNonneg_bounds hp hy
    rw [em, em']
    have a1 : (m : ℝ) * 2 ^ (Int.log 2 x - p + 1) ≤ 2 ^ (Int.log 2 x + 1) := by
      have : (m : ℝ) ≤ 2 ^ (p : ℤ) := by rw [zpow_natCast]; exact_mod_cast hm
      refine (mul_le_mul_of_nonneg_right this (two_zpow_pos _).le).trans_eq ?_
      rw [← zpow_add₀ (by norm_num)]; congr 1; omega
    have a2 : (2 : ℝ) ^ Int.log 2 y ≤ m' * 2 ^ (Int.log 2 y - p + 1) := by
      have : (2 : ℝ) ^ ((p - 1 : ℕ) : ℤ) ≤ m' := by rw [zpow_natCast]; exact_mod_cast hm'
      refine le_trans (le_of_eq ?_) (mul_le_mul_of_nonneg_right this (two_zpow_pos _).le)
      rw [← zpow_add₀ (by norm_num)]; congr 1; omega
    exact a1.trans ((zpow_le_zpow_right₀ (by norm_num) (by omega)).trans a2)

theorem nearestNonneg_fixed {p : ℕ} {x : ℝ} (hx : 0 ≤ x) (hb : HasBits p x) : nearestNonneg p x = x := by
  rcases eq_or_lt_of_le hx with rfl | h
  · exact nearestNonneg_zero p
  obtain ⟨m, f, hm, e⟩ := hb
  obtain ⟨h1, _⟩ := log_bounds h
  have hlt : Int.log 2 x < p + f := by
    have : x < (2 : ℝ) ^ ((p : ℤ) + f) := by
      rw [e, zpow_add₀ (by norm_num), zpow_natCast]
      refine mul_lt_mul_of_pos_right ?_ (two_zpow_pos f)
      have := (le_abs_self m).trans_lt hm
      exact_mod_cast this
    exact (zpow_lt_zpow_iff_right₀ (by norm_num : (1 : ℝ) < 2)).mp (h1.trans_lt this)
  obtain ⟨q, hq⟩ : ∃ q : ℕ, f = q + (Int.log 2 x - p + 1) := ⟨(f - (Int.log 2 x - p + 1)).toNat, by omega⟩
  unfold nearestNonneg
  have e2 : x / 2 ^ (Int.log 2 x - p + 1) = ((m * 2 ^ q : ℤ) : ℝ) := by
    rw [div_eq_iff (two_zpow_pos _).ne']
    push_cast
    rw [mul_assoc, ← zpow_natCast, ← zpow_add₀ (by norm_num), ← hq]
    exact e
  rw [e2, round_intCast, ← e2, div_mul_cancel₀ _ (two_zpow_pos _).ne']

theorem nearestNonneg_hasBits {p : ℕ} (hp : 1 ≤ p) {x : ℝ} (hx : 0 ≤ x) : HasBits p (nearestNonneg p x) := by
  rcases eq_or_lt_of_le hx with rfl | h
  · rw [nearestNonneg_zero]; exact ⟨0, 0, by simp, by simp⟩
  · obtain ⟨m, e, h1, h2⟩ := nearestNonneg_bounds hp h
    have h0 : (0 : ℤ) ≤ m := le_trans (by positivity) h1
    rcases eq_or_lt_of_le h2 with he | hlt
    · refine ⟨1, Int.log 2 x + 1, by rw [abs_one]; exact one_lt_pow₀ (by norm_num) (by omega), ?_⟩
      rw [e, he]
      push_cast
      rw [one_mul, ← zpow_natCast, ← zpow_add₀ (by norm_num)]; congr 1; omega
    · exact ⟨m, _, by rw [abs_of_nonneg h0]; exact hlt, e⟩

theorem hasBits_neg {p : ℕ} {x : ℝ} (h : HasBits p x) : HasBits p (-x) := by
  obtain ⟨m, e, hm, rfl⟩ := h
  exact ⟨-m, e, by rwa [abs_neg], by push_cast; ring⟩

/-- C103: rounding to the nearest number with `p` significant bits has relative error at most `2⁻ᵖ`, keeps the order, and changes exactly the numbers which need more bits.
(`p = 53` is `double` without overflow and underflow.) -/
theorem C103_nearest (p : ℕ) (hp : 1 ≤ p) :
    RelativeError (2⁻¹ ^ p) (nearest p) ∧ OrderedRounding (nearest p) ∧ nearest p 0 = 0 ∧ (∀ x, HasBits p (nearest p x)) ∧ ∀ x, nearest p x = x ↔ HasBits p x := by
  have hbits : ∀ x, HasBits p (nearest p x) := by
    intro x
    unfold nearest
    split
    · exact nearestNonneg_hasBits hp ‹_›
    · exact hasBits_neg (nearestNonneg_hasBits hp (by linarith))
  have hfix : ∀ x, HasBits p x → nearest p x = x := by
    intro x hx
    unfold nearest
    split
    · exact nearestNonneg_fixed ‹_› hx
    · rw [nearestNonneg_fixed (by linarith) (hasBits_neg hx), neg_neg]
  refine ⟨?_, ⟨?_, fun x => hfix _ (hbits x)⟩, by simp [nearest, nearestNonneg_zero], hbits, fun x => ⟨fun h => h ▸ hbits x, hfix x⟩⟩
  · intro x
    unfold nearest
    split
    · rename_i h
      rw [abs_of_nonneg h]; exact nearestNonneg_close p h
    · rename_i h
      rw [abs_of_neg (not_le.mp h), show -nearestNonneg p (-x) - x = -(nearestNonneg p (-x) - -x) by ring, abs_neg]
      exact nearestNonneg_close p (by linarith)
  · intro x y hxy
    unfold nearest
    split <;> split
    · exact nearestNonneg_mono hp ‹_› hxy
    · linarith
    · have h1 := nearestNonneg_nonneg hp (x := y) ‹_›
      have h2 := nearestNonneg_nonneg hp (x := -x) (by linarith)
      linarith
    · have := nearestNonneg_mono hp (x := -y) (y := -x) (by linarith) (by linarith)
      linarith

theorem table_bits : ∀ i < 22, ∀ d < 23, ∃ e < 19, baseEntry d i % 2 ^ e = 0 ∧ baseEntry d i / 2 ^ e < 2 ^ 53 := by decide +kernel

/-- C103: every entry of the table of derivative factors is a number of double precision. -/
theorem C103_table_exact (d i : ℕ) (hi : i ≤ 21) : HasBits 53 (i.descFactorial d) := by
  by_cases hd : d < 23
  · obtain ⟨e, _, h1, h2⟩ := table_bits i (by omega) d hd
    rw [baseEntry_eq] at h1 h2
    refine ⟨(i.descFactorial d / 2 ^ e : ℕ), e, ?_, ?_⟩
    · rw [abs_of_nonneg (Int.natCast_nonneg _)]; exact_mod_cast h2
    · rw [zpow_natCast]
      have := Nat.div_mul_cancel (Nat.dvd_of_mod_eq_zero h1)
      exact_mod_cast this.symm
  · rw [Nat.descFactorial_of_lt (by omega)]
    exact ⟨0, 0, by norm_num, by simp⟩

/-! ## Without rounding -/

theorem fl_horner_id (a : ℕ → ℝ) (t : ℝ) (lo j : ℕ) (acc : ℝ) : Fl.hornerLoop id a t lo j acc = Poly.hornerLoop a t lo j acc := by
  induction j generalizing acc with
  | zero => rfl
  | succ j ih => simp only [Fl.hornerLoop, Poly.hornerLoop, id, ih]

theorem fl_poly_id (c : List ℝ) (t : ℝ) (d : ℕ) : Fl.polyEvaluate id c t d = Poly.evaluate c t d := by
  have : Fl.rowTerm id c d = Poly.rowTerm c d := rfl
  simp only [Fl.polyEvaluate, Poly.evaluate, fl_horner_id, this]

theorem fl_find_id (t : ℝ) (segs : List (Segment ℝ)) (acc : ℝ) (i : ℕ) : Fl.findSegment id t segs acc i = Trajectory.findSegment t segs acc i := by
  induction segs generalizing acc i with
  | nil => rfl
  | cons s ss ih => simp only [Fl.findSegment, Trajectory.findSegment, id, ih]

/-- C103: without rounding the model is the exact one. -/
theorem C103_without_rounding (tr : Trajectory ℝ) (t : ℝ) (k : ℕ) : Fl.evaluate id tr.D tr.segments t k = tr.evaluate t k := by
  have : ∀ (s : Segment ℝ) τ, Fl.segmentEvaluate id s τ k = s.evaluate τ k := by
    intro s τ
    unfold Fl.segmentEvaluate Segment.evaluate
    congr 1
    exact funext fun p => fl_poly_id p τ k
  simp only [Fl.evaluate, Trajectory.evaluate, fl_find_id, id, this]

/-! ## Examples -/

/-- Two segments of durations 1 and 2. -/
noncomputable def roundingExample : List (Segment ℝ) := [⟨2, 1, [[0, 1]]⟩, ⟨2, 2, [[1, 1 / 2]]⟩]

theorem roundingExample_regular : ∀ s ∈ roundingExample, Regular s := by
  intro s hs
  simp only [roundingExample, List.mem_cons, List.not_mem_nil, or_false] at hs
  rcases hs with rfl | rfl <;> exact ⟨by simp, by norm_num⟩

theorem roundingExample_times : ∀ s ∈ roundingExample, 0 ≤ s.time := by
  intro s hs
  simp only [roundingExample, List.mem_cons, List.not_mem_nil, or_false] at hs
  rcases hs with rfl | rfl <;> norm_num

theorem nearest_int (p : ℕ) (hp : 1 ≤ p) (m : ℤ) (hm : |m| < 2 ^ p) : nearest p m = m := ((C103_nearest p hp).2.2.2.2 _).mpr ⟨m, 0, hm, by simp⟩

/-- The computed maximum time is 3 in double precision. -/
theorem roundingExample_max : Fl.addTimes (nearest 53) roundingExample 0 = 3 := by
  have h1 := nearest_int 53 (by norm_num) 1 (by norm_num)
  have h3 := nearest_int 53 (by norm_num) 3 (by norm_num)
  simp only [roundingExample, Fl.addTimes, zero_add]
  push_cast at h1 h3
  rw [h1, show (1 : ℝ) + 2 = 3 by norm_num, h3]

/-- The hypotheses of `C103_trajectory` hold in double precision at the time 2.5. -/
example : ∃ j s τ vs, roundingExample[j]? = some s ∧ roundedStart (nearest 53) roundingExample j ≤ 5 / 2 ∧
    (5 / 2 < roundedStart (nearest 53) roundingExample (j + 1) ∨ j + 1 = roundingExample.length ∧ 5 / 2 = roundedStart (nearest 53) roundingExample (j + 1)) ∧
    |τ - (5 / 2 - startOf roundingExample j)| ≤ ((1 + 2⁻¹ ^ 53) ^ (j + 3) - 1) * (startOf roundingExample j + s.time) + 2⁻¹ ^ 53 * (5 / 2) ∧
    Fl.evaluate (nearest 53) 1 roundingExample (5 / 2) 0 = .ok vs ∧ NearDerivative (2⁻¹ ^ 53) s 0 τ vs :=
  C103_trajectory _ (nearest 53) (by positivity) (C103_nearest 53 (by norm_num)).1 1 roundingExample (by simp [roundingExample]) roundingExample_times
    roundingExample_regular (5 / 2) (by norm_num) (by rw [roundingExample_max]; norm_num) 0

/-- Times after 3 are out of range. -/
example : Fl.evaluate (nearest 53) 1 roundingExample 4 0 = .ok [0] :=
  C103_out_of_range _ (C103_nearest 53 (by norm_num)).2.1 (C103_nearest 53 (by norm_num)).2.2.1 1 roundingExample roundingExample_times 4
    (by rw [roundingExample_max]; norm_num) 0

/-- Rounding matters: with one significant bit `1 + 2` is `4`. -/
example : nearest 1 3 = 4 := by
  have hl : Nat.log 2 3 = 1 := by decide +kernel
  have hr : round ((3 : ℝ) / 2) = 2 := by rw [round_eq]; norm_num
  simp only [nearest, nearestNonneg]
  norm_num [hl, hr]

end Verif.Properties
