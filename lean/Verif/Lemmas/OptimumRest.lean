import Verif.Spec.OptimumRest
import Verif.Lemmas.OptimumFrame

/-!
# Lemmas: the parts of an optimal curve are optimal
-/

namespace Verif.Lemmas

open Verif Verif.Spec Verif.Properties

/-- The vertex holds the state in which the segment begins. -/
def BeginsAt (h : ℕ) (st : Vertex ℝ) (s : Segment ℝ) : Prop := ∀ j < h, st.getConstraint (j : ℕ) = some (segDeriv s j 0)

variable {h dim k : ℕ} {q : Problem ℝ} {st : Vertex ℝ} {a : List (Segment ℝ)} {s : Segment ℝ}

theorem rest_vertex (hk : k < q.vertices.length) (i : ℕ) : (restOf k st q).vertices[i + 1]? = q.vertices[k + (i + 1)]? := by
  unfold restOf
  simp only [List.getElem?_cons_succ, List.getElem?_drop]
  congr 1
  omega

theorem upTo_vertex (hk : k < q.vertices.length) (i : ℕ) (hi : i < k) : (upTo k st q).vertices[i]? = q.vertices[i]? := by
  unfold upTo
  simp only
  rw [List.getElem?_append_left (by rw [List.length_take]; omega), List.getElem?_take_of_lt hi]

theorem upTo_last (hk : k < q.vertices.length) : (upTo k st q).vertices[k]? = some st := by
  unfold upTo
  simp only
  rw [List.getElem?_append_right (by rw [List.length_take]; omega), List.length_take, Nat.min_eq_left hk.le, Nat.sub_self]
  rfl

theorem rest_candidate (hk : k < q.vertices.length) (ha : Candidate h dim q a) (hs : a[k]? = some s) (hst : BeginsAt h st s) :
    Candidate h dim (restOf k st q) (a.drop k) := by
  refine ⟨?_, fun x hx => ha.dims x (List.mem_of_mem_drop hx), fun x hx => ha.degree x (List.mem_of_mem_drop hx), ?_, ?_⟩
  · rw [List.map_drop, ha.times]; rfl
  · intro i x hx j c hj
    rw [List.getElem?_drop] at hx
    refine ⟨fun v hv hc => ?_, fun v hv hc => ?_⟩
    · cases i with
      | zero =>
        obtain rfl : st = v := Option.some.inj hv
        obtain rfl : s = x := Option.some.inj (hs.symm.trans hx)
        exact Option.some.inj ((hst j hj).symm.trans hc)
      | succ i =>
        rw [rest_vertex hk] at hv
        exact (ha.constraints _ x hx j c hj).1 v hv hc
    · rw [rest_vertex hk] at hv
      exact (ha.constraints _ x hx j c hj).2 v hv hc
  · intro i x y hx hy
    rw [List.getElem?_drop] at hx hy
    exact ha.smooth (k + i) x y hx hy

theorem upTo_candidate (hk : k < q.vertices.length) (ha : Candidate h dim q a) (hs : a[k]? = some s) (hst : BeginsAt h st s) :
    Candidate h dim (upTo k st q) (a.take k) := by
  have get : ∀ {i : ℕ} {x : Segment ℝ}, (a.take k)[i]? = some x → i < k ∧ a[i]? = some x := fun {i x} hx => by
    rw [List.getElem?_take] at hx
    split at hx
    · exact ⟨by assumption, hx⟩
    · cases hx
  refine ⟨?_, fun x hx => ha.dims x (List.mem_of_mem_take hx), fun x hx => ha.degree x (List.mem_of_mem_take hx), ?_, ?_⟩
  · rw [List.map_take, ha.times]; rfl
  · intro i x hx0 j c hj
    obtain ⟨hi, hx⟩ := get hx0
    clear hx0 get
    refine ⟨fun v hv hc => ?_, fun v hv hc => ?_⟩
    · rw [upTo_vertex hk i hi] at hv
      exact (ha.constraints _ x hx j c hj).1 v hv hc
    · rcases Nat.lt_or_ge (i + 1) k with h1 | h1
      · rw [upTo_vertex hk _ h1] at hv
        exact (ha.constraints _ x hx j c hj).2 v hv hc
      · obtain rfl : k = i + 1 := by omega
        rw [upTo_last hk] at hv
        obtain rfl := Option.some.inj hv
        rw [ha.smooth i x s hx hs j hj]
        exact Option.some.inj ((hst j hj).symm.trans hc)
  · intro i x y hx hy
    exact ha.smooth i x y (get hx).2 (get hy).2

/-- Two parts that meet in the state of the whole make a whole. -/
theorem parts_candidate (hk : k < q.vertices.length) (hkt : k ≤ q.times.length) (ha : Candidate h dim q a) (hs : a[k]? = some s) (hst : BeginsAt h st s)
    {b c : List (Segment ℝ)} (hb : Candidate h dim (upTo k st q) b) (hc : Candidate h dim (restOf k st q) c) : Candidate h dim q (b ++ c) := by
  have hbl : b.length = k := by
    have := congrArg List.length hb.times
    rw [List.length_map] at this
    rw [this]
    show (q.times.take k).length = k
    rw [List.length_take]; omega
  have vk : ∀ (v : Vertex ℝ) (j : ℕ) (x : List ℝ), j < h → q.vertices[k]? = some v → v.getConstraint j = some x → st.getConstraint j = some x := by
    intro v j x hj hv hx
    rw [hst j hj, (ha.constraints k s hs j x hj).1 v hv hx]
  refine ⟨?_, ?_, ?_, ?_, ?_⟩
  · rw [List.map_append, hb.times, hc.times]
    exact List.take_append_drop k q.times
  · intro x hx
    rcases List.mem_append.mp hx with hx | hx
    · exact hb.dims x hx
    · exact hc.dims x hx
  · intro x hx
    rcases List.mem_append.mp hx with hx | hx
    · exact hb.degree x hx
    · exact hc.degree x hx
  · intro i x hx j e hj
    rcases Nat.lt_or_ge i k with hi | hi
    · rw [List.getElem?_append_left (by omega)] at hx
      refine ⟨fun v hv he => (hb.constraints i x hx j e hj).1 v (by rw [upTo_vertex hk i hi]; exact hv) he, fun v hv he => ?_⟩
      rcases Nat.lt_or_ge (i + 1) k with h1 | h1
      · exact (hb.constraints i x hx j e hj).2 v (by rw [upTo_vertex hk _ h1]; exact hv) he
      · obtain rfl : k = i + 1 := by omega
        exact (hb.constraints i x hx j e hj).2 st (upTo_last hk) (vk v j e hj hv he)
    · rw [List.getElem?_append_right (by omega), hbl] at hx
      refine ⟨fun v hv he => ?_, fun v hv he => ?_⟩
      · rcases Nat.eq_or_lt_of_le hi with h1 | h1
        · subst h1
          rw [Nat.sub_self] at hx
          exact (hc.constraints 0 x hx j e hj).1 st rfl (vk v j e hj hv he)
        · refine (hc.constraints (i - k) x hx j e hj).1 v ?_ he
          rw [show i - k = (i - k - 1) + 1 by omega, rest_vertex hk, ← hv]
          congr 1
          omega
      · refine (hc.constraints (i - k) x hx j e hj).2 v ?_ he
        rw [rest_vertex hk, ← hv]
        congr 1
        omega
  · intro i x y hx hy j hj
    rcases Nat.lt_or_ge i k with hi | hi
    · rw [List.getElem?_append_left (by omega)] at hx
      rcases Nat.lt_or_ge (i + 1) k with h1 | h1
      · rw [List.getElem?_append_left (by omega)] at hy
        exact hb.smooth i x y hx hy j hj
      · obtain rfl : k = i + 1 := by omega
        rw [List.getElem?_append_right (by omega), hbl, Nat.sub_self] at hy
        rw [(hb.constraints i x hx j _ hj).2 st (upTo_last hk) (hst j hj), (hc.constraints 0 y hy j _ hj).1 st rfl (hst j hj)]
    · rw [List.getElem?_append_right (by omega), hbl] at hx hy
      refine hc.smooth (i - k) x y hx ?_ j hj
      rw [← hy]
      congr 1
      omega

theorem energy_append (d : ℕ) (b c : List (Segment ℝ)) : energy d (b ++ c) = energy d b + energy d c := by
  unfold energy
  rw [List.map_append, List.sum_append]

/-- The parts of an optimal curve are optimal for the parts of the problem. -/
theorem rest_optimal (hk : k < q.vertices.length) (hkt : k ≤ q.times.length) (ho : Optimal h dim q a) (hs : a[k]? = some s) (hst : BeginsAt h st s) :
    Optimal h dim (restOf k st q) (a.drop k) := by
  refine ⟨rest_candidate hk ho.1 hs hst, fun c hc => ?_⟩
  have h1 := ho.2 _ (parts_candidate hk hkt ho.1 hs hst (upTo_candidate hk ho.1 hs hst) hc)
  conv_lhs at h1 => rw [← List.take_append_drop k a]
  rw [energy_append, energy_append] at h1
  exact le_of_add_le_add_left h1

theorem upTo_optimal (hk : k < q.vertices.length) (hkt : k ≤ q.times.length) (ho : Optimal h dim q a) (hs : a[k]? = some s) (hst : BeginsAt h st s) :
    Optimal h dim (upTo k st q) (a.take k) := by
  refine ⟨upTo_candidate hk ho.1 hs hst, fun c hc => ?_⟩
  have h1 := ho.2 _ (parts_candidate hk hkt ho.1 hs hst hc (rest_candidate hk ho.1 hs hst))
  conv_lhs at h1 => rw [← List.take_append_drop k a]
  rw [energy_append, energy_append] at h1
  exact le_of_add_le_add_right h1

end Verif.Lemmas
