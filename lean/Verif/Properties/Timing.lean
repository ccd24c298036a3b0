import Verif.Spec.Timing
import Mathlib.Data.List.Rotate
import Mathlib.Algebra.Order.Field.Basic
import Mathlib.Order.Bounds.Basic
import Mathlib.Tactic.Ring
import Mathlib.Tactic.Linarith
import Mathlib.Tactic.FieldSimp
import Mathlib.Tactic.NormNum

/-!
# Properties C67, C68, C86: timing statistics, registry of timers, timers

Specification in `Verif.Spec.Timing`.
-/

set_option linter.unusedSectionVars false

namespace Verif.Properties

open Verif Spec Timing

variable {K : Type} [Field K] [LinearOrder K] [IsStrictOrderedRing K]

/-! ## Helper lemmas -/

/-- What holds of an accumulator after the samples `l`. -/
structure AccInv (N : ℕ) (l : List K) (a : Accumulator K) : Prop where
  window : a.window = l.length
  total : a.total = l.length
  windowSum : a.windowSum = (lastN N l).sum
  sum : a.sum = l.sum
  short : l.length ≤ N → a.samples = l
  long : N ≤ l.length → a.samples.length = N ∧ a.samples.rotate (l.length % N) = lastN N l
  max : IsGreatest {x | x = dblMin ∨ x ∈ l} a.max
  min : IsLeast {x | x = dblMax ∨ x ∈ l} a.min

theorem lastN_short {N : ℕ} {l : List K} (h : l.length ≤ N) : lastN N l = l := by
  unfold lastN; rw [Nat.sub_eq_zero_of_le h]; rfl

/-- Replacing the oldest entry of a full ring buffer. -/
theorem ring_step (N : ℕ) (hN : 0 < N) (l buf : List K) (x : K) (hl : N ≤ l.length) (hb : buf.length = N)
    (hr : buf.rotate (l.length % N) = lastN N l) :
    ∃ o, buf[l.length % N]? = some o ∧ (buf.set (l.length % N) x).rotate ((l.length + 1) % N) = lastN N (l ++ [x]) ∧
      (lastN N (l ++ [x])).sum = (lastN N l).sum + (x - o) := by
  have hk : l.length % N < buf.length := by rw [hb]; exact Nat.mod_lt _ hN
  obtain ⟨k, hk0⟩ : ∃ k, k = l.length % N := ⟨_, rfl⟩
  rw [← hk0] at hr hk ⊢
  have hlast : lastN N l = buf.drop k ++ buf.take k := by rw [← hr, List.rotate_eq_drop_append_take hk.le]
  have hdrop : buf.drop k = buf[k] :: buf.drop (k + 1) := List.drop_eq_getElem_cons hk
  have hnew : lastN N (l ++ [x]) = buf.drop (k + 1) ++ (buf.take k ++ [x]) := by
    have h1 : lastN N (l ++ [x]) = (lastN N l).tail ++ [x] := by
      unfold lastN
      rw [List.length_append, List.length_singleton, List.tail_drop, List.drop_append_of_le_length (by omega)]
      congr 2
      omega
    rw [h1, hlast, hdrop]
    simp only [List.cons_append, List.tail_cons, List.append_assoc]
  have hset : buf.set k x = (buf.take k ++ [x]) ++ buf.drop (k + 1) := by
    rw [List.set_eq_take_append_cons_drop, if_pos hk]; simp
  refine ⟨buf[k], List.getElem?_eq_getElem hk, ?_, ?_⟩
  · have hlen : (buf.take k ++ [x]).length = k + 1 := by simp; omega
    rw [hnew, hset]
    by_cases hlt : k + 1 < N
    · have : (l.length + 1) % N = k + 1 := by
        rw [Nat.add_mod, ← hk0, Nat.mod_eq_of_lt (show 1 < N by omega), Nat.mod_eq_of_lt hlt]
      rw [this, ← hlen, List.rotate_append_length_eq]
    · have hkN : k + 1 = N := by omega
      have : (l.length + 1) % N = 0 := by
        have := Nat.div_add_mod l.length N
        rw [← hk0] at this
        rw [show l.length + 1 = N * (l.length / N) + N by omega]
        simp
      rw [this, List.rotate_zero, List.drop_eq_nil_of_le (show buf.length ≤ k + 1 by omega)]
      simp
  · rw [hnew, hlast, hdrop]
    simp only [List.sum_append, List.sum_cons, List.sum_nil]
    ring

theorem greatest_step {d m x : K} {l : List K} (h : IsGreatest {y | y = d ∨ y ∈ l} m) :
    IsGreatest {y | y = d ∨ y ∈ l ++ [x]} (if m < x then x else m) := by
  split
  · rename_i hlt
    refine ⟨.inr (by simp), ?_⟩
    rintro y (hy | hy)
    · exact (h.2 (.inl hy)).trans hlt.le
    · rcases List.mem_append.mp hy with hy | hy
      · exact (h.2 (.inr hy)).trans hlt.le
      · exact (List.mem_singleton.mp hy).le
  · rename_i hlt
    refine ⟨h.1.imp id (fun h => List.mem_append_left _ h), ?_⟩
    rintro y (hy | hy)
    · exact h.2 (.inl hy)
    · rcases List.mem_append.mp hy with hy | hy
      · exact h.2 (.inr hy)
      · rw [List.mem_singleton.mp hy]; exact not_lt.mp hlt

theorem least_step {d m x : K} {l : List K} (h : IsLeast {y | y = d ∨ y ∈ l} m) :
    IsLeast {y | y = d ∨ y ∈ l ++ [x]} (if x < m then x else m) := by
  split
  · rename_i hlt
    refine ⟨.inr (by simp), ?_⟩
    rintro y (hy | hy)
    · exact hlt.le.trans (h.2 (.inl hy))
    · rcases List.mem_append.mp hy with hy | hy
      · exact hlt.le.trans (h.2 (.inr hy))
      · exact (List.mem_singleton.mp hy).ge
  · rename_i hlt
    refine ⟨h.1.imp id (fun h => List.mem_append_left _ h), ?_⟩
    rintro y (hy | hy)
    · exact h.2 (.inl hy)
    · rcases List.mem_append.mp hy with hy | hy
      · exact h.2 (.inr hy)
      · rw [List.mem_singleton.mp hy]; exact not_lt.mp hlt

theorem add_inv (N : ℕ) (hN : 0 < N) (l : List K) (x : K) (a : Accumulator K) (ha : AccInv N l a) (hl : l.length < intMax) :
    ∃ a', a.add N x = .ok a' ∧ AccInv N (l ++ [x]) a' := by
  unfold Accumulator.add
  rw [if_neg (by rw [ha.window, ha.total]; omega)]
  by_cases hw : a.window < N
  · rw [if_pos hw]
    simp only [pure, Except.pure, bind, Except.bind]
    refine ⟨_, rfl, ?_⟩
    have hlen : l.length < N := ha.window ▸ hw
    have hs : a.samples.take a.window ++ [x] = l ++ [x] := by
      rw [ha.short hlen.le, ha.window, List.take_length]
    constructor
    · split <;> split <;> simp [ha.window]
    · split <;> split <;> simp [ha.total]
    · have : (lastN N (l ++ [x])).sum = (lastN N l).sum + x := by
        rw [lastN_short (by simp; omega), lastN_short hlen.le]; simp
      split <;> split <;> simp only [this, ha.windowSum]
    · split <;> split <;> simp [ha.sum]
    · intro _
      split <;> split <;> exact hs
    · intro h
      have hN' : (l ++ [x]).length = N := by simp at h ⊢; omega
      have : a.samples.take a.window ++ [x] = l ++ [x] := hs
      refine ⟨?_, ?_⟩
      · split <;> split <;> simp only [this, hN']
      · rw [hN', Nat.mod_self, lastN_short hN'.le]
        split <;> split <;> simp only [this, List.rotate_zero]
    · have := greatest_step (x := x) ha.max
      split
      · rename_i h; rw [if_pos h] at this; split <;> exact this
      · rename_i h; rw [if_neg h] at this; split <;> exact this
    · have := least_step (x := x) ha.min
      split <;> split <;> rename_i h1 h2 <;> simp only at h1 h2
      all_goals first
        | (rw [if_pos h2] at this; exact this)
        | (rw [if_neg h2] at this; exact this)
  · rw [if_neg hw, if_neg (by omega)]
    have hlen : N ≤ l.length := by rw [← ha.window]; omega
    obtain ⟨h1, h2⟩ := ha.long hlen
    obtain ⟨o, ho, hr, hsum⟩ := ring_step N hN l a.samples x hlen h1 h2
    have hat : at? a.samples (a.window % N) = .ok o := by unfold at?; rw [ha.window, ho]
    rw [hat]
    simp only [pure, Except.pure, bind, Except.bind]
    refine ⟨_, rfl, ?_⟩
    constructor
    · split <;> split <;> simp [ha.window]
    · split <;> split <;> simp [ha.total]
    · split <;> split <;> simp only [hsum, ha.windowSum]
    · split <;> split <;> simp [ha.sum]
    · intro h; simp at h; omega
    · intro _
      have hr' : (a.samples.set (a.window % N) x).rotate ((l ++ [x]).length % N) = lastN N (l ++ [x]) := by
        rw [ha.window, List.length_append, List.length_singleton, hr]
      refine ⟨?_, ?_⟩
      · split <;> split <;> simp only [List.length_set, h1]
      · split <;> split <;> exact hr'
    · have := greatest_step (x := x) ha.max
      split
      · rename_i h; rw [if_pos h] at this; split <;> exact this
      · rename_i h; rw [if_neg h] at this; split <;> exact this
    · have := least_step (x := x) ha.min
      split <;> split <;> rename_i h1 h2 <;> simp only at h1 h2
      all_goals first
        | (rw [if_pos h2] at this; exact this)
        | (rw [if_neg h2] at this; exact this)

theorem addAll_inv (N : ℕ) (hN : 0 < N) (l : List K) (hl : l.length ≤ 2 ^ 31 - 1) : ∃ a, addAll N l = .ok a ∧ AccInv N l a := by
  induction l using List.reverseRecOn with
  | nil =>
    refine ⟨.init, rfl, ⟨rfl, rfl, by simp [Accumulator.init, lastN], rfl, fun _ => rfl, fun h => absurd h (by simpa using hN.ne'), ?_, ?_⟩⟩
    · exact ⟨.inl rfl, fun y hy => by rcases hy with hy | hy; exacts [hy.le, absurd hy (by simp)]⟩
    · exact ⟨.inl rfl, fun y hy => by rcases hy with hy | hy; exacts [hy.ge, absurd hy (by simp)]⟩
  | append_singleton l x ih =>
    rw [List.length_append, List.length_singleton] at hl
    obtain ⟨a, ha, hi⟩ := ih (by omega)
    obtain ⟨a', ha', hi'⟩ := add_inv N hN l x a hi (by unfold intMax; omega)
    refine ⟨a', ?_, hi'⟩
    unfold addAll at ha ⊢
    rw [List.foldlM_append, ha]
    simp only [bind, Except.bind, List.foldlM_cons, ha', List.foldlM_nil]
    rfl

theorem lastN_length (N : ℕ) (l : List K) : (lastN N l).length = Nat.min l.length N := by
  unfold lastN
  rw [List.length_drop]
  show _ = min _ _
  omega

theorem samples_perm {N : ℕ} {l : List K} {a : Accumulator K} (h : AccInv N l a) :
    (a.samples.take (Nat.min a.window N)).Perm (lastN N l) := by
  rcases Nat.le_total l.length N with hl | hl
  · rw [h.short hl, h.window, show Nat.min l.length N = l.length from Nat.min_eq_left hl, List.take_length, lastN_short hl]
  · obtain ⟨h1, h2⟩ := h.long hl
    rw [h.window, show Nat.min l.length N = N from Nat.min_eq_right hl, ← h2, List.take_of_length_le h1.le]
    exact (List.rotate_perm _ _).symm

/-! ## C67: the accumulator -/

/-- C67: after any sequence of at most `2³¹ - 1` samples: number, sum and mean are those of all samples, rolling mean and variance those of the last
`N`. -/
theorem C67_statistics (N : ℕ) (hN : 0 < N) (l : List K) (hl : l.length ≤ 2 ^ 31 - 1) (hne : l ≠ []) :
    ∃ a, addAll N l = .ok a ∧ a.total = l.length ∧ a.sum = l.sum ∧ a.mean = .ok (average l) ∧
      a.rollingMean N = .ok (average (lastN N l)) ∧ a.lazyVariance N = .ok (variance (lastN N l)) := by
  obtain ⟨a, ha, hi⟩ := addAll_inv N hN l hl
  have hpos : 0 < l.length := List.length_pos_iff.mpr hne
  have hroll : a.rollingMean N = .ok (average (lastN N l)) := by
    unfold Accumulator.rollingMean average
    have : 0 < Nat.min l.length N := Nat.lt_min.mpr ⟨hpos, hN⟩
    rw [hi.window, if_neg this.ne', lastN_length, hi.windowSum]
  refine ⟨a, ha, hi.total, hi.sum, ?_, hroll, ?_⟩
  · unfold Accumulator.mean average
    rw [hi.total, if_neg hpos.ne', hi.sum]
  · unfold Accumulator.lazyVariance
    rw [if_neg (by rw [hi.window]; exact hpos.ne'), hroll]
    simp only [bind, Except.bind, pure, Except.pure]
    unfold variance average
    rw [List.length_map, lastN_length, hi.window]
    congr 2
    have := ((samples_perm hi).map (fun s => (s - average (lastN N l)) * (s - average (lastN N l)))).sum_eq
    rw [hi.window] at this
    unfold average at this
    rw [lastN_length] at this
    rw [this]
    simp only [sq]

/-- C67: the minimum is that of the samples. (Samples are finite numbers.) -/
theorem C67_min (N : ℕ) (hN : 0 < N) (l : List K) (hl : l.length ≤ 2 ^ 31 - 1) (hne : l ≠ []) (hfin : ∀ x ∈ l, x ≤ (2 - 1 / 2 ^ 52) * 2 ^ 1023) (a : Accumulator K)
    (ha : addAll N l = .ok a) : IsLeast {x | x ∈ l} a.min := by
  obtain ⟨a', ha', hi⟩ := addAll_inv N hN l hl
  obtain rfl : a = a' := Except.ok.inj (ha.symm.trans ha')
  refine ⟨?_, fun y hy => hi.min.2 (.inr hy)⟩
  rcases hi.min.1 with h | h
  · obtain ⟨x, hx⟩ := List.exists_mem_of_ne_nil l hne
    have : a.min ≤ x := hi.min.2 (.inr hx)
    have : x = a.min := le_antisymm ((hfin x hx).trans h.ge) this
    rw [← this]; exact hx
  · exact h

/-- C67: the maximum is that of the samples and of the smallest positive `double`. -/
theorem C67_max (N : ℕ) (hN : 0 < N) (l : List K) (hl : l.length ≤ 2 ^ 31 - 1) (a : Accumulator K) (ha : addAll N l = .ok a) :
    IsGreatest {x | x = 1 / 2 ^ 1022 ∨ x ∈ l} a.max := by
  obtain ⟨a', ha', hi⟩ := addAll_inv N hN l hl
  rw [Except.ok.inj (ha.symm.trans ha')]; exact hi.max

/-- C67 as stated for the maximum. -/
def MaxIsMaximum (K : Type) [Field K] [LinearOrder K] [IsStrictOrderedRing K] : Prop :=
  ∀ (N : ℕ) (l : List K) (a : Accumulator K), 0 < N → l ≠ [] → l.length ≤ 2 ^ 31 - 1 → addAll N l = .ok a → IsGreatest {x | x ∈ l} a.max

/-- C67: it holds if some sample is positive (not below the smallest positive `double`). Missing: samples that are all below it, for which it is
false. -/
theorem C67_max_partial (N : ℕ) (hN : 0 < N) (l : List K) (hl : l.length ≤ 2 ^ 31 - 1) (hpos : ∃ x ∈ l, 1 / 2 ^ 1022 ≤ x) (a : Accumulator K)
    (ha : addAll N l = .ok a) : IsGreatest {x | x ∈ l} a.max := by
  obtain ⟨h1, h2⟩ := C67_max N hN l hl a ha
  refine ⟨?_, fun y hy => h2 (.inr hy)⟩
  rcases h1 with h | h
  · obtain ⟨x, hx, hd⟩ := hpos
    have : x = a.max := le_antisymm (h2 (.inr hx)) (h.trans_le hd)
    rw [← this]; exact hx
  · exact h

theorem dblMin_pos : (0 : K) < dblMin := div_pos one_pos (pow_pos two_pos _)

theorem dblMin_le_one : (dblMin : K) ≤ 1 := by
  unfold dblMin
  rw [div_le_one (pow_pos two_pos _)]
  exact one_le_pow₀ one_le_two

theorem eight_le_dblMax : (8 : K) ≤ dblMax := by
  unfold dblMax
  have h1 : (8 : K) ≤ 2 ^ 1023 := by
    calc (8 : K) = 2 ^ 3 := by norm_num
      _ ≤ 2 ^ 1023 := pow_le_pow_right₀ one_le_two (by norm_num)
  have h2 : (1 : K) ≤ 2 - 1 / 2 ^ 52 := by norm_num
  calc (8 : K) ≤ 1 * 2 ^ 1023 := by rw [one_mul]; exact h1
    _ ≤ _ := mul_le_mul_of_nonneg_right h2 (pow_nonneg zero_le_two _)

/-- C67: if no sample is positive, `Max` returns the smallest positive `double`, which is above all samples. -/
theorem C67_max_wrong (N : ℕ) (hN : 0 < N) (l : List K) (hl : l.length ≤ 2 ^ 31 - 1) (hneg : ∀ x ∈ l, x ≤ 0) (a : Accumulator K)
    (ha : addAll N l = .ok a) : a.max = 1 / 2 ^ 1022 ∧ ∀ x ∈ l, x < a.max := by
  obtain ⟨h1, h2⟩ := C67_max N hN l hl a ha
  have : a.max = dblMin := by
    rcases h1 with h | h
    · exact h
    · exact absurd ((h2 (.inl rfl)).trans (hneg _ h)) (not_le.mpr dblMin_pos)
  exact ⟨this, fun x hx => by rw [this]; exact (hneg x hx).trans_lt dblMin_pos⟩

/-- C67 is false of the code for the maximum: one sample of zero. -/
theorem C67_max_refuted : ¬ MaxIsMaximum K := by
  intro h
  obtain ⟨a, ha, _⟩ := addAll_inv 50 (by norm_num) [(0 : K)] (by simp)
  have h1 := h 50 [0] a (by norm_num) (by simp) (by simp) ha
  have h2 := C67_max_wrong 50 (by norm_num) [(0 : K)] (by simp) (by simp) a ha
  exact absurd (h2.2 _ h1.1) (lt_irrefl _)

/-- C67: after `2³¹ - 1` samples the next one overflows the counters. -/
theorem C67_overflow (N : ℕ) (hN : 0 < N) (l : List K) (hl : l.length = 2 ^ 31 - 1) (x : K) : addAll N (l ++ [x]) = .error .ub := by
  obtain ⟨a, ha, hi⟩ := addAll_inv N hN l hl.le
  unfold addAll at ha ⊢
  rw [List.foldlM_append, ha]
  simp only [bind, Except.bind, List.foldlM_cons]
  unfold Accumulator.add
  rw [if_pos (.inl (by rw [hi.window, hl]; rfl))]

/-- C67: without samples the means are not finite and the variance is zero. -/
theorem C67_no_samples (N : ℕ) : (Accumulator.init : Accumulator K).mean = .error .nonfinite ∧
    (Accumulator.init : Accumulator K).rollingMean N = .error .nonfinite ∧ (Accumulator.init : Accumulator K).lazyVariance N = .ok 0 := by
  refine ⟨rfl, ?_, rfl⟩
  unfold Accumulator.rollingMean
  rw [if_pos (by show min 0 N = 0; simp)]

/-- A concrete case: a window of two, four samples. -/
example : ∃ a, addAll 2 [(1 : ℚ), 5, 3, 8] = .ok a ∧ a.mean = .ok (17 / 4) ∧ a.rollingMean 2 = .ok (11 / 2) ∧ a.lazyVariance 2 = .ok (25 / 4) ∧
    a.max = 8 ∧ a.min = 1 := by
  obtain ⟨a, h1, _, _, h2, h3, h4⟩ := C67_statistics 2 (by norm_num) [(1 : ℚ), 5, 3, 8] (by decide) (by simp)
  have hmax := C67_max_partial 2 (by norm_num) [(1 : ℚ), 5, 3, 8] (by decide) ⟨8, by simp, dblMin_le_one.trans (by norm_num)⟩ a h1
  have hmin := C67_min 2 (by norm_num) [(1 : ℚ), 5, 3, 8] (by decide) (by simp) (by
    intro x hx; simp at hx; rcases hx with rfl | rfl | rfl | rfl <;> exact le_trans (by norm_num) eight_le_dblMax) a h1
  refine ⟨a, h1, by rw [h2]; norm_num [average], by rw [h3]; norm_num [average, lastN], by rw [h4]; norm_num [variance, average, lastN], ?_, ?_⟩
  · exact hmax.unique ⟨by simp, by rintro x hx; simp at hx; rcases hx with rfl | rfl | rfl | rfl <;> norm_num⟩
  · exact hmin.unique ⟨by simp, by rintro x hx; simp at hx; rcases hx with rfl | rfl | rfl | rfl <;> norm_num⟩

/-! ## C68: the registry of timers -/

/-- The durations recorded for a handle by a history. -/
def recorded (h : ℕ) (cs : List (TimingCall K)) : List K :=
  cs.filterMap fun c => match c with
    | .time h' s => if h' = h then some s else none
    | _ => none

/-- No call of the history is a reset. -/
def NoReset (cs : List (TimingCall K)) : Prop := ∀ c ∈ cs, c ≠ .reset

structure RegInv (cs : List (TimingCall K)) (r : Registry K) : Prop where
  keys : (r.tags.map (·.1)).Nodup
  handles : (r.tags.map (·.2)).Nodup
  valid : ∀ x ∈ r.tags, x.2 < r.timers.length
  longest : ∀ x ∈ r.tags, x.1.utf8ByteSize ≤ r.maxTagLength
  stats : ∀ (h : ℕ) (a : Accumulator K), r.timers[h]? = some a → addAll window (recorded h cs) = .ok a
  unused : ∀ h, r.timers.length ≤ h → recorded h cs = []

theorem recorded_append (h : ℕ) (cs : List (TimingCall K)) (c : TimingCall K) :
    recorded h (cs ++ [c]) = recorded h cs ++ (match c with | .time h' s => if h' = h then [s] else [] | _ => []) := by
  unfold recorded
  rw [List.filterMap_append]
  congr 1
  cases c with
  | tag t => rfl
  | reset => rfl
  | time h' s => simp only [List.filterMap_cons, List.filterMap_nil]; split <;> simp_all

theorem find_some {r : Registry K} {t : String} {h : ℕ} (e : r.find t = some h) : (t, h) ∈ r.tags := by
  unfold Registry.find at e
  obtain ⟨x, hx, rfl⟩ := Option.map_eq_some_iff.mp e
  have h1 := List.find?_some hx
  have h2 := List.mem_of_find?_eq_some hx
  simp only [beq_iff_eq] at h1
  rw [← h1]; exact h2

theorem find_none {r : Registry K} {t : String} (e : r.find t = none) : t ∉ r.tags.map (·.1) := by
  unfold Registry.find at e
  rw [Option.map_eq_none_iff, List.find?_eq_none] at e
  intro hm
  obtain ⟨x, hx, h1⟩ := List.mem_map.mp hm
  exact e x hx (by simp [h1])

theorem find_of_mem {r : Registry K} (hk : (r.tags.map (·.1)).Nodup) {t : String} {h : ℕ} (hm : (t, h) ∈ r.tags) : r.find t = some h := by
  cases e : r.find t with
  | none => exact absurd (List.mem_map.mpr ⟨_, hm, rfl⟩) (find_none e)
  | some h' =>
    have hm' := find_some e
    have := List.inj_on_of_nodup_map hk hm' hm rfl
    rw [(Prod.mk.inj this).2]

theorem reg_step {cs : List (TimingCall K)} {r r' : Registry K} (hi : RegInv cs r) (c : TimingCall K) (hr : c.run r = .ok r') :
    RegInv (cs ++ [c]) r' := by
  cases c with
  | tag t =>
    have hrec : ∀ h, recorded h (cs ++ [.tag t]) = recorded h cs := fun h => by rw [recorded_append]; simp
    obtain rfl : (r.getHandle t).1 = r' := Except.ok.inj hr
    unfold Registry.getHandle
    split
    · exact ⟨hi.keys, hi.handles, hi.valid, hi.longest, fun h a e => by rw [hrec]; exact hi.stats h a e, fun h hh => by rw [hrec]; exact hi.unused h hh⟩
    · rename_i e
      constructor
      · simp only [List.map_append, List.map_cons, List.map_nil]
        exact List.nodup_append.mpr ⟨hi.keys, by simp, by
          intro a ha b hb; rw [List.mem_singleton.mp hb]; rintro rfl; exact find_none e ha⟩
      · simp only [List.map_append, List.map_cons, List.map_nil]
        refine List.nodup_append.mpr ⟨hi.handles, by simp, ?_⟩
        intro a ha b hb
        rw [List.mem_singleton.mp hb]
        rintro rfl
        obtain ⟨x, hx, hx2⟩ := List.mem_map.mp ha
        have := hi.valid x hx
        omega
      · intro x hx
        simp only [List.length_append, List.length_singleton]
        rcases List.mem_append.mp hx with hx | hx
        · have := hi.valid x hx; omega
        · rw [List.mem_singleton.mp hx]; simp
      · intro x hx
        rcases List.mem_append.mp hx with hx | hx
        · exact (hi.longest x hx).trans (le_max_left _ _)
        · rw [List.mem_singleton.mp hx]; exact le_max_right _ _
      · intro h a ha
        rw [hrec]
        simp only at ha
        by_cases hh : h < r.timers.length
        · rw [List.getElem?_append_left hh] at ha
          exact hi.stats h a ha
        · rw [List.getElem?_append_right (by omega)] at ha
          rw [hi.unused h (by omega), List.mem_singleton.mp (List.mem_of_getElem? ha)]
          rfl
      · intro h hh
        simp only [List.length_append, List.length_singleton] at hh
        rw [hrec]
        exact hi.unused h (by omega)
  | reset =>
    have hrec : ∀ h, recorded h (cs ++ [.reset]) = recorded h cs := fun h => by rw [recorded_append]; simp
    obtain rfl : r.reset = r' := Except.ok.inj hr
    exact ⟨by simp [Registry.reset], by simp [Registry.reset], by simp [Registry.reset], by simp [Registry.reset],
      fun h a e => by rw [hrec]; exact hi.stats h a e, fun h hh => by rw [hrec]; exact hi.unused h hh⟩
  | time h s =>
    simp only [TimingCall.run, Registry.addTime, bind, Except.bind, at?] at hr
    cases e : r.timers[h]? with
    | none => rw [e] at hr; cases hr
    | some a =>
      rw [e] at hr
      simp only at hr
      cases e2 : a.add window s with
      | error x => rw [e2] at hr; cases hr
      | ok a' =>
        rw [e2] at hr
        obtain rfl := Except.ok.inj hr
        have hlt : h < r.timers.length := (List.getElem?_eq_some_iff.mp e).1
        refine ⟨hi.keys, hi.handles, fun x hx => by simpa using hi.valid x hx, hi.longest, ?_, ?_⟩
        · intro h' b hb
          rw [recorded_append]
          simp only at hb ⊢
          by_cases hh : h = h'
          · subst hh
            rw [if_pos rfl]
            rw [List.getElem?_set_self hlt] at hb
            have h0 := hi.stats h a e
            unfold addAll at h0 ⊢
            rw [List.foldlM_append, h0]
            simp only [bind, Except.bind, List.foldlM_cons, e2, List.foldlM_nil, pure, Except.pure]
            exact congrArg _ (Option.some.inj hb)
          · rw [if_neg hh, List.append_nil]
            rw [List.getElem?_set_ne hh] at hb
            exact hi.stats h' b hb
        · intro h' hh'
          simp only [List.length_set] at hh'
          rw [recorded_append]
          simp only
          rw [if_neg (by omega), List.append_nil]
          exact hi.unused h' hh'

theorem reg_inv (cs : List (TimingCall K)) (r : Registry K) (hr : runCalls cs = .ok r) : RegInv cs r := by
  induction cs using List.reverseRecOn generalizing r with
  | nil =>
    obtain rfl : Registry.init = r := Except.ok.inj hr
    exact ⟨by simp [Registry.init], by simp [Registry.init], by simp [Registry.init], by simp [Registry.init],
      fun h a e => by simp [Registry.init] at e, fun _ _ => rfl⟩
  | append_singleton cs c ih =>
    unfold runCalls at hr
    rw [List.foldlM_append] at hr
    cases e : cs.foldlM TimingCall.run (Registry.init : Registry K) with
    | error x => rw [e] at hr; cases hr
    | ok r1 =>
      rw [e] at hr
      simp only [bind, Except.bind, List.foldlM_cons, List.foldlM_nil] at hr
      cases e1 : TimingCall.run r1 c with
      | error x => rw [e1] at hr; cases hr
      | ok r2 =>
        rw [e1] at hr
        obtain rfl : r2 = r := Except.ok.inj hr
        exact reg_step (ih r1 e) c e1

theorem run_append {cs cs' : List (TimingCall K)} {r r' : Registry K} (h1 : runCalls cs = .ok r) (h2 : cs'.foldlM TimingCall.run r = .ok r') :
    runCalls (cs ++ cs') = .ok r' := by
  unfold runCalls at h1 ⊢
  rw [List.foldlM_append, h1]; exact h2

/-- What later calls keep: the statistics list only grows; without a reset, tags stay. -/
theorem keeps {cs : List (TimingCall K)} {r r' : Registry K} (h : cs.foldlM TimingCall.run r = .ok r') :
    r.timers.length ≤ r'.timers.length ∧ (NoReset cs → ∀ x ∈ r.tags, x ∈ r'.tags) ∧
    ∀ x ∈ r'.tags, x ∈ r.tags ∨ r.timers.length ≤ x.2 := by
  induction cs generalizing r with
  | nil => obtain rfl : r = r' := Except.ok.inj h; exact ⟨le_rfl, fun _ _ h => h, fun _ h => .inl h⟩
  | cons c cs ih =>
    rw [List.foldlM_cons] at h
    cases e : TimingCall.run r c with
    | error x => rw [e] at h; cases h
    | ok r1 =>
      rw [e] at h
      obtain ⟨g1, g2, g3⟩ := ih h
      have hc : r.timers.length ≤ r1.timers.length ∧ (c ≠ .reset → ∀ x ∈ r.tags, x ∈ r1.tags) ∧
          ∀ x ∈ r1.tags, x ∈ r.tags ∨ r.timers.length ≤ x.2 := by
        cases c with
        | tag t =>
          obtain rfl : (r.getHandle t).1 = r1 := Except.ok.inj e
          unfold Registry.getHandle
          split
          · exact ⟨le_rfl, fun _ _ h => h, fun _ h => .inl h⟩
          · refine ⟨by simp, fun _ x hx => List.mem_append_left _ hx, fun x hx => ?_⟩
            rcases List.mem_append.mp hx with hx | hx
            · exact .inl hx
            · rw [List.mem_singleton.mp hx]; exact .inr le_rfl
        | reset =>
          obtain rfl : r.reset = r1 := Except.ok.inj e
          exact ⟨le_rfl, fun h => absurd rfl h, fun x hx => by simp [Registry.reset] at hx⟩
        | time hd s =>
          simp only [TimingCall.run, Registry.addTime, bind, Except.bind, at?] at e
          split at e
          · cases e
          · split at e
            · cases e
            · obtain rfl := Except.ok.inj e
              exact ⟨by simp, fun _ _ h => h, fun _ h => .inl h⟩
      refine ⟨hc.1.trans g1, fun hn x hx => ?_, fun x hx => ?_⟩
      · exact g2 (fun c' hc' => hn c' (List.mem_cons_of_mem _ hc')) x (hc.2.1 (hn c List.mem_cons_self) x hx)
      · rcases g3 x hx with h | h
        · exact hc.2.2 x h
        · exact .inr (hc.1.trans h)

theorem getHandle_mem (r : Registry K) (t : String) :
    (t, (r.getHandle t).2) ∈ (r.getHandle t).1.tags ∧ ((r.getHandle t).1 = r ∨ (r.getHandle t).2 = r.timers.length ∧ t ∉ r.tags.map (·.1)) := by
  unfold Registry.getHandle
  split
  · rename_i e; exact ⟨find_some e, .inl rfl⟩
  · rename_i e; exact ⟨by simp, .inr ⟨rfl, find_none e⟩⟩

/-- C68: as long as the registry is not reset, a tag keeps its handle, looking it up again changes nothing, and `GetTag` gives the tag back. -/
theorem C68_same_handle (cs cs' : List (TimingCall K)) (r r' : Registry K) (t : String) (h1 : runCalls cs = .ok r)
    (h2 : cs'.foldlM TimingCall.run (r.getHandle t).1 = .ok r') (hn : NoReset cs') :
    r'.getHandle t = (r', (r.getHandle t).2) ∧ r'.getTag (r.getHandle t).2 = t := by
  have hr1 : runCalls (cs ++ [.tag t]) = .ok (r.getHandle t).1 := run_append h1 rfl
  have hi := reg_inv _ _ (run_append hr1 h2)
  have hm := (keeps h2).2.1 hn _ (getHandle_mem r t).1
  refine ⟨?_, ?_⟩
  · have := find_of_mem hi.keys hm
    unfold Registry.getHandle at this ⊢
    rw [this]
  · unfold Registry.getTag
    cases e : r'.tags.find? (fun x => x.2 == (r.getHandle t).2) with
    | none => exact absurd (List.find?_eq_none.mp e _ hm) (by simp)
    | some y =>
      have h3 := List.find?_some e
      have h4 := List.mem_of_find?_eq_some e
      simp only [beq_iff_eq] at h3
      have := List.inj_on_of_nodup_map hi.handles h4 hm h3
      rw [this]

/-- C68: different tags have different handles, over any later history, including resets; after a reset even the same tag gets a new one. -/
theorem C68_distinct (cs cs' : List (TimingCall K)) (r r' : Registry K) (t t' : String) (h1 : runCalls cs = .ok r)
    (h2 : cs'.foldlM TimingCall.run (r.getHandle t).1 = .ok r') (hne : t ≠ t' ∨ .reset ∈ cs') : (r'.getHandle t').2 ≠ (r.getHandle t).2 := by
  have hr1 : runCalls (cs ++ [.tag t]) = .ok (r.getHandle t).1 := run_append h1 rfl
  have hi1 := reg_inv _ _ hr1
  have hi := reg_inv _ _ (run_append hr1 h2)
  have hm := (getHandle_mem r t).1
  have hv := hi1.valid _ hm
  have hnew : ∀ (x : String × ℕ), x ∈ (r'.getHandle t').1.tags → x.2 = (r.getHandle t).2 → .reset ∈ cs' → False := by
    intro x hx hx2 hres
    obtain ⟨a, b, hab⟩ := List.append_of_mem hres
    rw [hab, List.foldlM_append] at h2
    cases e : a.foldlM TimingCall.run (r.getHandle t).1 with
    | error y => rw [e] at h2; cases h2
    | ok ra =>
      rw [e] at h2
      have h2 : b.foldlM TimingCall.run ra.reset = .ok r' := h2
      have h3 : (b ++ [TimingCall.tag t']).foldlM TimingCall.run ra.reset = .ok (r'.getHandle t').1 := by
        rw [List.foldlM_append, h2]; rfl
      rcases (keeps h3).2.2 x hx with h | h
      · simp [Registry.reset] at h
      · have := (keeps e).1
        have : ra.reset.timers.length = ra.timers.length := rfl
        omega
  intro he
  have hm' := (getHandle_mem r' t').1
  by_cases hres : .reset ∈ cs'
  · exact hnew _ hm' he hres
  · have hne : t ≠ t' := hne.resolve_right hres
    have hn : NoReset cs' := fun c hc e => hres (e ▸ hc)
    have hr2 : runCalls ((cs ++ [.tag t]) ++ cs' ++ [.tag t']) = .ok (r'.getHandle t').1 := run_append (run_append hr1 h2) rfl
    have hi2 := reg_inv _ _ hr2
    have h3 : (cs' ++ [TimingCall.tag t']).foldlM TimingCall.run (r.getHandle t).1 = .ok (r'.getHandle t').1 := by
      rw [List.foldlM_append, h2]; rfl
    have hmt := (keeps h3).2.1 (by
      intro c hc
      rcases List.mem_append.mp hc with hc | hc
      · exact hn c hc
      · rw [List.mem_singleton.mp hc]; simp) _ hm
    have := List.inj_on_of_nodup_map hi2.handles hmt hm' he.symm
    exact hne (Prod.mk.inj this).1

/-- C68: the statistics read with a handle are those of exactly the durations recorded for this handle, over the whole history, resets or not; other
numbers are undefined behaviour. -/
theorem C68_statistics (cs : List (TimingCall K)) (r : Registry K) (hr : runCalls cs = .ok r) (h : ℕ) :
    (h < r.timers.length → ∃ a, r.stats h = .ok a ∧ addAll window (recorded h cs) = .ok a) ∧ (r.timers.length ≤ h → r.stats h = .error .ub) := by
  have hi := reg_inv cs r hr
  unfold Registry.stats at?
  refine ⟨fun hlt => ?_, fun hge => by rw [List.getElem?_eq_none hge]⟩
  rw [List.getElem?_eq_getElem hlt]
  exact ⟨_, rfl, hi.stats h _ (List.getElem?_eq_getElem hlt)⟩

/-- C68: a handle once handed out stays valid, also after resets. -/
theorem C68_stays_valid (cs cs' : List (TimingCall K)) (r r' : Registry K) (t : String) (h1 : runCalls cs = .ok r)
    (h2 : cs'.foldlM TimingCall.run (r.getHandle t).1 = .ok r') : (r.getHandle t).2 < r'.timers.length := by
  have hr1 : runCalls (cs ++ [.tag t]) = .ok (r.getHandle t).1 := run_append h1 rfl
  exact ((reg_inv _ _ hr1).valid _ (getHandle_mem r t).1).trans_le (keeps h2).1

/-- C68: a query by tag for a tag that is not known creates it, without samples. -/
theorem C68_query_creates (r : Registry K) (t : String) (hn : ∀ x ∈ r.tags, x.1 ≠ t) :
    (r.statsOf t).2 = .ok .init ∧ (r.statsOf t).1.timers.length = r.timers.length + 1 ∧ (t, r.timers.length) ∈ (r.statsOf t).1.tags := by
  have : r.find t = none := by
    cases e : r.find t with
    | none => rfl
    | some h => exact absurd rfl (hn _ (find_some e))
  unfold Registry.statsOf Registry.getHandle
  rw [this]
  refine ⟨?_, by simp, by simp⟩
  simp [Registry.stats, at?]

/-- A history that meets the hypotheses: a tag, a sample for it, a reset, the tag again. -/
example : ∃ (r r' : Registry ℚ), runCalls [.tag "a", .time 0 (1 / 2)] = .ok r ∧ (r.getHandle "a").2 = 0 ∧
    [TimingCall.tag "b", .time 1 3, .reset].foldlM TimingCall.run (r.getHandle "a").1 = .ok r' ∧ (r'.getHandle "a").2 = 2 ∧
    recorded 0 [TimingCall.tag "a", .time 0 (1 / 2 : ℚ)] = [1 / 2] ∧ r'.getTag 0 = "" := by
  refine ⟨_, _, rfl, ?_, rfl, ?_, ?_, ?_⟩ <;> simp [Registry.getHandle, Registry.find, Registry.init, Registry.getTag, Registry.reset, recorded]

/-! ## C86: timers -/

/-- C86: a timer started at `t0` and stopped at `t1` records exactly one duration, `t1 - t0`, for its handle (the new registry is that of `AddTime`),
and its destructor then records nothing. -/
theorem C86_start_stop (h : ℕ) (stopped : Bool) (t0 t1 now now' : K) (r : Registry K) :
    (((Timer.new h stopped now).start t0).stop r t1).map (·.2) = r.addTime h (t1 - t0) ∧
    ∀ t' r', ((Timer.new h stopped now).start t0).stop r t1 = .ok (t', r') → t'.timing = false ∧ t'.destroy r' now' = .ok r' := by
  have : ((Timer.new h stopped now).start t0) = ⟨t0, true, h⟩ := by unfold Timer.new Timer.start; split <;> rfl
  rw [this]
  unfold Timer.stop
  simp only
  cases r.addTime h (t1 - t0) with
  | error x => exact ⟨rfl, fun _ _ e => by cases e⟩
  | ok r1 =>
    refine ⟨rfl, fun t' r' e => ?_⟩
    obtain ⟨rfl, rfl⟩ := Prod.mk.inj (Except.ok.inj e)
    exact ⟨rfl, rfl⟩

/-- C86: the destructor of a running timer records the duration up to it; that of a timer constructed stopped and never started records nothing. -/
theorem C86_destructor (h : ℕ) (t0 t1 now : K) (r : Registry K) :
    (Timer.new h false t0).destroy r t1 = r.addTime h (t1 - t0) ∧ (Timer.new h true now).destroy r t1 = .ok r := by
  refine ⟨?_, rfl⟩
  unfold Timer.new Timer.start Timer.destroy Timer.stop
  simp only [Bool.false_eq_true, if_false, if_true]
  cases r.addTime h (t1 - t0) <;> rfl

/-- C86: `Stop` does not look whether the timer runs: stopped twice it records two durations from the same start, and never started it records the time
since the epoch of the clock. -/
theorem C86_stop_unchecked (h : ℕ) (t0 t1 t2 now : K) (r : Registry K) :
    (((Timer.new h false t0).stop r t1).bind fun x => x.1.stop x.2 t2).map (·.2) = (r.addTime h (t1 - t0)).bind (fun r' => r'.addTime h (t2 - t0)) ∧
    ((Timer.new h true now).stop r t1).map (·.2) = r.addTime h t1 := by
  constructor
  · unfold Timer.new Timer.start Timer.stop
    simp only [Bool.false_eq_true, if_false]
    cases e : r.addTime h (t1 - t0) with
    | error x => rfl
    | ok r1 =>
      simp only [bind, Except.bind, pure, Except.pure]
      cases r1.addTime h (t2 - t0) <;> rfl
  · unfold Timer.new Timer.stop
    simp only [if_true, sub_zero]
    cases r.addTime h t1 <;> rfl

/-- C86: the small timer returns the time since its construction, or zero if the clock was set back. -/
theorem C86_mini (t0 t1 : K) : ((MiniTimer.new t0).halt t1).2 = max 0 (t1 - t0) ∧ (0 < t0 → (MiniTimer.new t0).getTime = 0) := by
  refine ⟨?_, fun h => ?_⟩
  · unfold MiniTimer.new MiniTimer.halt MiniTimer.getTime
    simp only
    split
    · rename_i h; rw [max_eq_left (by linarith)]
    · rename_i h; rw [max_eq_right (by linarith)]
  · unfold MiniTimer.new MiniTimer.getTime
    simp [h]

/-- A concrete case. -/
example : ((Timer.new 0 false (3 : ℚ)).destroy ⟨[.init], [("a", 0)], 1⟩ 5).map (·.timers.map (·.sum)) = .ok [2] := by
  rw [(C86_destructor 0 3 5 0 _).1]
  simp [Registry.addTime, at?, Accumulator.add, Accumulator.init, intMax, window, bind, Except.bind, pure, Except.pure, Except.map]
  split <;> split <;> norm_num

end Verif.Properties
