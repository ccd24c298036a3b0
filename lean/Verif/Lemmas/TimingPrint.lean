import Verif.Model.TimingPrint
import Verif.Spec.TimingPrint
import Verif.Properties.Timing
import Mathlib.Tactic.Linarith
import Mathlib.Tactic.FieldSimp
import Mathlib.Tactic.Ring
import Mathlib.Data.Nat.Cast.Order.Field
import Mathlib.Algebra.Order.BigOperators.Group.List

/-!
# Lemmas about the printed table of the timers
-/

namespace Verif.Lemmas

open Verif Verif.Spec Verif.Timing

variable {K : Type} [Field K] [LinearOrder K] [IsStrictOrderedRing K]

theorem readDigits_eq (l : List Char) : readDigits l = Nat.ofDigitChars 10 l 0 := by
  unfold readDigits
  rw [Nat.ofDigitChars_eq_foldl]

theorem readDigits_zeros (k : ℕ) (l : List Char) : readDigits (List.replicate k '0' ++ l) = readDigits l := by
  rw [readDigits_eq, readDigits_eq, Nat.ofDigitChars_append, Nat.ofDigitChars_replicate_zero, Nat.mul_zero]

theorem readDigits_toDigits (n : ℕ) : readDigits (Nat.toDigits 10 n) = n := by
  rw [readDigits_eq, Nat.ofDigitChars_toDigits (by norm_num) (by norm_num)]

theorem toDigits_isDigit (n : ℕ) : ∀ c ∈ Nat.toDigits 10 n, c.isDigit = true := fun _ hc => Nat.isDigit_of_mem_toDigits (by norm_num) (by norm_num) hc

theorem sixDigits_isDigit (n : ℕ) : ∀ c ∈ sixDigits n, c.isDigit = true := by
  intro c hc
  rcases List.mem_append.mp hc with h | h
  · rw [List.eq_of_mem_replicate h]; rfl
  · exact toDigits_isDigit _ _ h

theorem sixDigits_length {n : ℕ} (h : n < 10 ^ 6) : (sixDigits n).length = 6 := by
  have := (Nat.length_toDigits_le_iff (b := 10) (n := n) (k := 6) (by norm_num) (by norm_num)).mpr h
  unfold sixDigits
  rw [List.length_append, List.length_replicate]
  omega

theorem readDigits_six (n : ℕ) : readDigits (sixDigits n) = n := by
  unfold sixDigits
  rw [readDigits_zeros, readDigits_toDigits]

theorem readUnsigned_digits (i f : List Char) (hi : i ≠ []) (hf : f ≠ []) (di : ∀ c ∈ i, c.isDigit = true) (df : ∀ c ∈ f, c.isDigit = true) :
    readUnsigned (K := K) (i ++ '.' :: f) = some ((readDigits i : K) + (readDigits f : K) / 10 ^ f.length) := by
  have hp : ∀ l : List Char, (∀ c ∈ l, c.isDigit = true) → '.' ∉ l := fun l h hm => absurd (h _ hm) (by decide)
  have : (i ++ '.' :: f).splitOn '.' = [i, f] := by
    rw [List.splitOn_append_cons_self_of_not_mem (hp i di)]
    have := List.splitOn_intercalate '.' (ls := [f]) (by simpa using hp f df) (by simp)
    simpa using this
  unfold readUnsigned
  rw [this]
  simp only
  rw [if_pos ⟨hi, List.all_eq_true.mpr di, hf, List.all_eq_true.mpr df⟩]

theorem split_number (m : ℕ) : ((m / 10 ^ 6 : ℕ) : K) + ((m % 10 ^ 6 : ℕ) : K) / 10 ^ 6 = (m : K) / 10 ^ 6 := by
  have h : (m : K) = ((10 ^ 6 * (m / 10 ^ 6) + m % 10 ^ 6 : ℕ) : K) := by rw [Nat.div_add_mod]
  rw [h]
  push_cast
  field_simp
  norm_num

/-- The number `%09.6f` stands for. -/
theorem formatSeconds_reads (rnd : K → ℕ) (x : K) :
    readSigned (formatSeconds rnd x) = some (if x < 0 then -((rnd (|x| * 10 ^ 6) : K) / 10 ^ 6) else (rnd (|x| * 10 ^ 6) : K) / 10 ^ 6) := by
  have key : ∀ k m : ℕ, readUnsigned (K := K) (List.replicate k '0' ++ (Nat.toDigits 10 (m / 10 ^ 6) ++ '.' :: sixDigits (m % 10 ^ 6))) =
      some ((m : K) / 10 ^ 6) := by
    intro k m
    have hl := sixDigits_length (Nat.mod_lt m (by norm_num : 0 < 10 ^ 6))
    rw [← List.append_assoc, readUnsigned_digits _ _ (by simp [Nat.toDigits_ne_nil]) (by rw [← List.length_pos_iff, hl]; norm_num), readDigits_zeros,
      readDigits_toDigits, readDigits_six, hl, split_number]
    · intro c hc
      rcases List.mem_append.mp hc with h | h
      · rw [List.eq_of_mem_replicate h]; rfl
      · exact toDigits_isDigit _ _ h
    · exact sixDigits_isDigit _
  unfold formatSeconds
  by_cases hx : x < 0
  · simp only [if_pos hx, List.cons_append, List.nil_append]
    rw [readSigned, key]
    rfl
  · simp only [if_neg hx, List.nil_append]
    have : ∀ s : List Char, (∀ t, s ≠ '-' :: t) → readSigned (K := K) s = readUnsigned s := by
      intro s hs
      unfold readSigned
      split
      · rename_i t; exact absurd rfl (hs t)
      · rfl
    rw [this, key]
    intro t ht
    have hm : '-' ∈ (List.replicate (9 - (([] : List Char).length + (Nat.toDigits 10 (rnd (|x| * 10 ^ 6) / 10 ^ 6) ++
        '.' :: sixDigits (rnd (|x| * 10 ^ 6) % 10 ^ 6)).length)) '0' ++ (Nat.toDigits 10 (rnd (|x| * 10 ^ 6) / 10 ^ 6) ++
        '.' :: sixDigits (rnd (|x| * 10 ^ 6) % 10 ^ 6)) : List Char) := by rw [ht]; exact List.mem_cons_self
    rcases List.mem_append.mp hm with h | h
    · exact absurd (List.eq_of_mem_replicate h) (by decide)
    · rcases List.mem_append.mp h with h | h
      · exact absurd (toDigits_isDigit _ _ h) (by decide)
      · rcases List.mem_cons.mp h with h | h
        · exact absurd h (by decide)
        · exact absurd (sixDigits_isDigit _ _ h) (by decide)

/-- The characters of a number. -/
theorem formatSeconds_chars (rnd : K → ℕ) (x : K) : ∀ c ∈ formatSeconds rnd x, c.isDigit = true ∨ c = '.' ∨ c = '-' := by
  intro c hc
  unfold formatSeconds at hc
  simp only [List.append_assoc] at hc
  rcases List.mem_append.mp hc with h | h
  · split at h
    · exact .inr (.inr (by simpa using h))
    · simp at h
  · rcases List.mem_append.mp h with h | h
    · left; rw [List.eq_of_mem_replicate h]; rfl
    · rcases List.mem_append.mp h with h | h
      · exact .inl (toDigits_isDigit _ _ h)
      · rcases List.mem_cons.mp h with h | h
        · exact .inr (.inl h)
        · exact .inl (sixDigits_isDigit _ _ h)

/-- How long a number is. -/
theorem formatSeconds_length (rnd : K → ℕ) (x : K) : (formatSeconds rnd x).length =
    max 9 ((if x < 0 then 1 else 0) + (Nat.toDigits 10 (rnd (|x| * 10 ^ 6) / 10 ^ 6)).length + 7) := by
  have hl := sixDigits_length (Nat.mod_lt (rnd (|x| * 10 ^ 6)) (by norm_num : 0 < 10 ^ 6))
  unfold formatSeconds
  by_cases hx : x < 0
  · simp only [if_pos hx, List.length_append, List.length_replicate, List.length_cons, List.length_nil, hl]
    omega
  · simp only [if_neg hx, List.length_append, List.length_replicate, List.length_cons, List.length_nil, hl]
    omega

theorem rnd_le {rnd : K → ℕ} (hr : RoundsWhole rnd) {x : K} (hx : |x| ≤ 10 ^ 240) : rnd (|x| * 10 ^ 6) / 10 ^ 6 < 10 ^ 241 := by
  have h1 := (abs_le.mp (hr (|x| * 10 ^ 6) (mul_nonneg (abs_nonneg _) (by positivity)))).2
  have h2 : (rnd (|x| * 10 ^ 6) : K) ≤ 10 ^ 240 * 10 ^ 6 + 1 := by
    have := mul_le_mul_of_nonneg_right hx (by positivity : (0 : K) ≤ 10 ^ 6)
    have e : (1 : K) / 2 ≤ 1 := by norm_num
    exact (sub_le_iff_le_add'.mp h1).trans (add_le_add this e)
  have h3 : rnd (|x| * 10 ^ 6) ≤ 10 ^ 240 * 10 ^ 6 + 1 := by exact_mod_cast h2
  rw [Nat.div_lt_iff_lt_mul (by norm_num)]
  omega

/-- Numbers up to `10²⁴⁰` fit into the buffer. -/
theorem time_string {rnd : K → ℕ} (hr : RoundsWhole rnd) {x : K} (hx : |x| ≤ 10 ^ 240) : secondsToTimeString rnd x = formatSeconds rnd x := by
  unfold secondsToTimeString
  refine List.take_of_length_le ?_
  rw [formatSeconds_length]
  have := (Nat.length_toDigits_le_iff (b := 10) (n := rnd (|x| * 10 ^ 6) / 10 ^ 6) (k := 241) (by norm_num) (by norm_num)).mpr (rnd_le hr hx)
  split <;> omega

/-- The text of a number shows it. -/
theorem time_string_shows {rnd : K → ℕ} (hr : RoundsWhole rnd) {x : K} (hx : |x| ≤ 10 ^ 240) : ShowsSeconds (secondsToTimeString rnd x) x := by
  rw [time_string hr hx]
  refine ⟨_, formatSeconds_reads rnd x, ?_⟩
  have h1 := hr (|x| * 10 ^ 6) (mul_nonneg (abs_nonneg _) (by positivity))
  have key : |(rnd (|x| * 10 ^ 6) : K) / 10 ^ 6 - (|x|)| ≤ 1 / 2 / 10 ^ 6 := by
    have : (rnd (|x| * 10 ^ 6) : K) / 10 ^ 6 - |x| = ((rnd (|x| * 10 ^ 6) : K) - |x| * 10 ^ 6) / 10 ^ 6 := by field_simp
    rw [this, abs_div, abs_of_pos (by positivity : (0 : K) < 10 ^ 6)]
    exact div_le_div_of_nonneg_right h1 (by positivity)
  by_cases hn : x < 0
  · rw [if_pos hn]
    have e : -((rnd (|x| * 10 ^ 6) : K) / 10 ^ 6) - x = -((rnd (|x| * 10 ^ 6) : K) / 10 ^ 6 - |x|) := by rw [abs_of_neg hn]; ring
    rw [e, abs_neg]; exact key
  · rw [if_neg hn]
    have e : (rnd (|x| * 10 ^ 6) : K) / 10 ^ 6 - x = (rnd (|x| * 10 ^ 6) : K) / 10 ^ 6 - |x| := by rw [abs_of_nonneg (not_lt.mp hn)]
    rw [e]; exact key

/-! ## How large the figures are -/

theorem sum_abs_le {B : K} (l : List K) (h : ∀ x ∈ l, |x| ≤ B) : |l.sum| ≤ l.length * B := by
  induction l with
  | nil => simp
  | cons a l ih =>
    rw [List.sum_cons, List.length_cons]
    push_cast
    calc |a + l.sum| ≤ |a| + |l.sum| := abs_add_le _ _
      _ ≤ B + l.length * B := add_le_add (h a (by simp)) (ih fun x hx => h x (by simp [hx]))
      _ = _ := by ring

theorem average_abs_le {B : K} (l : List K) (hne : l ≠ []) (h : ∀ x ∈ l, |x| ≤ B) : |average l| ≤ B := by
  have hp : (0 : K) < l.length := by exact_mod_cast List.length_pos_iff.mpr hne
  unfold average
  rw [abs_div, abs_of_pos hp, div_le_iff₀ hp, mul_comm]
  exact sum_abs_le l h

theorem variance_bounds {B : K} (l : List K) (hne : l ≠ []) (h : ∀ x ∈ l, |x| ≤ B) : 0 ≤ variance l ∧ variance l ≤ (2 * B) ^ 2 := by
  have ha := average_abs_le l hne h
  have h1 : ∀ y ∈ l.map fun x => (x - average l) ^ 2, |y| ≤ (2 * B) ^ 2 := by
    intro y hy
    obtain ⟨x, hx, rfl⟩ := List.mem_map.mp hy
    have : |x - average l| ≤ 2 * B := by
      have h2 : |x - average l| ≤ |x| + |average l| := by simpa using abs_sub_le x 0 (average l)
      linarith [h x hx]
    rw [abs_pow]
    exact pow_le_pow_left₀ (abs_nonneg _) this 2
  refine ⟨?_, (le_abs_self _).trans (average_abs_le _ (by simpa using hne) h1)⟩
  unfold variance
  rw [average]
  refine div_nonneg (List.sum_nonneg ?_) (Nat.cast_nonneg _)
  intro y hy
  obtain ⟨x, _, rfl⟩ := List.mem_map.mp hy
  exact sq_nonneg _

theorem addAll_short {N : ℕ} (hN : 0 < N) {l : List K} {a : Accumulator K} (h : addAll N l = .ok a) : l.length ≤ 2 ^ 31 - 1 := by
  by_contra hc
  obtain ⟨l1, x, l2, rfl, h1⟩ : ∃ l1 x l2, l = l1 ++ [x] ++ l2 ∧ l1.length = 2 ^ 31 - 1 := by
    have hlt : 2 ^ 31 - 1 < l.length := by omega
    refine ⟨l.take (2 ^ 31 - 1), l[2 ^ 31 - 1], l.drop (2 ^ 31 - 1 + 1), ?_, by rw [List.length_take]; omega⟩
    rw [List.append_assoc, List.singleton_append, ← List.drop_eq_getElem_cons hlt, List.take_append_drop]
  have := Verif.Properties.C67_overflow N hN l1 h1 x
  unfold addAll at this h
  rw [List.foldlM_append, this] at h
  exact absurd h (by simp [bind, Except.bind])

/-! ## One row -/

/-- The name column. -/
def nameColumn (r : Registry K) (t : String) : List Char := t.toList ++ List.replicate (r.maxTagLength - t.utf8ByteSize) ' '

/-- The column with the number of samples. -/
def countColumn (n : ℕ) : List Char := List.replicate (7 - (Nat.toDigits 10 n).length) ' ' ++ Nat.toDigits 10 n

theorem not_digit_tab {c : Char} (h : c.isDigit = true ∨ c = '.' ∨ c = '-') : c ≠ '\t' ∧ c ≠ '\n' := by
  constructor <;> (rintro rfl; revert h; decide)

theorem time_string_clean (rnd : K → ℕ) (x : K) : ∀ c ∈ secondsToTimeString rnd x, c ≠ '\t' ∧ c ≠ '\n' :=
  fun c hc => not_digit_tab (formatSeconds_chars rnd x c (List.mem_of_mem_take hc))

theorem nameColumn_clean (r : Registry K) (t : String) (h : ∀ c ∈ t.toList, c ≠ '\t' ∧ c ≠ '\n') : ∀ c ∈ nameColumn r t, c ≠ '\t' ∧ c ≠ '\n' := by
  intro c hc
  rcases List.mem_append.mp hc with hc | hc
  · exact h c hc
  · rw [List.eq_of_mem_replicate hc]; decide

theorem countColumn_clean (n : ℕ) : ∀ c ∈ countColumn n, c ≠ '\t' ∧ c ≠ '\n' := by
  intro c hc
  rcases List.mem_append.mp hc with hc | hc
  · rw [List.eq_of_mem_replicate hc]; decide
  · exact not_digit_tab (.inl (toDigits_isDigit _ _ hc))

/-- Columns without tabs and line ends, joined by tabs, can be told apart again. -/
theorem row_columns (cols : List (List Char)) (hne : cols ≠ []) (h : ∀ l ∈ cols, ∀ c ∈ l, c ≠ '\t' ∧ c ≠ '\n') :
    (['\t'].intercalate cols).splitOn '\t' = cols ∧ '\n' ∉ ['\t'].intercalate cols := by
  refine ⟨List.splitOn_intercalate '\t' (fun l hl hm => (h l hl _ hm).1 rfl) hne, ?_⟩
  induction cols with
  | nil => simp
  | cons a l ih =>
    cases l with
    | nil => simpa using fun hm => (h a (by simp) _ hm).2 rfl
    | cons b l =>
      rw [List.intercalate_cons_cons]
      intro hm
      rcases List.mem_append.mp hm with hm | hm
      · rcases List.mem_append.mp hm with hm | hm
        · exact (h a (by simp) _ hm).2 rfl
        · simp at hm
      · exact ih (by simp) (fun l hl => h l (List.mem_cons_of_mem _ hl)) hm

/-- The row of a timer and its columns. -/
theorem row_says {rnd : K → ℕ} (hr : RoundsWhole rnd) {sqrt : K → K} (hq : IsSquareRoot sqrt) (r : Registry K) (t : String) (h : ℕ) (l : List K)
    (a : Accumulator K) (hs : r.stats h = .ok a) (ha : addAll window l = .ok a) (hl : ∀ x ∈ l, |x| ≤ 10 ^ 200)
    (ht : ∀ c ∈ t.toList, c ≠ '\t' ∧ c ≠ '\n') :
    ∃ row rest, printLine rnd sqrt r (t, h) = .ok row ∧ row.splitOn '\t' = nameColumn r t :: countColumn l.length :: rest ∧ '\n' ∉ row ∧
      RowSays sqrt t l (row.splitOn '\t') := by
  have hlen := addAll_short (by decide) ha
  have hcount : ∃ k d, countColumn l.length = List.replicate k ' ' ++ d ∧ d ≠ [] ∧ (∀ c ∈ d, c.isDigit) ∧ readDigits d = l.length :=
    ⟨_, _, rfl, Nat.toDigits_ne_nil, toDigits_isDigit _, readDigits_toDigits _⟩
  unfold printLine
  simp only [hs, bind, Except.bind]
  by_cases hne : l = []
  · subst hne
    have : a = .init := (Except.ok.inj ha).symm
    subst this
    have hz : ¬ 0 < (Accumulator.init : Accumulator K).total := Nat.lt_irrefl 0
    rw [if_neg hz]
    obtain ⟨e1, e2⟩ := row_columns [nameColumn r t, countColumn 0, []] (by simp) (by
      intro c hc
      rcases List.mem_cons.mp hc with rfl | hc
      · exact nameColumn_clean r t ht
      rcases List.mem_cons.mp hc with rfl | hc
      · exact countColumn_clean 0
      · simp at hc; subst hc; simp)
    have e : t.toList ++ List.replicate (r.maxTagLength - t.utf8ByteSize) ' ' ++ ['\t'] ++
        (List.replicate (7 - (Nat.toDigits 10 (Accumulator.init : Accumulator K).total).length) ' ' ++
          Nat.toDigits 10 (Accumulator.init : Accumulator K).total ++ ['\t']) = ['\t'].intercalate [nameColumn r t, countColumn 0, []] := by
      simp [nameColumn, countColumn, Accumulator.init, List.intercalate]
    refine ⟨_, [[]], rfl, ?_⟩
    rw [e]
    refine ⟨e1, e2, ?_⟩
    rw [e1]
    exact ⟨_, _, _, rfl, ⟨_, rfl⟩, hcount, fun _ => rfl, fun hc => absurd rfl hc⟩
  · obtain ⟨a', ha', htot, hsum, hmean, hroll, hvar⟩ := Verif.Properties.C67_statistics window (by decide) l hlen hne
    obtain rfl : a = a' := Except.ok.inj (ha.symm.trans ha')
    have hz : 0 < a.total := by rw [htot]; exact List.length_pos_iff.mpr hne
    rw [if_pos hz]
    simp only [hmean, hvar, pure, Except.pure]
    have hmax := Verif.Properties.C67_max window (by decide) l hlen a ha
    have hmin := Verif.Properties.C67_min window (by decide) l hlen hne (by
      intro x hx
      refine (le_abs_self x).trans ((hl x hx).trans ?_)
      have h1 : (10 : K) ^ 200 ≤ 1 * 2 ^ 1023 := by
        rw [one_mul]
        calc (10 : K) ^ 200 ≤ (2 ^ 4) ^ 200 := pow_le_pow_left₀ (by norm_num) (by norm_num) _
          _ = 2 ^ (4 * 200) := (pow_mul _ _ _).symm
          _ ≤ 2 ^ 1023 := pow_le_pow_right₀ one_le_two (by norm_num)
      exact h1.trans (mul_le_mul_of_nonneg_right (by norm_num) (by positivity))) a ha
    obtain ⟨e1, e2⟩ := row_columns [nameColumn r t, countColumn l.length, secondsToTimeString rnd a.sum,
        '(' :: (secondsToTimeString rnd (average l) ++ " +- ".toList ++ secondsToTimeString rnd (sqrt (variance (lastN window l))) ++ [')']),
        '[' :: (secondsToTimeString rnd a.min ++ [','] ++ secondsToTimeString rnd a.max ++ [']'])] (by simp) (by
      intro c hc
      rcases List.mem_cons.mp hc with rfl | hc
      · exact nameColumn_clean r t ht
      rcases List.mem_cons.mp hc with rfl | hc
      · exact countColumn_clean _
      rcases List.mem_cons.mp hc with rfl | hc
      · exact time_string_clean _ _
      have hsep : ∀ c ∈ " +- ".toList, c ≠ '\t' ∧ c ≠ '\n' := by decide
      have T := time_string_clean rnd
      rcases List.mem_cons.mp hc with rfl | hc
      · intro c hc
        simp only [List.mem_cons, List.mem_append, List.not_mem_nil, or_false] at hc
        rcases hc with rfl | ((hc | hc) | hc) | rfl
        · decide
        · exact T _ _ hc
        · exact hsep c hc
        · exact T _ _ hc
        · decide
      · obtain rfl := List.mem_singleton.mp hc
        intro c hc
        simp only [List.mem_cons, List.mem_append, List.not_mem_nil, or_false] at hc
        rcases hc with rfl | ((hc | rfl) | hc) | rfl
        · decide
        · exact T _ _ hc
        · decide
        · exact T _ _ hc
        · decide)
    refine ⟨_, [secondsToTimeString rnd a.sum,
        '(' :: (secondsToTimeString rnd (average l) ++ " +- ".toList ++ secondsToTimeString rnd (sqrt (variance (lastN window l))) ++ [')']),
        '[' :: (secondsToTimeString rnd a.min ++ [','] ++ secondsToTimeString rnd a.max ++ [']'])], rfl, ?_⟩
    have e : t.toList ++ List.replicate (r.maxTagLength - t.utf8ByteSize) ' ' ++ ['\t'] ++
        (List.replicate (7 - (Nat.toDigits 10 a.total).length) ' ' ++ Nat.toDigits 10 a.total ++ ['\t']) ++ secondsToTimeString rnd a.sum ++ ['\t'] ++
        '(' :: secondsToTimeString rnd (average l) ++ " +- ".toList ++ secondsToTimeString rnd (sqrt (variance (lastN window l))) ++ [')', '\t'] ++
        '[' :: secondsToTimeString rnd a.min ++ ',' :: secondsToTimeString rnd a.max ++ [']'] =
        ['\t'].intercalate [nameColumn r t, countColumn l.length, secondsToTimeString rnd a.sum,
        '(' :: (secondsToTimeString rnd (average l) ++ " +- ".toList ++ secondsToTimeString rnd (sqrt (variance (lastN window l))) ++ [')']),
        '[' :: (secondsToTimeString rnd a.min ++ [','] ++ secondsToTimeString rnd a.max ++ [']'])] := by
      simp [nameColumn, countColumn, List.intercalate, htot]
    rw [e]
    refine ⟨e1, e2, ?_⟩
    rw [e1]
    have B : (10 : K) ^ 200 ≤ 10 ^ 240 := by norm_num
    refine ⟨_, _, _, rfl, ⟨_, rfl⟩, hcount, fun hc => absurd hc hne, fun _ => ⟨_, _, _, _, _, rfl, ?_, ?_, ?_, ?_, ?_⟩⟩
    · rw [hsum]
      refine time_string_shows hr ((sum_abs_le l hl).trans ?_)
      have h1 : (l.length : K) ≤ (2 ^ 31 - 1 : ℕ) := by exact_mod_cast hlen
      refine (mul_le_mul_of_nonneg_right h1 (by positivity)).trans ?_
      norm_num
    · exact time_string_shows hr ((average_abs_le l hne hl).trans B)
    · have hne' : lastN window l ≠ [] := by
        rw [← List.length_pos_iff, Verif.Properties.lastN_length]
        exact Nat.lt_min.mpr ⟨List.length_pos_iff.mpr hne, by decide⟩
      obtain ⟨v0, v1⟩ := variance_bounds (B := (10 : K) ^ 200) (lastN window l) hne' fun x hx => hl x (List.mem_of_mem_drop hx)
      obtain ⟨q0, q1⟩ := hq _ v0
      refine time_string_shows hr ?_
      rw [abs_of_nonneg q0]
      have : sqrt (variance (lastN window l)) ≤ 2 * 10 ^ 200 := by
        refine le_of_sq_le_sq ?_ (by positivity)
        rw [sq, q1]; exact v1
      exact this.trans (by norm_num)
    · intro x hx
      rw [hx.unique hmin]
      exact time_string_shows hr ((hl _ hmin.1).trans B)
    · intro x hx
      rw [hx.unique hmax]
      refine time_string_shows hr ?_
      rcases hmax.1 with h | h
      · rw [h, abs_of_nonneg (by positivity)]
        refine le_trans ?_ (by norm_num : (1 : K) ≤ 10 ^ 240)
        rw [div_le_one (by positivity)]
        exact one_le_pow₀ one_le_two
      · exact (hl _ h).trans B

end Verif.Lemmas
