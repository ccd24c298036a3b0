import Verif.Lemmas.IO
import Verif.Spec.YamlText

set_option linter.unusedSectionVars false

/-!
# Lemmas about the text of saved trajectories
-/

namespace Verif.IO

open Verif.Spec

/-! ### Lines -/

theorem splitOn_line (a : List Char) (h : '\n' ∉ a) : a.splitOn '\n' = [a] := by
  have := List.splitOn_intercalate '\n' (ls := [a]) (by simpa using h) (by simp)
  simpa using this

theorem splitOn_cons (a t : List Char) (h : '\n' ∉ a) : (a ++ '\n' :: t).splitOn '\n' = a :: t.splitOn '\n' := by
  rw [List.splitOn_append_cons_self_of_not_mem h]

/-- A text that is cut off consists of some of the lines and the beginning of the next. -/
theorem cut_lines (ls : List (List Char)) (hne : ls ≠ []) (h : ∀ l ∈ ls, '\n' ∉ l) (k : ℕ) :
    ∃ i j, ∃ hi : i < ls.length, ((['\n'].intercalate ls).take k).splitOn '\n' = ls.take i ++ [(ls[i]).take j] := by
  induction ls generalizing k with
  | nil => exact absurd rfl hne
  | cons a ls ih =>
    have ha : '\n' ∉ a := h a (by simp)
    have hta : ∀ j, '\n' ∉ a.take j := fun j hm => ha (List.mem_of_mem_take hm)
    cases ls with
    | nil =>
      refine ⟨0, k, by simp, ?_⟩
      simp only [List.intercalate_singleton, List.take_zero, List.nil_append, List.getElem_cons_zero]
      exact splitOn_line _ (hta k)
    | cons b ls =>
      have e : ['\n'].intercalate (a :: b :: ls) = a ++ '\n' :: ['\n'].intercalate (b :: ls) := by
        simp [List.intercalate_cons_cons]
      rw [e]
      by_cases hk : k ≤ a.length
      · refine ⟨0, k, by simp, ?_⟩
        rw [List.take_append_of_le_length hk]
        simp only [List.take_zero, List.nil_append, List.getElem_cons_zero]
        exact splitOn_line _ (hta k)
      · obtain ⟨i, j, hi, hs⟩ := ih (by simp) (fun l hl => h l (by simp [hl])) (k - a.length - 1)
        refine ⟨i + 1, j, by simpa using hi, ?_⟩
        rw [show k = a.length + ((k - a.length - 1) + 1) by omega, List.take_length_add_append, List.take_succ_cons, splitOn_cons _ _ ha, hs]
        simp

/-! ### Numbers -/

theorem isDigit_ne {c : Char} (h : c.isDigit = true) : c ≠ ' ' ∧ c ≠ '#' ∧ c ≠ ':' ∧ c ≠ '[' ∧ c ≠ ']' ∧ c ≠ ',' ∧ c ≠ '-' ∧ c ≠ '\n' ∧ c ≠ '~' ∧ c ≠ 'n' := by
  refine ⟨?_, ?_, ?_, ?_, ?_, ?_, ?_, ?_, ?_, ?_⟩ <;> rintro rfl <;> revert h <;> decide

theorem readInt_digits (s : List Char) (hne : s ≠ []) (h : ∀ c ∈ s, c.isDigit = true) : readInt s = some (Nat.ofDigitChars 10 s 0 : ℤ) := by
  cases s with
  | nil => exact absurd rfl hne
  | cons c s =>
    have hc : c ≠ '-' := (isDigit_ne (h c (by simp))).2.2.2.2.2.2.1
    have : readInt (c :: s) = (readNat (c :: s)).map fun n : ℕ => (n : ℤ) := by
      unfold readInt
      split
      · rename_i heq
        exact absurd (List.cons.inj heq).1 hc
      · rfl
    rw [this, readNat, if_pos ⟨hne, List.all_eq_true.mpr h⟩]
    rfl

variable {K : Type}

theorem scalarOf_digits (nt : NumberText K) (s : List Char) (hne : s ≠ []) (h : ∀ c ∈ s, c.isDigit = true) :
    scalarOf nt s = .int (Nat.ofDigitChars 10 s 0 : ℤ) := by
  unfold scalarOf
  rw [if_neg, readInt_digits s hne h]
  rintro (e | e | e)
  · exact hne e
  · subst e; exact absurd (h '~' (by simp)) (by decide)
  · subst e; exact absurd (h 'n' (by decide)) (by decide)

theorem decimal_digits (n : ℕ) : ∀ c ∈ decimal n, c.isDigit = true := fun _ hc => Nat.isDigit_of_mem_toDigits (by norm_num) (by norm_num) hc

theorem decimal_ne (n : ℕ) : decimal n ≠ [] := Nat.toDigits_ne_nil

theorem scalarOf_decimal (nt : NumberText K) (n : ℕ) : scalarOf nt (decimal n) = .int n := by
  rw [scalarOf_digits nt _ (decimal_ne n) (decimal_digits n)]
  congr 2
  exact Nat.ofDigitChars_toDigits (by norm_num) (by norm_num)

/-- What a scalar can be. -/
def IsScalar : Yaml K → Prop
  | .null | .int _ | .real _ | .text _ => True
  | _ => False

theorem scalarOf_scalar (nt : NumberText K) (s : List Char) : IsScalar (scalarOf nt s) := by
  unfold scalarOf
  split
  · trivial
  · split
    · trivial
    · split <;> trivial

theorem number_ne {c : Char} (h : c.isDigit = true ∨ c ∈ ['.', '-', '+', 'e']) : c ≠ ' ' ∧ c ≠ '#' ∧ c ≠ ':' ∧ c ≠ '[' ∧ c ≠ ']' ∧ c ≠ ',' ∧ c ≠ '\n' ∧ c ≠ '~' ∧ c ≠ 'n' := by
  rcases h with h | h
  · obtain ⟨h1, h2, h3, h4, h5, h6, _, h7, h8, h9⟩ := isDigit_ne h
    exact ⟨h1, h2, h3, h4, h5, h6, h7, h8, h9⟩
  · simp only [List.mem_cons, List.not_mem_nil, or_false] at h
    rcases h with rfl | rfl | rfl | rfl <;> decide

theorem asDouble_write [Ring K] (nt : NumberText K) (hf : Faithful nt) (x : K) : (scalarOf nt (nt.write x)).asDouble = .ok x := by
  unfold scalarOf
  rw [if_neg]
  · cases h : readInt (nt.write x) with
    | some z => simp only [Yaml.asDouble]; rw [hf.whole x z h]
    | none => simp only [hf.read_write, Yaml.asDouble]
  · rintro (e | e | e)
    · exact hf.nonempty x e
    · have := number_ne (hf.chars x '~' (by rw [e]; simp))
      exact this.2.2.2.2.2.2.2.1 rfl
    · have := number_ne (hf.chars x 'n' (by rw [e]; decide))
      exact this.2.2.2.2.2.2.2.2 rfl

end Verif.IO
