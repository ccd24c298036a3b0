import Verif.Spec.Timing
import Mathlib.Algebra.Order.Group.Abs
import Mathlib.Order.Bounds.Defs

/-!
# Specification of the printed table of the timers

How a reader takes the table: lines, columns between tabs, numbers in decimal notation.
-/

namespace Verif.Spec

open Timing

variable {K : Type} [Field K] [LinearOrder K] [IsStrictOrderedRing K]

/-- The number a row of decimal digits stands for. -/
def readDigits : List Char → ℕ := List.foldl (fun n c => 10 * n + (c.toNat - '0'.toNat)) 0

/-- A number without sign: digits, a point, digits. -/
def readUnsigned (s : List Char) : Option K :=
  match s.splitOn '.' with
  | [i, f] => if i ≠ [] ∧ i.all Char.isDigit ∧ f ≠ [] ∧ f.all Char.isDigit then some ((readDigits i : K) + (readDigits f : K) / 10 ^ f.length) else none
  | _ => none

/-- A number in decimal notation. -/
def readSigned : List Char → Option K
  | '-' :: s => (readUnsigned s).map (-·)
  | s => readUnsigned s

/-- The text is a number that differs from `x` by at most half a microsecond. -/
def ShowsSeconds (s : List Char) (x : K) : Prop := ∃ y, readSigned s = some y ∧ |y - x| ≤ 1 / 2 / 10 ^ 6

/-- What the columns of a row say about a timer with the durations `l`: its name, their number and, if there are any, their sum, their mean and the
deviation of the last fifty of them, the shortest and the longest. -/
def RowSays (sqrt : K → K) (tag : String) (l : List K) (cols : List (List Char)) : Prop :=
  ∃ name count rest, cols = name :: count :: rest ∧
    (∃ k, name = tag.toList ++ List.replicate k ' ') ∧
    (∃ k d, count = List.replicate k ' ' ++ d ∧ d ≠ [] ∧ (∀ c ∈ d, c.isDigit) ∧ readDigits d = l.length) ∧
    (l = [] → rest = [[]]) ∧
    (l ≠ [] → ∃ total mean dev least most,
      rest = [total, '(' :: (mean ++ " +- ".toList ++ dev ++ [')']), '[' :: (least ++ [','] ++ most ++ [']'])] ∧
      ShowsSeconds total l.sum ∧ ShowsSeconds mean (average l) ∧ ShowsSeconds dev (sqrt (variance (lastN 50 l))) ∧
      (∀ x, IsLeast {x | x ∈ l} x → ShowsSeconds least x) ∧
      ∀ x, IsGreatest {x | x = 1 / 2 ^ 1022 ∨ x ∈ l} x → ShowsSeconds most x)

/-- The calls of a history after its last reset. -/
def sinceReset (cs : List (TimingCall K)) : List (TimingCall K) :=
  cs.foldl (fun l c => match c with | .reset => [] | c => l ++ [c]) []

/-- What the C library promises about rounding a number that is not negative to a whole one. -/
def RoundsWhole (rnd : K → ℕ) : Prop := ∀ y, 0 ≤ y → |(rnd y : K) - y| ≤ 1 / 2

/-- What a square root is. -/
def IsSquareRoot (sqrt : K → K) : Prop := ∀ y, 0 ≤ y → 0 ≤ sqrt y ∧ sqrt y * sqrt y = y

end Verif.Spec
