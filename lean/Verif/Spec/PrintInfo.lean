import Verif.Spec.Print
import Verif.Spec.TimingPrint

/-!
# Specification: how a reader takes the printed report of an optimisation
-/

namespace Verif.Spec

variable {K : Type}

/-- The reasons for which NLopt stops, with the names of its manual. -/
def nloptReasons : List (List Char × Int) :=
  [("SUCCESS".toList, 1), ("STOPVAL_REACHED".toList, 2), ("FTOL_REACHED".toList, 3), ("XTOL_REACHED".toList, 4), ("MAXEVAL_REACHED".toList, 5),
   ("MAXTIME_REACHED".toList, 6), ("FAILURE".toList, -1), ("INVALID_ARGS".toList, -2), ("OUT_OF_MEMORY".toList, -3), ("ROUNDOFF_LIMITED".toList, -4),
   ("FORCED_STOP".toList, -5)]

/-- The words of a line. -/
def wordsOf (line : List Char) : List (List Char) := (line.splitOn ' ').filter (· ≠ [])

/-- A whole number. -/
def readWhole (s : List Char) : Option ℕ := if s ≠ [] ∧ s.all Char.isDigit then some (readDigits s) else none

/-- What follows a label on a line, without blanks before it. -/
def labelled (label : String) (line : List Char) : Option (List Char) :=
  (label.toList.isPrefixOf? line).map (·.dropWhile (· = ' '))

/-- A printed extremum: its time, its value and the number of the segment. -/
def readExtremum (read : List Char → Option K) (s : List Char) : Option (K × K × ℕ) :=
  match (linesOf s).map wordsOf with
  | [[a, t, b, v, c, d, i]] =>
    if a = "time:".toList ∧ b = "value:".toList ∧ c = "segment".toList ∧ d = "idx:".toList then do
      let time ← read (t.filter (· ≠ ','))
      let value ← read (v.filter (· ≠ ','))
      let idx ← readWhole i
      return (time, value, idx)
    else none
  | _ => none

/-- The line of a maximum: the derivative, if it has a name, the value, the segment and the time in it. -/
def readMaximum (read : List Char → Option K) (line : List Char) : Option (Option ℕ × K × ℕ × K) :=
  match wordsOf line with
  | [name, v, a, b, i, c, d, e, t] =>
    if a = "in".toList ∧ b = "segment".toList ∧ c = "and".toList ∧ d = "segment".toList ∧ e = "time".toList then do
      let value ← read v
      let idx ← readWhole i
      let time ← read t
      return (namedOrder (name.takeWhile (· ≠ ':')), value, idx, time)
    else none
  | _ => none

/-- What a reader finds in a printed report. -/
structure ReportRead (K : Type) where
  time : K
  iterations : ℕ
  reason : Option Int
  costTrajectory : K
  costTime : K
  costSoft : K
  maxima : List (Option ℕ × K × ℕ × K)

/-- A printed report. -/
def readReport (read : List Char → Option K) (s : List Char) : Option (ReportRead K) :=
  match linesOf s with
  | l0 :: l1 :: l2 :: l3 :: l4 :: l5 :: l6 :: l7 :: rest =>
    if l0 = "--- optimization info ---".toList ∧ l7 = "  maxima: ".toList then do
      let time ← (labelled "  optimization time:" l1).bind read
      let iterations ← (labelled "  n_iterations:" l2).bind readWhole
      let reason ← labelled "  stopping reason:" l3
      let costTrajectory ← (labelled "  cost trajectory:" l4).bind read
      let costTime ← (labelled "  cost time:" l5).bind read
      let costSoft ← (labelled "  cost soft constraints:" l6).bind read
      let maxima ← rest.mapM (readMaximum read)
      return ⟨time, iterations, nloptReasons.lookup reason, costTrajectory, costTime, costSoft, maxima⟩
    else none
  | _ => none

end Verif.Spec
