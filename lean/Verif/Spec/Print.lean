import Mathlib.Data.List.Basic

/-!
# Specification: how a reader takes printed vertices and segments

Lines, names and numbers; blanks and brackets around numbers do not count.
-/

namespace Verif.Spec

variable {K : Type}

/-- What is assumed of the text of numbers: it consists of digits, signs, points and `e`, and whoever reads it gets the number rounded to the precision of the
stream. -/
structure Numerals (num : ℕ → K → List Char) (read : List Char → Option K) (shown : ℕ → K → K) : Prop where
  plain : ∀ n x, ∀ c ∈ num n x, c.isDigit ∨ c = '-' ∨ c = '+' ∨ c = '.' ∨ c = 'e'
  nonempty : ∀ n x, num n x ≠ []
  reads : ∀ n x, read (num n x) = some (shown n x)

/-- The lines of a text that ends with a line end. -/
def linesOf (s : List Char) : List (List Char) := (s.splitOn '\n').dropLast

/-- The order of a derivative by its name. -/
def namedOrder (name : List Char) : Option ℕ :=
  ["position".toList, "velocity".toList, "acceleration".toList, "jerk".toList, "snap".toList].idxOf? name

/-- The numbers between commas. -/
def readNumbers (read : List Char → Option K) (s : List Char) : Option (List K) :=
  ((s.filter fun c => c ≠ '[' ∧ c ≠ ']' ∧ c ≠ ' ').splitOn ',').mapM read

/-- A line of a vertex: the order and the values of a constraint. -/
def readConstraint (read : List Char → Option K) (line : List Char) : Option (ℕ × List K) := do
  let rest ← "  type: ".toList.isPrefixOf? line
  let order ← namedOrder (rest.takeWhile (· ≠ ' '))
  let values ← "  value: ".toList.isPrefixOf? (rest.dropWhile (· ≠ ' '))
  let numbers ← readNumbers read values
  return (order, numbers)

/-- The lines of a vertex. -/
def readVertexLines (read : List Char → Option K) : List (List Char) → Option (List (ℕ × List K))
  | first :: rest => if first = "constraints: ".toList then rest.mapM (readConstraint read) else none
  | [] => none

/-- A printed vertex. -/
def readVertex (read : List Char → Option K) (s : List Char) : Option (List (ℕ × List K)) := readVertexLines read (linesOf s)

/-- Several printed vertices, with an empty line after each. -/
def readVertices (read : List Char → Option K) (s : List Char) : Option (List (List (ℕ × List K))) :=
  (((linesOf s).splitOn []).dropLast).mapM (readVertexLines read)

/-- A line that begins a dimension. -/
def isHeading (l : List Char) : Bool := "dim ".toList.isPrefixOf l

/-- The lines of a segment: the duration, the order of the derivative if its name is known, and the coefficients of each dimension. -/
def readSegmentLines (read : List Char → Option K) : List (List Char) → Option (K × Option ℕ × List (List K))
  | t :: head :: rest => do
    let time ← ("t: ".toList.isPrefixOf? t) >>= read
    let name ← " coefficients for ".toList.isPrefixOf? head
    let rows ← (rest.splitOnP isHeading).tail.mapM fun g => g.mapM fun l => read (l.filter (· ≠ ' '))
    if rest.filter isHeading = (List.range rows.length).map (fun i => "dim ".toList ++ Nat.toDigits 10 i ++ ": ".toList) then
      return (time, namedOrder (name.takeWhile (· ≠ ':')), rows)
    else none
  | _ => none

/-- A printed segment. -/
def readSegment (read : List Char → Option K) (s : List Char) : Option (K × Option ℕ × List (List K)) := readSegmentLines read (linesOf s)

/-- Several printed segments, with an empty line after each. -/
def readSegments (read : List Char → Option K) (s : List Char) : Option (List (K × Option ℕ × List (List K))) :=
  (((linesOf s).splitOn []).dropLast).mapM (readSegmentLines read)

end Verif.Spec
