import Mathlib.Data.List.DropRight
import Verif.Model.IO

/-!
# Model of the text of a saved trajectory

All line numbers without a file name are of `subpackages/mav_trajectory_generation/src/io.cpp`. The code writes its files through `YAML::Emitter` and reads them through
`YAML::LoadFile`. What these two do is modelled for the documents the code writes and for the beginnings of such documents (which a crash while saving leaves behind), after
yaml-cpp 0.7; the parser below is not a model of yaml-cpp for other texts (no flow mappings, quotes, anchors, tabs or collections in flow style that go over several lines).
How a floating point number is written (with 17 digits) and read is a parameter.
-/

namespace Verif.IO

variable {K : Type}

/-- How floating point numbers are written and read: `operator<<(Emitter&, double)` and `as<double>()`. -/
structure NumberText (K : Type) where
  write : K → List Char
  read : List Char → Option K

/-! ## Writing -/

/-- `operator<<(Emitter&, int)` and the like. -/
def decimal (n : ℕ) : List Char := Nat.toDigits 10 n

/-- The entries of a sequence in flow style. -/
def commaSep : List (List Char) → List Char
  | [] => []
  | [a] => a
  | a :: b :: l => a ++ ", ".toList ++ commaSep (b :: l)

section Write
variable [Field K] [LinearOrder K] [FloorRing K]

/-- 143-151: one dimension. The coefficients are read without a bounds check. -/
def rowLine (nt : NumberText K) (N : ℕ) (c : Poly K) : Res (List Char) := do
  let cs ← (List.range N).mapM fun j => at? c j
  return "      - [".toList ++ commaSep (cs.map nt.write) ++ "]".toList

/-- 132-153: the lines of one segment. A sequence without entries is written in flow style. -/
def segmentLines (nt : NumberText K) (s : Segment K) : Res (List (List Char)) := do
  let ns ← getTimeNSec s
  let rows ← s.polys.mapM (rowLine nt s.N)
  return ["  - N: ".toList ++ decimal s.N, "    D: ".toList ++ decimal s.D, "    time: ".toList ++ decimal ns ++ "  # [ns]".toList, "    coefficients:".toList] ++
    if rows = [] then ["      []".toList] else rows

/-- 129-157: the lines of the document. -/
def documentLines (nt : NumberText K) (segs : List (Segment K)) : Res (List (List Char)) := do
  let ls ← segs.mapM (segmentLines nt)
  return "segments:".toList :: if segs = [] then ["  []".toList] else ls.flatten

/-- 129-157: `out.c_str()`; no line break at the end. -/
def documentText (nt : NumberText K) (segs : List (Segment K)) : Res (List Char) := do
  return ['\n'].intercalate (← documentLines nt segs)

/-- 126-167 `segmentsToFile`: the contents of the file (`none`: there is none) before and after. -/
def segmentsToTextFile (nt : NumberText K) (canOpen : Bool) (segs : List (Segment K)) (old : Option (List Char)) : Res (Bool × Option (List Char)) := do
  let t ← documentText nt segs
  return if canOpen then (true, some t) else (false, old)

/-- 159-164: `std::ofstream fout(filename)` empties the file, `fout <<` writes any number of characters at a time. The contents that the file can have had when the program
ends after `n` characters were written. -/
def savingStopped (t : List Char) (n : ℕ) : List Char := t.take n

end Write

/-! ## Reading -/

/-- A number without a sign. -/
def readNat (s : List Char) : Option ℕ := if s ≠ [] ∧ s.all Char.isDigit then some (Nat.ofDigitChars 10 s 0) else none

/-- A whole number. -/
def readInt : List Char → Option ℤ
  | '-' :: s => (readNat s).map fun n : ℕ => -(n : ℤ)
  | s => (readNat s).map fun n : ℕ => (n : ℤ)

/-- A scalar. -/
def scalarOf (nt : NumberText K) (s : List Char) : Yaml K :=
  if s = [] ∨ s = ['~'] ∨ s = "null".toList then .null
  else match readInt s with
    | some z => .int z
    | none => match nt.read s with
      | some x => .real x
      | none => .text s

/-- A collection in block style that is not yet complete: its column, what it contains, and the place for the next value (for a mapping with its key). -/
inductive Frame (K : Type) where
  | map (col : ℕ) (done : List (String × Yaml K)) (key : String) (val : Option (Yaml K))
  | seq (col : ℕ) (done : List (Yaml K)) (val : Option (Yaml K))

namespace Frame

def col : Frame K → ℕ
  | map c .. => c
  | seq c .. => c

def val : Frame K → Option (Yaml K)
  | map _ _ _ v => v
  | seq _ _ v => v

def withVal (y : Yaml K) : Frame K → Frame K
  | map c d k _ => map c d k (some y)
  | seq c d _ => seq c d (some y)

/-- A place that was left empty holds null. -/
def close : Frame K → Yaml K
  | map _ d k v => .map (d ++ [(k, v.getD .null)])
  | seq _ d v => .seq (d ++ [v.getD .null])

end Frame

/-- The state of the parser between lines: the open collections, innermost first, and the root of the document once it is complete. -/
structure Parse (K : Type) where
  frames : List (Frame K)
  root : Option (Yaml K)

namespace Parse

/-- Close the collection `f` and those around it, as far as they are indented by more than `c`. (The place in the surrounding collection is empty.) -/
def closeGo (c : ℕ) (r : Option (Yaml K)) (f : Frame K) : List (Frame K) → Parse K
  | [] => if c < f.col then ⟨[], some f.close⟩ else ⟨[f], r⟩
  | g :: fs => if c < f.col then closeGo c r (g.withVal f.close) fs else ⟨f :: g :: fs, r⟩

/-- Close the collections that are indented by more than `c`. -/
def closeTo (c : ℕ) (σ : Parse K) : Parse K :=
  match σ.frames with
  | [] => σ
  | f :: fs => closeGo c σ.root f fs

/-- Close the collection `f` and those around it. -/
def finishGo (f : Frame K) : List (Frame K) → Yaml K
  | [] => f.close
  | g :: fs => finishGo (g.withVal f.close) fs

/-- The document: close all collections. -/
def finish (σ : Parse K) : Yaml K :=
  match σ.frames with
  | [] => σ.root.getD .null
  | f :: fs => finishGo f fs

/-- Whether there is a place for a value that begins in column `col`. -/
def isOpen (σ : Parse K) (col : ℕ) : Bool :=
  match σ.frames with
  | [] => σ.root.isNone
  | f :: _ => f.val.isNone && f.col < col

/-- A complete value. Where there is no place for one, yaml-cpp throws a `ParserException`. -/
def give (σ : Parse K) (col : ℕ) (y : Yaml K) : Res (Parse K) :=
  if σ.isOpen col then
    match σ.frames with
    | [] => .ok ⟨[], some y⟩
    | f :: fs => .ok ⟨f.withVal y :: fs, σ.root⟩
  else .error .exc

/-- The beginning of a collection. -/
def push (σ : Parse K) (f : Frame K) : Res (Parse K) :=
  if σ.isOpen f.col then .ok ⟨f :: σ.frames, σ.root⟩ else .error .exc

/-- `-` in column `col`: the next entry of a sequence or the first of a new one. -/
def item (σ : Parse K) (col : ℕ) : Res (Parse K) :=
  match σ.frames with
  | .seq c d v :: fs => if c = col then .ok ⟨.seq c (d ++ [v.getD .null]) none :: fs, σ.root⟩ else σ.push (.seq col [] none)
  | _ => σ.push (.seq col [] none)

/-- `k:` in column `col`: the next key of a mapping or the first of a new one. -/
def key (σ : Parse K) (col : ℕ) (k : String) : Res (Parse K) :=
  match σ.frames with
  | .map c d k' v :: fs => if c = col then .ok ⟨.map c (d ++ [(k', v.getD .null)]) k none :: fs, σ.root⟩ else σ.push (.map col [] k none)
  | _ => σ.push (.map col [] k none)

end Parse

def isBlank (c : Char) : Bool := c == ' '

/-- The text without blanks at its beginning and its end. -/
def trim (s : List Char) : List Char := (s.dropWhile isBlank).rdropWhile isBlank

/-- The text up to a `#` at its beginning or after a blank. -/
def stripComment : Bool → List Char → List Char
  | _, [] => []
  | b, c :: s => if b ∧ c = '#' then [] else c :: stripComment (isBlank c) s

/-- A sequence of scalars in flow style after its `[`. A sequence that is not closed is a `ParserException`. -/
def flow (nt : NumberText K) (s : List Char) : Res (Yaml K) :=
  if s.getLast? = some ']' ∧ '[' ∉ s ∧ ']' ∉ s.dropLast then
    .ok (.seq (if s.dropLast.all isBlank then [] else (s.dropLast.splitOn ',').map fun e => scalarOf nt (trim e)))
  else .error .exc

/-- `key:` or `key: rest`. -/
def splitKey (s : List Char) : Option (String × List Char) :=
  match s.dropWhile (· ≠ ':') with
  | ':' :: r => if r = [] ∨ r.head? = some ' ' then some (String.ofList (s.takeWhile (· ≠ ':')), r.dropWhile isBlank) else none
  | _ => none

/-- A sequence in flow style or a scalar. -/
def value (nt : NumberText K) (σ : Parse K) (col : ℕ) (s : List Char) : Res (Parse K) :=
  match s with
  | '[' :: r => do σ.give col (← flow nt r)
  | _ => σ.give col (scalarOf nt s)

/-- What a line contains from column `col` on. (The first argument is a bound for the number of `-` on the line.) -/
def place (nt : NumberText K) : ℕ → ℕ → List Char → Parse K → Res (Parse K)
  | _, _, [], σ => .ok σ
  | 0, _, _, _ => .error .exc
  | f + 1, col, c :: s, σ =>
    if c = '-' ∧ (s = [] ∨ s.head? = some ' ') then do
      place nt f (col + 1 + (s.takeWhile isBlank).length) (s.dropWhile isBlank) (← σ.item col)
    else if c = '[' then value nt σ col (c :: s)
    else match splitKey (c :: s) with
      | some (k, []) => σ.key col k
      | some (k, r) => do value nt (← σ.key col k) (col + 1) r
      | none => value nt σ col (c :: s)

/-- One line. -/
def parseLine (nt : NumberText K) (σ : Parse K) (l : List Char) : Res (Parse K) :=
  let col := (l.takeWhile isBlank).length
  let s := (stripComment true (l.dropWhile isBlank)).rdropWhile isBlank
  if s = [] then .ok σ else place nt s.length col s (σ.closeTo col)

/-- The tree of a document: `YAML::LoadFile`. -/
def parseText (nt : NumberText K) (t : List Char) : Res (Yaml K) := do
  let σ ← (t.splitOn '\n').foldlM (parseLine nt) ⟨[], none⟩
  return σ.finish

section Read
variable [Field K] [LinearOrder K] [IsStrictOrderedRing K] [FloorRing K]

/-- 169-219 `segmentsFromFile`; `none` is a file that cannot be read. -/
def segmentsFromTextFile (nt : NumberText K) (file : Option (List Char)) (old : List (Segment K)) : Res (Bool × List (Segment K)) :=
  match file with
  | none => segmentsFromFile none old
  | some t => do segmentsFromFile (some (← parseText nt t)) old

/-- `io.h` 55-62 `trajectoryFromFile`. -/
def trajectoryFromTextFile (nt : NumberText K) (file : Option (List Char)) : Res (Bool × Trajectory K) := do
  let r ← segmentsFromTextFile nt file []
  return (r.1, ← Trajectory.setSegments r.2)

end Read

end Verif.IO
