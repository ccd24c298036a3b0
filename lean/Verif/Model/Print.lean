import Verif.Model.Segment
import Verif.Model.Vertex
import Verif.Model.MotionDefines

/-!
# Printed vertices and segments

Source: `subpackages/mav_trajectory_generation/src/vertex.cpp` 209-226 and `src/segment.cpp` 60-82. A text is a list of characters. `num n x` is what a stream
of precision `n` writes for the number `x`. Eigen pads the entries of a vector with blanks to the length of the longest. Simplified: the stream is one on which
writing does not fail.
-/

namespace Verif

namespace Print

open MotionDefines

variable {K : Type}

/-- Eigen's `print_matrix`: entries of the same length, filled with blanks from the left. -/
def aligned (ws : List (List Char)) : List (List Char) :=
  let w := (ws.map List.length).foldl max 0
  ws.map fun s => List.replicate (w - s.length) ' ' ++ s

/-- `vertex.cpp` 211, 215: a row with `Eigen::IOFormat(4, 0, ", ", "\n", "[", "]")`; nothing if it has no entries. -/
def formatRow (num : ℕ → K → List Char) (c : List K) : List Char :=
  if c = [] then [] else '[' :: (", ".toList.intercalate (aligned (c.map (num 4))) ++ [']'])

/-- `vertex.cpp` 212-216, the body of the loop: the line of one constraint. -/
def constraintLine (num : ℕ → K → List Char) (x : Int × List K) : List Char :=
  "  type: ".toList ++ (positionDerivativeToString x.1).toList ++ ("  value: ".toList ++ formatRow num x.2)

/-- `vertex.cpp` 209-218 `operator<<`. -/
def printVertex (num : ℕ → K → List Char) (v : Vertex K) : List Char :=
  "constraints: ".toList ++ ['\n'] ++ v.constraints.flatMap fun x => constraintLine num x ++ ['\n']

/-- `vertex.cpp` 220-226 `operator<<` of several vertices. -/
def printVertices (num : ℕ → K → List Char) (vs : List (Vertex K)) : List Char := vs.flatMap fun v => printVertex num v ++ ['\n']

/-- `segment.cpp` 65-68, the body of the loop: the heading and the coefficients of a dimension, one below the other. -/
def dimensionText (num : ℕ → K → List Char) (prec : ℕ) (x : List K × ℕ) : List Char :=
  "dim ".toList ++ Nat.toDigits 10 x.2 ++ ": ".toList ++ ['\n'] ++ (['\n'].intercalate (aligned (x.1.map (num prec))) ++ ['\n'])

variable [CommRing K]

/-- `segment.cpp` 60-69 `printSegment`, on a stream of precision `prec`. -/
def printSegment (num : ℕ → K → List Char) (prec : ℕ) (s : Segment K) (derivative : Int) : Res (List Char) :=
  if 0 ≤ derivative ∧ derivative < s.N then do
    let rows ← s.polys.mapM fun p => Poly.getCoefficients p derivative.toNat
    return "t: ".toList ++ num prec s.time ++ ['\n'] ++
      (" coefficients for ".toList ++ (positionDerivativeToString derivative).toList ++ ": ".toList ++ ['\n'] ++ rows.zipIdx.flatMap (dimensionText num prec))
  else .error .check

/-- `segment.cpp` 76-81 `operator<<` of several segments; 71-74 prints the position. -/
def printSegments (num : ℕ → K → List Char) (prec : ℕ) (segs : List (Segment K)) : Res (List Char) := do
  let texts ← segs.mapM fun s => printSegment num prec s 0
  return texts.flatMap (· ++ ['\n'])

end Print

end Verif
