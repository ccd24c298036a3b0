import Verif.Model.Timing
import Mathlib.Algebra.Order.Group.Abs
import Mathlib.Data.String.Basic

/-!
# The printed table of the timers

Source: `subpackages/mav_trajectory_generation/src/timing.cpp` (`timing.cpp`). A text is a list of characters. `rnd` is what the C library does when it
rounds a number that is not negative to a whole one (the rounding mode decides about ties) and `sqrt` the square root of `<cmath>`. Simplified: numbers
that are not finite have no text here, and the stream is one on which writing does not fail.
-/

namespace Verif

namespace Timing

variable {K : Type} [Field K] [LinearOrder K] [IsStrictOrderedRing K]

/-- The six decimals of `%09.6f`. -/
def sixDigits (n : ℕ) : List Char := List.replicate (6 - (Nat.toDigits 10 n).length) '0' ++ Nat.toDigits 10 n

/-- `%09.6f` of `printf`: a minus sign for a negative number, zeros up to nine characters, the digits, a point and six decimals. -/
def formatSeconds (rnd : K → ℕ) (x : K) : List Char :=
  let m := rnd (|x| * 10 ^ 6)
  let sign := if x < 0 then ['-'] else []
  let body := Nat.toDigits 10 (m / 10 ^ 6) ++ '.' :: sixDigits (m % 10 ^ 6)
  sign ++ List.replicate (9 - (sign.length + body.length)) '0' ++ body

/-- `timing.cpp` 157-161 `SecondsToTimeString`: `snprintf` writes at most 255 characters into the buffer of 256. -/
def secondsToTimeString (rnd : K → ℕ) (seconds : K) : List Char := (formatSeconds rnd seconds).take 255

/-- `timing.cpp` 163-199, the body of the loop: the line of one timer, without its end. `std::ostream` pads texts by their number of bytes. -/
def printLine (rnd : K → ℕ) (sqrt : K → K) (r : Registry K) (t : String × ℕ) : Res (List Char) := do
  let name := t.1.toList ++ List.replicate (r.maxTagLength - t.1.utf8ByteSize) ' ' ++ ['\t']
  let a ← r.stats t.2
  let count := List.replicate (7 - (Nat.toDigits 10 a.total).length) ' ' ++ Nat.toDigits 10 a.total ++ ['\t']
  if 0 < a.total then
    let meansec ← a.mean
    let var ← a.lazyVariance window
    return name ++ count ++ secondsToTimeString rnd a.sum ++ ['\t'] ++
      '(' :: secondsToTimeString rnd meansec ++ " +- ".toList ++ secondsToTimeString rnd (sqrt var) ++ [')', '\t'] ++
      '[' :: secondsToTimeString rnd a.min ++ ',' :: secondsToTimeString rnd a.max ++ [']']
  else return name ++ count

/-- The order in which a `std::map` from strings is run through. -/
def Registry.ordered (r : Registry K) : List (String × ℕ) := r.tags.mergeSort fun a b => decide (a.1 ≤ b.1)

/-- `timing.cpp` 163-204 `Print`. -/
def print (rnd : K → ℕ) (sqrt : K → K) (r : Registry K) : Res (List Char) :=
  if r.tags = [] then .ok []
  else do
    let rows ← r.ordered.mapM (printLine rnd sqrt r)
    return "SM Timing\n".toList ++ "-----------\n".toList ++ rows.flatMap (· ++ ['\n'])

end Timing

end Verif
