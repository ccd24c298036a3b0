import Verif.Model.Basic
import Mathlib.Algebra.Field.Basic
import Mathlib.Algebra.Order.Ring.Defs
import Mathlib.Data.Nat.Cast.Order.Ring

/-!
# Timing statistics

Source: `subpackages/mav_trajectory_generation/include/mav_trajectory_generation/timing.h` (`timing.h`) and
`subpackages/mav_trajectory_generation/src/timing.cpp` (`timing.cpp`). `double` is a linearly ordered field; only the two constants of
`std::numeric_limits<double>` are kept. Printing is in `Model/TimingPrint.lean`, concurrent use of the
singleton (nothing is locked) in `Model/ManyPlanners.lean`.
-/

namespace Verif

namespace Timing

variable {K : Type} [Field K] [LinearOrder K] [IsStrictOrderedRing K]

/-- `std::numeric_limits<double>::max()`. -/
def dblMax : K := (2 - 1 / 2 ^ 52) * 2 ^ 1023

/-- `std::numeric_limits<double>::min()`: the smallest positive normal number. -/
def dblMin : K := 1 / 2 ^ 1022

/-- Largest `int`. -/
def intMax : ℕ := 2 ^ 31 - 1

/-- `timing.h` 36-101 `Accumulator<double, double, N>`. `samples` holds the initialised part of `samples_[N]`, so its length is
`min window N`. -/
structure Accumulator (K : Type) where
  window : ℕ
  total : ℕ
  windowSum : K
  sum : K
  min : K
  max : K
  samples : List K

namespace Accumulator

/-- `timing.h` 39-45, the constructor. -/
def init : Accumulator K := ⟨0, 0, 0, 0, dblMax, dblMin, []⟩

/-- `timing.h` 47-66 `Add`. Incrementing an `int` that holds the largest value is undefined behaviour. `samples_[i]` with `i` outside the initialised
part does not occur for `N > 0` (`C67_window`); `N = 0` divides by zero. -/
def add (N : ℕ) (a : Accumulator K) (sample : K) : Res (Accumulator K) :=
  if a.window = intMax ∨ a.total = intMax then .error .ub
  else do
    let a1 ←
      if a.window < N then
        (pure { a with samples := a.samples.take a.window ++ [sample], window := a.window + 1, windowSum := a.windowSum + sample } :
          Res (Accumulator K))
      else if N = 0 then .error .ub
      else do
        let oldest ← at? a.samples (a.window % N)
        pure { a with
          windowSum := a.windowSum + (sample - oldest)
          samples := a.samples.set (a.window % N) sample
          window := a.window + 1 }
    let a2 := { a1 with sum := a1.sum + sample, total := a1.total + 1 }
    let a3 := if a2.max < sample then { a2 with max := sample } else a2
    pure (if sample < a3.min then { a3 with min := sample } else a3)

/-- `timing.h` 72 `Mean`: without samples zero is divided by zero. -/
def mean (a : Accumulator K) : Res K := if a.total = 0 then .error .nonfinite else .ok (a.sum / a.total)

/-- `timing.h` 74-76 `RollingMean`. -/
def rollingMean (N : ℕ) (a : Accumulator K) : Res K :=
  if Nat.min a.window N = 0 then .error .nonfinite else .ok (a.windowSum / (Nat.min a.window N : ℕ))

/-- `timing.h` 82-93 `LazyVariance`. -/
def lazyVariance (N : ℕ) (a : Accumulator K) : Res K :=
  if a.window = 0 then .ok 0
  else do
    let mean ← a.rollingMean N
    let var := ((a.samples.take (Nat.min a.window N)).map (fun s => (s - mean) * (s - mean))).sum
    return var / (Nat.min a.window N : ℕ)

end Accumulator

/-- `timing.h` 103-108: the window of the timers. -/
def window : ℕ := 50

/-- `timing.h` 142-186, the members of `Timing`: `std::map` from tags to handles as a list of pairs without repeated tags (its order is not
observable in what is modelled), and the statistics by handle. -/
structure Registry (K : Type) where
  timers : List (Accumulator K)
  tags : List (String × ℕ)
  maxTagLength : ℕ

namespace Registry

/-- `timing.cpp` 42, the constructor. -/
def init : Registry K := ⟨[], [], 0⟩

/-- `std::map::find`. -/
def find (r : Registry K) (tag : String) : Option ℕ := (r.tags.find? (fun x => x.1 == tag)).map (·.2)

/-- `timing.cpp` 47-63 `GetHandle`. -/
def getHandle (r : Registry K) (tag : String) : Registry K × ℕ :=
  match r.find tag with
  | some handle => (r, handle)
  | none => ({ timers := r.timers ++ [.init], tags := r.tags ++ [(tag, r.timers.length)], maxTagLength := max r.maxTagLength tag.utf8ByteSize },
      r.timers.length)

/-- `timing.cpp` 65-75 `GetTag`: the empty string if there is none. -/
def getTag (r : Registry K) (handle : ℕ) : String :=
  match r.tags.find? (fun x => x.2 == handle) with
  | some x => x.1
  | none => ""

/-- `timing.cpp` 109-111 `AddTime`. -/
def addTime (r : Registry K) (handle : ℕ) (seconds : K) : Res (Registry K) := do
  let a ← at? r.timers handle
  let a' ← a.add window seconds
  return { r with timers := r.timers.set handle a' }

/-- `timing.cpp` 206 `Reset`. -/
def reset (r : Registry K) : Registry K := { r with tags := [] }

/-- `timing.cpp` 113-149, the queries by handle: the accumulator they read. -/
def stats (r : Registry K) (handle : ℕ) : Res (Accumulator K) := at? r.timers handle

/-- `timing.cpp` 113-149, the queries by tag: they create the tag if there is none. -/
def statsOf (r : Registry K) (tag : String) : Registry K × Res (Accumulator K) :=
  let x := r.getHandle tag
  (x.1, x.1.stats x.2)

end Registry

/-- `timing.h` 125-140 `Timer`: clock readings in seconds since the epoch, which is what a default-constructed `time_point` holds. -/
structure Timer (K : Type) where
  time : K
  timing : Bool
  handle : ℕ

namespace Timer

/-- `timing.cpp` 93-96 `Start`. -/
def start (t : Timer K) (now : K) : Timer K := { t with timing := true, time := now }

/-- `timing.cpp` 78-87, the constructors; the one with a tag looks up the handle first. -/
def new (handle : ℕ) (constructStopped : Bool) (now : K) : Timer K :=
  if constructStopped then ⟨0, false, handle⟩ else (⟨0, false, handle⟩ : Timer K).start now

/-- `timing.cpp` 98-105 `Stop`. -/
def stop (t : Timer K) (r : Registry K) (now : K) : Res (Timer K × Registry K) := do
  let r' ← r.addTime t.handle (now - t.time)
  return ({ t with timing := false }, r')

/-- `timing.cpp` 89-91, the destructor. -/
def destroy (t : Timer K) (r : Registry K) (now : K) : Res (Registry K) :=
  if t.timing then do
    let x ← t.stop r now
    return x.2
  else .ok r

end Timer

/-- `timing.h` 189-214 `MiniTimer`. -/
structure MiniTimer (K : Type) where
  start : K
  stop : K

/-- `timing.h` 191: `end_` is default-constructed. -/
def MiniTimer.new (now : K) : MiniTimer K := ⟨now, 0⟩

/-- `timing.h` 202-208 `getTime`. -/
def MiniTimer.getTime (t : MiniTimer K) : K := if t.stop < t.start then 0 else t.stop - t.start

/-- `timing.h` 197-200 `stop`. -/
def MiniTimer.halt (t : MiniTimer K) (now : K) : MiniTimer K × K := let t' := { t with stop := now }; (t', t'.getTime)

end Timing

end Verif
