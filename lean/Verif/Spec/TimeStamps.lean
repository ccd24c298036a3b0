import Verif.Model.TimeStamps
import Verif.Spec.Rounding

/-!
# Specification: rounding to nearest
-/

namespace Verif.Spec

/-- `rnd` rounds every number to a nearest number with `p` significant bits; nothing is said about ties (`double` has `p = 53`). -/
def RoundsToNearest (p : ℕ) (rnd : ℝ → ℝ) : Prop := ∀ x, HasBits p (rnd x) ∧ ∀ y, HasBits p y → |rnd x - x| ≤ |y - x|

/-- Saving a duration and loading it again. -/
noncomputable def saveAndLoad (rnd : ℝ → ℝ) (T : ℝ) : Res ℝ := do
  let n ← Fl.getTimeNSec rnd T
  return Fl.setTimeNSec rnd n

/-- Converting a time stamp to seconds and back. -/
noncomputable def secondsAndBack (rnd : ℝ → ℝ) (n : ℤ) : Res ℤ := Fl.secondsToNanoseconds rnd (Fl.nanosecondsToSeconds rnd n)

/-- Converting a time stamp to seconds and back `k` times. -/
noncomputable def secondsAndBackTimes (rnd : ℝ → ℝ) : ℕ → ℤ → Res ℤ
  | 0, n => .ok n
  | k + 1, n => do secondsAndBackTimes rnd k (← secondsAndBack rnd n)

end Verif.Spec
