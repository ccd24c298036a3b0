import Verif.Model.MavMsgs
import Verif.Model.Rounding

/-!
# Durations and time stamps in whole nanoseconds, with rounding

As in `Verif.Model.Rounding`, every arithmetic operation (and the conversion of an integer or of a decimal constant to `double`) is followed by a rounding function `rnd`.
Sources: `subpackages/mav_trajectory_generation/include/mav_trajectory_generation/segment.h` (`segment.h`), `.../include/mav_msgs/common.hpp` (`common.hpp`) and
`.../src/trajectory_sampling.cpp` (`trajectory_sampling.cpp`). Overflow, underflow and special values of `double` are not modelled.
-/

namespace Verif.Fl

variable (rnd : ℝ → ℝ)

/-- `segment.h` 36 `kNumNSecPerSec = 1.0e9`. -/
noncomputable def kNumNSecPerSec : ℝ := rnd 1000000000

/-- `segment.h` 37 `kNumSecPerNsec = 1.0e-9`: the nearest `double`. -/
noncomputable def kNumSecPerNsec : ℝ := rnd (1 / 1000000000)

/-- Conversion of a floating point number to `uint64_t`: truncation, undefined behaviour when the result does not fit. -/
noncomputable def toUInt64 (x : ℝ) : Res ℕ := if x ≤ -1 ∨ 2 ^ 64 ≤ x then .error .ub else .ok (Mav.truncate x).toNat

/-- `segment.h` 58-60 `getTimeNSec`: `static_cast<uint64_t>(kNumNSecPerSec * time_)`. -/
noncomputable def getTimeNSec (time : ℝ) : Res ℕ := toUInt64 (rnd (kNumNSecPerSec rnd * time))

/-- `segment.h` 63 `setTimeNSec`: `time_ = time_ns * kNumSecPerNsec`. -/
noncomputable def setTimeNSec (ns : ℕ) : ℝ := rnd (rnd ns * kNumSecPerNsec rnd)

/-- `common.hpp` 359-362 `nanosecondsToSeconds`: `nanoseconds / kNumNanosecondsPerSecond`. -/
noncomputable def nanosecondsToSeconds (ns : ℤ) : ℝ := rnd (rnd ns / rnd 1000000000)

/-- `common.hpp` 364-368 `secondsToNanoseconds`: `static_cast<int64_t>(seconds * kNumNanosecondsPerSecond)`. -/
noncomputable def secondsToNanoseconds (s : ℝ) : Res ℤ := Mav.toInt64 (rnd (s * rnd 1000000000))

/-- `trajectory_sampling.cpp` 179-180: the time stamp of the state sampled at `t`. -/
noncomputable def stampAt (t : ℝ) : Res ℤ := Mav.toInt64 (rnd (t * rnd 1000000000))

/-- `trajectory_sampling.cpp` 88-89: the time stamp of sample number `i`: `static_cast<int64_t>((min_time + sampling_interval * i) * kNumNanosecondsPerSecond)`. -/
noncomputable def stampInRange (tMin dt : ℝ) (i : ℕ) : Res ℤ := Mav.toInt64 (rnd (rnd (tMin + rnd (dt * rnd i)) * rnd 1000000000))

end Verif.Fl
