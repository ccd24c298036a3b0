import Verif.Lemmas.TimeStamps
import Verif.Properties.RoundingRange
import Verif.Model.IO

/-!
# C106, C107: durations and time stamps in whole nanoseconds with rounding
-/

namespace Verif.Properties
open Verif Verif.Spec

section Double
variable {rnd : ℝ → ℝ} (hr : RoundsToNearest 53 rnd)
include hr

theorem rnd_rel (x : ℝ) : |rnd x - x| ≤ 1 / 9007199254740992 * |x| := by
  have := nearest_rel hr (by norm_num) x
  norm_num at this ⊢
  exact this

theorem rnd_bounds {x : ℝ} (h : 0 ≤ x) : x - 1 / 9007199254740992 * x ≤ rnd x ∧ rnd x ≤ x + 1 / 9007199254740992 * x := by
  have := abs_le.mp (rnd_rel hr x)
  rw [abs_of_nonneg h] at this
  constructor <;> linarith [this.1, this.2]

theorem rnd_nat {n : ℕ} (h : n ≤ 2 ^ 52) : rnd n = n := nearest_natCast hr (lt_of_le_of_lt h (by norm_num))

theorem rnd_int {n : ℤ} (h : |n| ≤ 2 ^ 52) : rnd n = n := nearest_fixed hr ⟨n, 0, lt_of_le_of_lt h (by norm_num), by simp⟩

theorem rnd_billion : rnd 1000000000 = 1000000000 := by
  have := rnd_nat hr (n := 1000000000) (by norm_num)
  exact_mod_cast this

/-- The constant `1.0e-9` of the program is a little more than a billionth. -/
theorem rnd_billionth : rnd (1 / 1000000000) = 4835703278458517 / 4835703278458516698824704 := by
  have := nearest_value hr (x := 1 / 1000000000) 4835703278458517 (-82) (by norm_num) (by norm_num) (by norm_num [abs_lt, abs_of_nonneg])
  rw [this]
  norm_num

end Double

/-! ## C106: saved durations -/

theorem truncate_eq {x : ℝ} {n : ℕ} (h1 : (n : ℝ) ≤ x) (h2 : x < n + 1) : Mav.truncate x = n := by
  unfold Mav.truncate
  rw [if_pos (le_trans (Nat.cast_nonneg n) h1), Int.floor_eq_iff]
  exact ⟨by exact_mod_cast h1, by exact_mod_cast h2⟩

/-- C106: in double precision, a duration of whole nanoseconds (up to 2^51 ns, about 26 days) which is loaded from a file is saved as the same number. -/
theorem C106_whole_nanoseconds (rnd : ℝ → ℝ) (hr : RoundsToNearest 53 rnd) (n : ℕ) (hn : n ≤ 2 ^ 51) : Fl.getTimeNSec rnd (Fl.setTimeNSec rnd n) = .ok n := by
  unfold Fl.getTimeNSec Fl.setTimeNSec Fl.kNumNSecPerSec Fl.kNumSecPerNsec
  rw [rnd_billion hr, rnd_billionth hr, rnd_nat hr (hn.trans (by norm_num))]
  have hn0 : (0 : ℝ) ≤ n := Nat.cast_nonneg n
  have hnR : (n : ℝ) ≤ 2251799813685248 := by
    have : (n : ℝ) ≤ ((2 ^ 51 : ℕ) : ℝ) := by exact_mod_cast hn
    rwa [show ((2 ^ 51 : ℕ) : ℝ) = 2251799813685248 by norm_num] at this
  have hx := rnd_bounds hr (x := n * (4835703278458517 / 4835703278458516698824704)) (by positivity)
  set x := rnd (n * (4835703278458517 / 4835703278458516698824704)) with hxd
  have hx0 : 0 ≤ x := by linarith
  have hy := rnd_bounds hr (x := 1000000000 * x) (by positivity)
  have hlow : (n : ℝ) ≤ rnd (1000000000 * x) := by
    rcases Nat.eq_zero_or_pos n with rfl | hpos
    · push_cast at *
      linarith
    · have hpos' : (0 : ℝ) < n := by exact_mod_cast hpos
      refine nearest_not_below hr ⟨n, 0, ?_, by simp⟩ hpos' ?_
      · rw [Int.abs_natCast]
        exact_mod_cast lt_of_le_of_lt hn (by norm_num)
      · rw [show (2⁻¹ : ℝ) ^ 53 = 1 / 9007199254740992 by norm_num]
        linarith
  have hup : rnd (1000000000 * x) < n + 1 := by linarith
  unfold Fl.toUInt64
  rw [if_neg (by push Not; constructor <;> linarith), truncate_eq hlow hup, Int.toNat_natCast]

/-- C106: saving and loading changes a duration (up to 2^50 ns, about 13 days) by less than a nanosecond downwards and nothing but rounding upwards; saving and loading it
again changes nothing any more. -/
theorem C106_once (rnd : ℝ → ℝ) (hr : RoundsToNearest 53 rnd) (T : ℝ) (h0 : 0 ≤ T) (h1 : T * 1000000000 ≤ 2 ^ 50) :
    ∃ T', saveAndLoad rnd T = .ok T' ∧ T - 1 / 1000000000 - 3 / 2 ^ 53 * T ≤ T' ∧ T' ≤ T + 3 / 2 ^ 53 * T ∧ saveAndLoad rnd T' = .ok T' := by
  have hy := rnd_bounds hr (x := 1000000000 * T) (by positivity)
  set y := rnd (1000000000 * T) with hyd
  norm_num at h1
  have hy0 : 0 ≤ y := by linarith
  have hfl : Mav.truncate y = (⌊y⌋.toNat : ℤ) := by
    unfold Mav.truncate
    rw [if_pos hy0, Int.toNat_of_nonneg (Int.floor_nonneg.mpr hy0)]
  set n := ⌊y⌋.toNat with hn
  have hnf : (n : ℝ) = ⌊y⌋ := by
    rw [hn]
    exact_mod_cast Int.toNat_of_nonneg (Int.floor_nonneg.mpr hy0)
  have ha := Int.floor_le y
  have hb := Int.lt_floor_add_one y
  rw [← hnf] at ha hb
  have hn51 : n ≤ 2 ^ 51 := by
    have : (n : ℝ) ≤ ((2 ^ 51 : ℕ) : ℝ) := by
      rw [show ((2 ^ 51 : ℕ) : ℝ) = 2251799813685248 by norm_num]
      linarith
    exact_mod_cast this
  have hget : Fl.getTimeNSec rnd T = .ok n := by
    unfold Fl.getTimeNSec Fl.kNumNSecPerSec Fl.toUInt64
    rw [rnd_billion hr, ← hyd, if_neg (by push Not; constructor <;> linarith), hfl, Int.toNat_natCast]
  have hx := rnd_bounds hr (x := n * (4835703278458517 / 4835703278458516698824704)) (by positivity)
  have hset : Fl.setTimeNSec rnd n = rnd (n * (4835703278458517 / 4835703278458516698824704)) := by
    unfold Fl.setTimeNSec Fl.kNumSecPerNsec
    rw [rnd_billionth hr, rnd_nat hr (hn51.trans (by norm_num))]
  rw [← hset] at hx
  have hn0 : (0 : ℝ) ≤ n := Nat.cast_nonneg n
  refine ⟨Fl.setTimeNSec rnd n, ?_, ?_, ?_, ?_⟩
  · unfold saveAndLoad
    rw [hget]
    rfl
  · rw [show (2 : ℝ) ^ 53 = 9007199254740992 by norm_num]
    linarith
  · rw [show (2 : ℝ) ^ 53 = 9007199254740992 by norm_num]
    linarith
  · unfold saveAndLoad
    rw [C106_whole_nanoseconds rnd hr n hn51]
    rfl

/-- C106: the bound cannot be doubled much: 4503599627370503 ns (about 52 days) comes back as one nanosecond more. -/
theorem C106_limit (rnd : ℝ → ℝ) (hr : RoundsToNearest 53 rnd) : Fl.getTimeNSec rnd (Fl.setTimeNSec rnd 4503599627370503) = .ok 4503599627370504 := by
  have h1 : rnd ((4503599627370503 : ℕ) : ℝ) = 4503599627370503 := by
    rw [nearest_natCast hr (by norm_num)]; norm_num
  have h2 : rnd (4503599627370503 * (4835703278458517 / 4835703278458516698824704)) = 4835703278458525 / 1073741824 := by
    rw [nearest_value hr 4835703278458525 (-30) (by norm_num) (by norm_num) (by norm_num [abs_lt, abs_of_nonneg])]
    norm_num
  have h3 : rnd (1000000000 * (4835703278458525 / 1073741824)) = 4503599627370504 := by
    rw [nearest_value hr 4503599627370504 0 (by norm_num) (by norm_num) (by norm_num [abs_lt, abs_of_nonneg])]
    norm_num
  unfold Fl.getTimeNSec Fl.setTimeNSec Fl.kNumNSecPerSec Fl.kNumSecPerNsec Fl.toUInt64
  rw [h1, rnd_billion hr, rnd_billionth hr, h2, h3, if_neg (by norm_num)]
  have := truncate_eq (x := 4503599627370504) (n := 4503599627370504) (by norm_num) (by norm_num)
  rw [this]
  rfl

/-- Non-vacuity: rounding to the nearest `double` (ties away from zero); one and a half seconds and a third of a second. -/
example : Fl.getTimeNSec (nearest 53) (Fl.setTimeNSec (nearest 53) 1500000000) = .ok 1500000000 ∧
    ∃ T', saveAndLoad (nearest 53) (1 / 3) = .ok T' ∧ saveAndLoad (nearest 53) T' = .ok T' := by
  have hr := nearest_roundsToNearest 53 (by norm_num)
  refine ⟨C106_whole_nanoseconds _ hr _ (by norm_num), ?_⟩
  obtain ⟨T', h1, -, -, h2⟩ := C106_once _ hr (1 / 3) (by norm_num) (by norm_num)
  exact ⟨T', h1, h2⟩

/-! ## C107: time stamps -/

theorem truncate_near {y : ℝ} {n : ℤ} (h : |y - n| < 1) : |Mav.truncate y| ≤ |n| ∧ |n| ≤ |Mav.truncate y| + 1 ∧ 0 ≤ n * Mav.truncate y := by
  obtain ⟨h1, h2⟩ := abs_lt.mp h
  unfold Mav.truncate
  split_ifs with h0
  · have a := Int.floor_le y
    have b := Int.lt_floor_add_one y
    have c : ⌊y⌋ ≤ n := by
      rw [← Int.lt_add_one_iff, Int.floor_lt]
      push_cast
      linarith
    have d : n < ⌊y⌋ + 2 := by
      have : (n : ℝ) < ⌊y⌋ + 2 := by linarith
      exact_mod_cast this
    have e : 0 ≤ ⌊y⌋ := Int.floor_nonneg.mpr h0
    rw [abs_of_nonneg e, abs_of_nonneg (e.trans c)]
    exact ⟨c, by omega, mul_nonneg (e.trans c) e⟩
  · have a := Int.le_ceil y
    have b := Int.ceil_lt_add_one y
    have c : n ≤ ⌈y⌉ := by
      rw [← Int.sub_one_lt_iff, Int.lt_ceil]
      push_cast
      linarith
    have d : ⌈y⌉ < n + 2 := by
      have : (⌈y⌉ : ℝ) < n + 2 := by linarith
      exact_mod_cast this
    have e : ⌈y⌉ ≤ 0 := Int.ceil_le.mpr (by push_cast; linarith)
    rw [abs_of_nonpos e, abs_of_nonpos (c.trans e)]
    exact ⟨by omega, by omega, mul_nonneg_of_nonpos_of_nonpos (c.trans e) e⟩

/-- C107: a time stamp (up to 2^51 ns, about 26 days) survives the conversion to seconds and back. -/
def C107Full : Prop := ∀ rnd, RoundsToNearest 53 rnd → ∀ n : ℤ, |n| ≤ 2 ^ 51 → secondsAndBack rnd n = .ok n

/-- C107 (partial): the conversion to seconds and back is defined and loses at most one nanosecond, towards zero. Missing: that it loses nothing, which is false
(`C107_refuted`). -/
theorem C107_round_trip_partial (rnd : ℝ → ℝ) (hr : RoundsToNearest 53 rnd) (n : ℤ) (hn : |n| ≤ 2 ^ 51) :
    ∃ r, secondsAndBack rnd n = .ok r ∧ |r| ≤ |n| ∧ |n| ≤ |r| + 1 ∧ 0 ≤ n * r := by
  unfold secondsAndBack Fl.nanosecondsToSeconds Fl.secondsToNanoseconds
  rw [rnd_billion hr, rnd_int hr (hn.trans (by norm_num))]
  have hnR : |(n : ℝ)| ≤ 2251799813685248 := by
    have : ((|n| : ℤ) : ℝ) ≤ ((2 ^ 51 : ℤ) : ℝ) := by exact_mod_cast hn
    rwa [Int.cast_abs, show ((2 ^ 51 : ℤ) : ℝ) = 2251799813685248 by norm_num] at this
  have h1 := rnd_rel hr ((n : ℝ) / 1000000000)
  set x := rnd ((n : ℝ) / 1000000000)
  have h2 := rnd_rel hr (x * 1000000000)
  set y := rnd (x * 1000000000)
  rw [abs_div, abs_of_pos (by norm_num : (0 : ℝ) < 1000000000)] at h1
  have hx : |x| ≤ |(n : ℝ)| / 1000000000 + 1 / 9007199254740992 * (|(n : ℝ)| / 1000000000) := by
    have a : |x| ≤ |x - n / 1000000000| + |(n : ℝ) / 1000000000| := by
      have := abs_add_le (x - n / 1000000000) ((n : ℝ) / 1000000000)
      rwa [sub_add_cancel] at this
    rw [abs_div, abs_of_pos (by norm_num : (0 : ℝ) < 1000000000)] at a
    linarith
  rw [abs_mul, abs_of_pos (by norm_num : (0 : ℝ) < 1000000000)] at h2
  have h3 : |x * 1000000000 - n| ≤ 1 / 9007199254740992 * |(n : ℝ)| := by
    rw [show x * 1000000000 - n = (x - n / 1000000000) * 1000000000 by ring, abs_mul, abs_of_pos (by norm_num : (0 : ℝ) < 1000000000)]
    linarith
  have h4 : |y - n| < 1 := by
    have := abs_sub_le y (x * 1000000000) n
    linarith [abs_nonneg (n : ℝ)]
  obtain ⟨a, b, c⟩ := truncate_near h4
  refine ⟨Mav.truncate y, ?_, a, b, c⟩
  unfold Mav.toInt64
  have hb := abs_le.mp (a.trans hn)
  rw [if_pos ⟨by norm_num at hb ⊢; omega, by norm_num at hb ⊢; omega⟩]

/-- C107 (partial): `k` conversions lose at most `k` nanoseconds, towards zero. -/
theorem C107_repeated_partial (rnd : ℝ → ℝ) (hr : RoundsToNearest 53 rnd) (k : ℕ) (n : ℤ) (hn : |n| ≤ 2 ^ 51) :
    ∃ r, secondsAndBackTimes rnd k n = .ok r ∧ |r| ≤ |n| ∧ |n| ≤ |r| + k := by
  induction k generalizing n with
  | zero => exact ⟨n, rfl, le_rfl, by simp⟩
  | succ k ih =>
    obtain ⟨r, h1, h2, h3, -⟩ := C107_round_trip_partial rnd hr n hn
    obtain ⟨q, h4, h5, h6⟩ := ih r (h2.trans hn)
    refine ⟨q, ?_, h5.trans h2, by push_cast; omega⟩
    rw [secondsAndBackTimes, h1]
    exact h4

theorem secondsAndBack_value {rnd : ℝ → ℝ} (hr : RoundsToNearest 53 rnd) (n : ℤ) (hn : |n| ≤ 2 ^ 51) (m k m' k' : ℤ) (r : ℕ) (hm : |m| < 2 ^ 53) (h1 : 2 ^ 53 ≤ 2 * (m - 1))
    (hx : 2 * |m * 2 ^ k - (n : ℝ) / 1000000000| < 2 ^ k) (hm' : |m'| < 2 ^ 53) (h1' : 2 ^ 53 ≤ 2 * (m' - 1)) (hx' : 2 * |m' * 2 ^ k' - m * 2 ^ k * (1000000000 : ℝ)| < 2 ^ k')
    (hr1 : (r : ℝ) ≤ m' * 2 ^ k') (hr2 : (m' : ℝ) * 2 ^ k' < r + 1) (hr3 : r < 2 ^ 63) : secondsAndBack rnd n = .ok r := by
  unfold secondsAndBack Fl.nanosecondsToSeconds Fl.secondsToNanoseconds Mav.toInt64
  rw [rnd_billion hr, rnd_int hr (hn.trans (by norm_num)), nearest_value hr m k hm h1 hx, nearest_value hr m' k' hm' h1' hx', truncate_eq hr1 hr2, if_pos ⟨by omega, by exact_mod_cast hr3⟩]

/-- Whatever happens to ties, 15 ns become 14 ns. -/
theorem C107_fifteen (rnd : ℝ → ℝ) (hr : RoundsToNearest 53 rnd) : secondsAndBack rnd 15 = .ok 14 :=
  secondsAndBack_value hr 15 (by norm_num) 4533471823554859 (-78) 8444249301319679 (-49) 14 (by norm_num) (by norm_num) (by norm_num [abs_lt, abs_of_nonneg])
    (by norm_num) (by norm_num) (by norm_num [abs_lt, abs_of_nonneg]) (by norm_num) (by norm_num) (by norm_num)

/-- C107 is false. -/
theorem C107_refuted : ¬ C107Full := by
  intro h
  have hr := nearest_roundsToNearest 53 (by norm_num)
  have h1 := h _ hr 15 (by norm_num)
  rw [C107_fifteen _ hr] at h1
  exact absurd (Except.ok.inj h1) (by norm_num)

/-- The bound for repeated conversions is attained: five conversions lose five nanoseconds. -/
theorem C107_repeated_loses (rnd : ℝ → ℝ) (hr : RoundsToNearest 53 rnd) : secondsAndBackTimes rnd 5 8121942050 = .ok 8121942045 := by
  have s1 : secondsAndBack rnd 8121942050 = .ok 8121942049 :=
    secondsAndBack_value hr 8121942050 (by norm_num) 4572246898738095 (-49) 8516473507020799 (-20) 8121942049 (by norm_num) (by norm_num) (by norm_num [abs_lt, abs_of_nonneg])
      (by norm_num) (by norm_num) (by norm_num [abs_lt, abs_of_nonneg]) (by norm_num) (by norm_num) (by norm_num)
  have s2 : secondsAndBack rnd 8121942049 = .ok 8121942048 :=
    secondsAndBack_value hr 8121942049 (by norm_num) 4572246898175145 (-49) 8516473505972223 (-20) 8121942048 (by norm_num) (by norm_num) (by norm_num [abs_lt, abs_of_nonneg])
      (by norm_num) (by norm_num) (by norm_num [abs_lt, abs_of_nonneg]) (by norm_num) (by norm_num) (by norm_num)
  have s3 : secondsAndBack rnd 8121942048 = .ok 8121942047 :=
    secondsAndBack_value hr 8121942048 (by norm_num) 4572246897612195 (-49) 8516473504923647 (-20) 8121942047 (by norm_num) (by norm_num) (by norm_num [abs_lt, abs_of_nonneg])
      (by norm_num) (by norm_num) (by norm_num [abs_lt, abs_of_nonneg]) (by norm_num) (by norm_num) (by norm_num)
  have s4 : secondsAndBack rnd 8121942047 = .ok 8121942046 :=
    secondsAndBack_value hr 8121942047 (by norm_num) 4572246897049245 (-49) 8516473503875071 (-20) 8121942046 (by norm_num) (by norm_num) (by norm_num [abs_lt, abs_of_nonneg])
      (by norm_num) (by norm_num) (by norm_num [abs_lt, abs_of_nonneg]) (by norm_num) (by norm_num) (by norm_num)
  have s5 : secondsAndBack rnd 8121942046 = .ok 8121942045 :=
    secondsAndBack_value hr 8121942046 (by norm_num) 4572246896486295 (-49) 8516473502826495 (-20) 8121942045 (by norm_num) (by norm_num) (by norm_num [abs_lt, abs_of_nonneg])
      (by norm_num) (by norm_num) (by norm_num [abs_lt, abs_of_nonneg]) (by norm_num) (by norm_num) (by norm_num)
  simp only [secondsAndBackTimes, s1, s2, s3, s4, s5, bind, Except.bind]

/-! ## C107: time stamps of sampled states -/

theorem toInt64_nonneg {y : ℝ} (h0 : 0 ≤ y) (h1 : y < 2 ^ 63) : Mav.toInt64 y = .ok ⌊y⌋ := by
  unfold Mav.toInt64 Mav.truncate
  rw [if_pos h0, if_pos]
  have a : 0 ≤ ⌊y⌋ := Int.floor_nonneg.mpr h0
  have b : ⌊y⌋ < 2 ^ 63 := by
    rw [Int.floor_lt]
    norm_num at h1 ⊢
    exact h1
  exact ⟨by omega, b⟩

/-- C107: the stamp of a state sampled at `t` is `t` cut to nanoseconds, up to rounding. -/
theorem C107_stamp_at (u : ℝ) (rnd : ℝ → ℝ) (hr : RelativeError u rnd) (hb : rnd 1000000000 = 1000000000) (t : ℝ) (h0 : 0 ≤ t)
    (h1 : (1 + u) * (t * 1000000000) < 2 ^ 63) (hu1 : u ≤ 1) :
    ∃ n, Fl.stampAt rnd t = .ok n ∧ t * 1000000000 - u * (t * 1000000000) - 1 < n ∧ n ≤ t * 1000000000 + u * (t * 1000000000) := by
  have hy := hr (t * 1000000000)
  have ht : 0 ≤ t * 1000000000 := by positivity
  rw [abs_of_nonneg ht, abs_le] at hy
  unfold Fl.stampAt
  rw [hb]
  set y := rnd (t * 1000000000)
  have hut : u * (t * 1000000000) ≤ 1 * (t * 1000000000) := mul_le_mul_of_nonneg_right hu1 ht
  refine ⟨⌊y⌋, toInt64_nonneg (by linarith [hy.1]) (by linarith [hy.2]), ?_, ?_⟩
  · have := Int.lt_floor_add_one y
    linarith [hy.1]
  · have := Int.floor_le y
    linarith [hy.2]

theorem near_round {u : ℝ} {rnd : ℝ → ℝ} (hu : 0 ≤ u) (hr : RelativeError u rnd) {x x' : ℝ} {m : ℕ} (h0 : 0 ≤ x) (h : |x' - x| ≤ ((1 + u) ^ m - 1) * x) :
    |rnd x' - x| ≤ ((1 + u) ^ (m + 1) - 1) * x := by
  have h1 := hr x'
  have h2 : |x'| ≤ (1 + u) ^ m * x := by
    have := abs_add_le (x' - x) x
    rw [sub_add_cancel, abs_of_nonneg h0] at this
    linarith
  have h3 := abs_sub_le (rnd x') x' x
  have h4 : u * |x'| ≤ u * ((1 + u) ^ m * x) := mul_le_mul_of_nonneg_left h2 hu
  rw [pow_succ]
  linarith

theorem stamp_near {u : ℝ} {rnd : ℝ → ℝ} (hu : 0 ≤ u) (hr : RelativeError u rnd) (tMin dt : ℝ) (i : ℕ) (h0 : 0 ≤ tMin) (hdt : 0 ≤ dt) :
    |rnd (rnd (tMin + rnd (dt * i)) * 1000000000) - (tMin + i * dt) * 1000000000| ≤ ((1 + u) ^ 3 - 1) * ((tMin + i * dt) * 1000000000) := by
  have hi : (0 : ℝ) ≤ i * dt := by positivity
  have h1 : |rnd (dt * i) - i * dt| ≤ ((1 + u) ^ 1 - 1) * (i * dt) := by
    have := near_round hu hr (x := i * dt) (x' := dt * i) (m := 0) hi (by rw [mul_comm]; simp)
    simpa using this
  have h2 : |rnd (tMin + rnd (dt * i)) - (tMin + i * dt)| ≤ ((1 + u) ^ 2 - 1) * (tMin + i * dt) := by
    refine near_round hu hr (m := 1) (by linarith) ?_
    rw [add_sub_add_left_eq_sub]
    refine h1.trans ?_
    rw [pow_one]
    nlinarith
  refine near_round hu hr (m := 2) (by positivity) ?_
  rw [← sub_mul, abs_mul, abs_of_pos (by norm_num : (0 : ℝ) < 1000000000)]
  linarith

/-- C107: the stamp of sample number `i` is `tMin + i dt` cut to nanoseconds, up to rounding. -/
theorem C107_stamp_in_range (u : ℝ) (rnd : ℝ → ℝ) (hu : 0 ≤ u) (hr : RelativeError u rnd) (hb : rnd 1000000000 = 1000000000) (tMin dt : ℝ) (i : ℕ) (hi : rnd i = i)
    (h0 : 0 ≤ tMin) (hdt : 0 ≤ dt) (hu1 : (1 + u) ^ 3 ≤ 2) (h1 : (1 + u) ^ 3 * ((tMin + i * dt) * 1000000000) < 2 ^ 63) :
    ∃ n, Fl.stampInRange rnd tMin dt i = .ok n ∧
      (tMin + i * dt) * 1000000000 - ((1 + u) ^ 3 - 1) * ((tMin + i * dt) * 1000000000) - 1 < n ∧
      n ≤ (tMin + i * dt) * 1000000000 + ((1 + u) ^ 3 - 1) * ((tMin + i * dt) * 1000000000) := by
  have hs := abs_le.mp (stamp_near hu hr tMin dt i h0 hdt)
  have hS : 0 ≤ (tMin + i * dt) * 1000000000 := by positivity
  unfold Fl.stampInRange
  rw [hb, hi]
  set y := rnd (rnd (tMin + rnd (dt * i)) * 1000000000)
  have hm : ((1 + u) ^ 3 - 1) * ((tMin + i * dt) * 1000000000) ≤ 1 * ((tMin + i * dt) * 1000000000) := mul_le_mul_of_nonneg_right (by linarith) hS
  refine ⟨⌊y⌋, toInt64_nonneg (by linarith [hs.1]) (by linarith [hs.2]), ?_, ?_⟩
  · have := Int.lt_floor_add_one y
    linarith [hs.1]
  · have := Int.floor_le y
    linarith [hs.2]

/-- C107: later samples never have earlier stamps. -/
theorem C107_stamps_in_order (rnd : ℝ → ℝ) (hr : Monotone rnd) (hb : rnd 1000000000 = 1000000000) (tMin dt : ℝ) (hdt : 0 ≤ dt) (i j : ℕ) (hij : i ≤ j) (n m : ℤ)
    (hn : Fl.stampInRange rnd tMin dt i = .ok n) (hm : Fl.stampInRange rnd tMin dt j = .ok m) : n ≤ m := by
  unfold Fl.stampInRange Mav.toInt64 at hn hm
  split_ifs at hn hm
  rw [← Except.ok.inj hn, ← Except.ok.inj hm]
  refine Mav.truncate_mono (hr ?_)
  rw [hb]
  refine mul_le_mul_of_nonneg_right (hr ?_) (by norm_num)
  have : (i : ℝ) ≤ j := by exact_mod_cast hij
  have := hr (mul_le_mul_of_nonneg_left (hr this) hdt)
  linarith

/-- C107: with a sampling step of more than a nanosecond (plus the rounding errors), successive stamps are different. -/
theorem C107_stamps_differ (u : ℝ) (rnd : ℝ → ℝ) (hu : 0 ≤ u) (hr : RelativeError u rnd) (hb : rnd 1000000000 = 1000000000) (tMin dt : ℝ) (i : ℕ) (hi : rnd i = i)
    (hi' : rnd (i + 1 : ℕ) = (i + 1 : ℕ)) (h0 : 0 ≤ tMin) (hdt : 0 ≤ dt) (hu1 : (1 + u) ^ 3 ≤ 2)
    (hstep : 1 + 2 * (((1 + u) ^ 3 - 1) * ((tMin + (i + 1 : ℕ) * dt) * 1000000000)) ≤ dt * 1000000000) (n m : ℤ)
    (hn : Fl.stampInRange rnd tMin dt i = .ok n) (hm : Fl.stampInRange rnd tMin dt (i + 1) = .ok m) : n < m := by
  have hs := abs_le.mp (stamp_near hu hr tMin dt i h0 hdt)
  have hs' := abs_le.mp (stamp_near hu hr tMin dt (i + 1) h0 hdt)
  have hE : 0 ≤ (1 + u) ^ 3 - 1 := sub_nonneg.mpr (one_le_pow₀ (by linarith))
  have hmono : ((1 + u) ^ 3 - 1) * ((tMin + i * dt) * 1000000000) ≤ ((1 + u) ^ 3 - 1) * ((tMin + (i + 1 : ℕ) * dt) * 1000000000) := by
    refine mul_le_mul_of_nonneg_left ?_ hE
    push_cast
    linarith
  have hS : 0 ≤ (tMin + i * dt) * 1000000000 := by positivity
  have hm1 : ((1 + u) ^ 3 - 1) * ((tMin + i * dt) * 1000000000) ≤ 1 * ((tMin + i * dt) * 1000000000) := mul_le_mul_of_nonneg_right (by linarith) hS
  unfold Fl.stampInRange Mav.toInt64 at hn hm
  rw [hb, hi] at hn
  rw [hb, hi'] at hm
  split_ifs at hn hm
  rw [← Except.ok.inj hn, ← Except.ok.inj hm]
  have hx : (tMin + i * dt) * 1000000000 + dt * 1000000000 = (tMin + (i + 1 : ℕ) * dt) * 1000000000 := by push_cast; ring
  set y := rnd (rnd (tMin + rnd (dt * i)) * 1000000000)
  set y' := rnd (rnd (tMin + rnd (dt * (i + 1 : ℕ))) * 1000000000)
  have hy : 0 ≤ y := by linarith [hs.1]
  have hyy : y + 1 ≤ y' := by linarith [hs.2, hs'.1]
  unfold Mav.truncate
  rw [if_pos hy, if_pos (by linarith)]
  have := Int.floor_mono hyy
  rw [Int.floor_add_one] at this
  omega

/-- C107: every sample of a range is stamped with the time at which the trajectory was evaluated for it, up to a nanosecond and rounding (hypotheses as in
`C104_returns_partial`): the value is that of segment `j` at local time `τ`, and the stamp is near the start of the segment plus `τ`. -/
theorem C107_stamped_samples (u : ℝ) (rnd : ℝ → ℝ) (hu : 0 ≤ u) (hr : RelativeError u rnd) (ho : OrderedRounding rnd) (hb : rnd 1000000000 = 1000000000)
    (segs : List (Segment ℝ)) (hT : ∀ s ∈ segs, 0 ≤ s.time) (hrep : ∀ s ∈ segs, rnd s.time = s.time) (hR : ∀ s ∈ segs, Regular s) (tStart tEnd dt : ℝ) (k : ℕ) (h0 : 0 ≤ tStart)
    (h0e : tStart ≤ tEnd) (hmax : tStart < Fl.addTimes rnd segs 0) (hdt : 0 < dt) (hstep : u * (tEnd + dt) ≤ dt / 2) (hu1 : (1 + u) ^ 3 ≤ 2) :
    ∃ out fuel₀, (∀ fuel ≥ fuel₀, Fl.evaluateRange rnd fuel segs tStart tEnd dt k = .ok out) ∧
      ∀ (i : ℕ) x, out[i]? = some x → rnd i = i → (1 + u) ^ 3 * ((tStart + i * dt) * 1000000000) < 2 ^ 63 →
        ∃ (n : ℤ) (j : ℕ) (s : Segment ℝ) (τ : ℝ), Fl.stampInRange rnd tStart dt i = .ok n ∧ segs[j]? = some s ∧ NearDerivative u s k τ x.2 ∧
          |n / 1000000000 - (startOf segs j + τ)| ≤
            1 / 1000000000 + ((1 + u) ^ 3 - 1) * (tStart + i * dt) + ((1 + u) ^ (3 + i + j) - 1) * (3 * tEnd + 2 * dt + duration segs) := by
  obtain ⟨_, _, a₀, out, fuel₀, -, -, -, -, hout, hsample, -, -⟩ := C104_returns_partial u rnd hu hr ho segs hT hrep hR tStart tEnd dt k h0 h0e hmax hdt hstep
  refine ⟨out, fuel₀, hout, fun i x hx hi hfit => ?_⟩
  obtain ⟨j, s, τ, hj, -, hnear, hτ⟩ := (hsample i x hx).value
  obtain ⟨n, hn, hn1, hn2⟩ := C107_stamp_in_range u rnd hu hr hb tStart dt i hi h0 hdt.le hu1 hfit
  refine ⟨n, j, s, τ, hn, hj, hnear, ?_⟩
  rw [abs_le] at hτ ⊢
  constructor
  · linarith [hτ.2]
  · linarith [hτ.1]

/-- Non-vacuity: the stamps of a step of 10 ms in double precision are defined and different. -/
example : ∃ n m : ℤ, Fl.stampInRange (nearest 53) 0 (1 / 100) 6 = .ok n ∧ Fl.stampInRange (nearest 53) 0 (1 / 100) 7 = .ok m ∧ n < m := by
  have hr := nearest_roundsToNearest 53 (by norm_num)
  have hrel := (C103_nearest 53 (by norm_num)).1
  have h6 : nearest 53 (6 : ℕ) = (6 : ℕ) := rnd_nat hr (by norm_num)
  have h7 : nearest 53 (6 + 1 : ℕ) = (6 + 1 : ℕ) := rnd_nat hr (by norm_num)
  obtain ⟨n, hn, -⟩ := C107_stamp_in_range _ _ (by positivity) hrel (rnd_billion hr) 0 (1 / 100) 6 h6 le_rfl (by norm_num) (by norm_num) (by norm_num)
  obtain ⟨m, hm, -⟩ := C107_stamp_in_range _ _ (by positivity) hrel (rnd_billion hr) 0 (1 / 100) 7 h7 le_rfl (by norm_num) (by norm_num) (by norm_num)
  exact ⟨n, m, hn, hm, C107_stamps_differ _ _ (by positivity) hrel (rnd_billion hr) 0 (1 / 100) 6 h6 h7 le_rfl (by norm_num) (by norm_num) (by norm_num) n m hn hm⟩

/-- C106, C107: without rounding these are the functions of the exact model. -/
theorem C106_without_rounding (s : Segment ℝ) (n : ℕ) (t : ℝ) (m : ℤ) :
    Fl.getTimeNSec id s.time = IO.getTimeNSec s ∧ Fl.setTimeNSec id n = (IO.setTimeNSec s n).time ∧ Fl.secondsToNanoseconds id t = Mav.secondsToNanoseconds t ∧
      Fl.nanosecondsToSeconds id m = Mav.nanosecondsToSeconds m := by
  refine ⟨?_, ?_, rfl, rfl⟩
  · unfold Fl.getTimeNSec IO.getTimeNSec Fl.toUInt64 Fl.kNumNSecPerSec
    simp only [id]
    rw [mul_comm 1000000000 s.time]
    split_ifs with h
    · rfl
    · congr 1
      unfold Mav.truncate
      split_ifs with h0
      · rfl
      · have h1 : ⌈s.time * 1000000000⌉ ≤ 0 := Int.ceil_le.mpr (by push_cast; linarith)
        have h2 : ⌊s.time * 1000000000⌋ ≤ 0 := (Int.floor_le_ceil _).trans h1
        rw [Int.toNat_of_nonpos h1, Int.toNat_of_nonpos h2]
  · unfold Fl.setTimeNSec IO.setTimeNSec Fl.kNumSecPerNsec
    simp only [id]
    ring

end Verif.Properties
