import Verif.Properties.Rounding
import Verif.Spec.TimeStamps
import Verif.Lemmas.MavMsgsMisc
import Mathlib.Tactic.NormNum
import Mathlib.Tactic.Positivity
import Mathlib.Tactic.Linarith
import Mathlib.Tactic.Ring

/-!
# Lemmas: rounding to nearest
-/

namespace Verif

open Spec Properties

/-- Numbers with `p` bits have relative gaps of at least `2 ^ -p`. -/
theorem gap_rel {p : ℕ} {w y : ℝ} (hw : HasBits p w) (hy : HasBits p y) (hlt : w < y) (h0 : 0 < y) : 2⁻¹ ^ p * y ≤ y - w := by
  obtain ⟨m, e, hm, rfl⟩ := hw
  obtain ⟨n, f, hn, rfl⟩ := hy
  have hp : (0 : ℝ) < 2 ^ p := by positivity
  have he := two_zpow_pos e
  have hf := two_zpow_pos f
  have hn0 : (0 : ℝ) < n := by
    by_contra h
    have := mul_nonpos_of_nonpos_of_nonneg (not_lt.mp h) hf.le
    linarith
  have hnp : (n : ℝ) < 2 ^ p := by
    have := (abs_lt.mp hn).2
    exact_mod_cast this
  have hmp : (m : ℝ) + 1 ≤ 2 ^ p := by
    have := (abs_lt.mp hm).2
    exact_mod_cast this
  rw [inv_pow, inv_mul_le_iff₀ hp]
  rcases le_total f e with h | h
  · -- the lower number is a multiple of the last bit of the upper one
    have hz : (2 : ℝ) ^ e = 2 ^ (e - f).toNat * 2 ^ f := by
      rw [zpow_split e f, ← zpow_natCast, Int.toNat_of_nonneg (by omega)]
    rw [hz] at hlt ⊢
    have hlt' : (m : ℝ) * 2 ^ (e - f).toNat < n := by
      rw [← mul_assoc] at hlt
      exact lt_of_mul_lt_mul_right hlt hf.le
    have h1 : (m : ℝ) * 2 ^ (e - f).toNat + 1 ≤ n := by exact_mod_cast hlt'
    have h2 : (2 : ℝ) ^ f ≤ n * 2 ^ f - m * (2 ^ (e - f).toNat * 2 ^ f) := by nlinarith
    calc (n : ℝ) * 2 ^ f ≤ 2 ^ p * 2 ^ f := mul_le_mul_of_nonneg_right hnp.le hf.le
      _ ≤ _ := mul_le_mul_of_nonneg_left h2 hp.le
  · have hz : (2 : ℝ) ^ f = 2 ^ (f - e).toNat * 2 ^ e := by
      rw [zpow_split f e, ← zpow_natCast, Int.toNat_of_nonneg (by omega)]
    rw [hz] at hlt ⊢
    have hlt' : (m : ℝ) < n * 2 ^ (f - e).toNat := by
      rw [← mul_assoc] at hlt
      exact lt_of_mul_lt_mul_right hlt he.le
    have h1 : (m : ℝ) + 1 ≤ n * 2 ^ (f - e).toNat := by exact_mod_cast hlt'
    set N : ℝ := n * 2 ^ (f - e).toNat with hN
    have hNpos : 0 < N := by rw [hN]; positivity
    have key : N ≤ 2 ^ p * (N - m) := by
      rcases le_total N (2 ^ p) with h3 | h3
      · nlinarith
      · have hP : (1 : ℝ) ≤ 2 ^ p := one_le_pow₀ (by norm_num)
        have a := mul_nonneg (sub_nonneg.mpr h3) (sub_nonneg.mpr hP)
        have b := mul_nonneg hp.le (sub_nonneg.mpr hmp)
        nlinarith
    calc (n : ℝ) * (2 ^ (f - e).toNat * 2 ^ e) = N * 2 ^ e := by rw [hN]; ring
      _ ≤ 2 ^ p * (N - m) * 2 ^ e := mul_le_mul_of_nonneg_right key he.le
      _ = _ := by rw [hN]; ring

/-- Just above and below a number whose mantissa uses all bits the gaps are its last bit. -/
theorem gap_abs {p : ℕ} {w : ℝ} {m k : ℤ} (hw : HasBits p w) (h1 : 2 ^ p ≤ 2 * (m - 1)) (hne : w ≠ m * 2 ^ k) : (2 : ℝ) ^ k ≤ |w - m * 2 ^ k| := by
  obtain ⟨n, e, hn, rfl⟩ := hw
  have he := two_zpow_pos e
  have hk := two_zpow_pos k
  rcases le_total k e with h | h
  · have hz : (2 : ℝ) ^ e = 2 ^ (e - k).toNat * 2 ^ k := by
      rw [zpow_split e k, ← zpow_natCast, Int.toNat_of_nonneg (by omega)]
    have hd : (n : ℝ) * 2 ^ e - m * 2 ^ k = ((n * 2 ^ (e - k).toNat - m : ℤ) : ℝ) * 2 ^ k := by rw [hz]; push_cast; ring
    rw [hd, abs_mul, abs_of_pos hk]
    have h2 : n * 2 ^ (e - k).toNat - m ≠ 0 := by
      intro h3
      rw [h3] at hd
      apply hne
      push_cast at hd
      linarith
    have h3 : (1 : ℤ) ≤ |n * 2 ^ (e - k).toNat - m| := Int.one_le_abs h2
    have h4 : (1 : ℝ) ≤ |((n * 2 ^ (e - k).toNat - m : ℤ) : ℝ)| := by exact_mod_cast h3
    nlinarith
  · rcases eq_or_lt_of_le h with h' | h'
    · subst h'
      have hd : (n : ℝ) * 2 ^ e - m * 2 ^ e = ((n - m : ℤ) : ℝ) * 2 ^ e := by push_cast; ring
      rw [hd, abs_mul, abs_of_pos he]
      have h2 : n - m ≠ 0 := by
        intro h3
        apply hne
        rw [sub_eq_zero.mp h3]
      have h4 : (1 : ℝ) ≤ |((n - m : ℤ) : ℝ)| := by exact_mod_cast Int.one_le_abs h2
      nlinarith
    · have h2 : (n : ℝ) * 2 ^ e ≤ 2 ^ p * 2 ^ e := mul_le_mul_of_nonneg_right (by have := (abs_lt.mp hn).2.le; exact_mod_cast this) he.le
      have h3 : (2 : ℝ) * 2 ^ e ≤ 2 ^ k := by
        rw [mul_comm, ← zpow_add_one₀ (by norm_num)]
        exact zpow_le_zpow_right₀ (by norm_num) (by omega)
      have h4 : (2 : ℝ) ^ p ≤ 2 * (m - 1) := by exact_mod_cast h1
      have h5 : (2 : ℝ) ^ p * 2 ^ e ≤ (m - 1) * 2 ^ k := by
        have hm : (0 : ℝ) ≤ m - 1 := by have : (0 : ℝ) < 2 ^ p := by positivity
                                        linarith
        calc (2 : ℝ) ^ p * 2 ^ e ≤ 2 * (m - 1) * 2 ^ e := mul_le_mul_of_nonneg_right h4 he.le
          _ = (m - 1) * (2 * 2 ^ e) := by ring
          _ ≤ _ := mul_le_mul_of_nonneg_left h3 hm
      rw [abs_sub_comm, abs_of_nonneg (by nlinarith)]
      nlinarith

section Nearest
variable {p : ℕ} {rnd : ℝ → ℝ} (hr : RoundsToNearest p rnd)
include hr

theorem nearest_fixed {x : ℝ} (h : HasBits p x) : rnd x = x := by
  have := (hr x).2 x h
  rw [sub_self, abs_zero] at this
  exact sub_eq_zero.mp (abs_nonpos_iff.mp this)

theorem nearest_natCast {n : ℕ} (h : n < 2 ^ p) : rnd n = n :=
  nearest_fixed hr ⟨n, 0, by rw [Int.abs_natCast]; exact_mod_cast h, by simp⟩

theorem nearest_rel (hp : 1 ≤ p) : RelativeError (2⁻¹ ^ p) rnd := fun x =>
  ((hr x).2 _ ((C103_nearest p hp).2.2.2.1 x)).trans ((C103_nearest p hp).1 x)

theorem nearest_monotone : Monotone rnd := by
  intro x y hxy
  rcases eq_or_lt_of_le hxy with rfl | hxy
  · exact le_rfl
  by_contra h
  have h := not_le.mp h
  have h1 := (hr x).2 _ (hr y).1
  have h2 := (hr y).2 _ (hr x).1
  rcases abs_cases (rnd x - x) with a | a <;> rcases abs_cases (rnd y - x) with b | b <;> rcases abs_cases (rnd y - y) with c | c <;>
    rcases abs_cases (rnd x - y) with d | d <;> linarith

/-- What is less than half a gap below a number with `p` bits is not rounded below it. -/
theorem nearest_not_below {y z : ℝ} (hy : HasBits p y) (h0 : 0 < y) (hz : y - 2⁻¹ ^ p * y / 2 < z) : y ≤ rnd z := by
  by_contra h
  have h := not_le.mp h
  have hg := gap_rel (hr z).1 hy h h0
  have h1 := (hr z).2 y hy
  rcases abs_cases (rnd z - z) with a | a <;> rcases abs_cases (y - z) with b | b <;> linarith

/-- What is less than half a last bit away from a number whose mantissa uses all bits is rounded to it. -/
theorem nearest_value {x : ℝ} (m k : ℤ) (hm : |m| < 2 ^ p) (h1 : 2 ^ p ≤ 2 * (m - 1)) (hx : 2 * |m * 2 ^ k - x| < 2 ^ k) : rnd x = m * 2 ^ k := by
  by_contra h
  have hg := gap_abs (hr x).1 h1 h
  have h2 := (hr x).2 (m * 2 ^ k) ⟨m, k, hm, rfl⟩
  have h3 : |rnd x - m * 2 ^ k| ≤ |rnd x - x| + |m * 2 ^ k - x| := by
    rw [abs_sub_comm (m * (2 : ℝ) ^ k) x]
    exact abs_sub_le _ _ _
  linarith

end Nearest

theorem nearestNonneg_nearest {p : ℕ} {x y : ℝ} (hp : 1 ≤ p) (hx : 0 ≤ x) (hy : HasBits p y) : |nearestNonneg p x - x| ≤ |y - x| := by
  rcases eq_or_lt_of_le hx with rfl | h
  · rw [nearestNonneg_zero]; simp
  obtain ⟨h1, -⟩ := log_bounds h
  set g := Int.log 2 x - p + 1 with hg
  have hpos := two_zpow_pos g
  -- no multiple of the last bit is nearer
  have grid (k : ℤ) : |nearestNonneg p x - x| ≤ |k * 2 ^ g - x| := by
    have e1 : nearestNonneg p x - x = -((x / 2 ^ g - round (x / 2 ^ g)) * 2 ^ g) := by
      unfold nearestNonneg
      rw [← hg]
      field_simp
      ring
    have e2 : k * 2 ^ g - x = -((x / 2 ^ g - k) * 2 ^ g) := by
      field_simp
      ring
    rw [e1, e2, abs_neg, abs_neg, abs_mul, abs_mul]
    exact mul_le_mul_of_nonneg_right (round_le _ k) (abs_nonneg _)
  obtain ⟨m, f, hm, rfl⟩ := hy
  rcases le_or_gt g f with hf | hf
  · have hz : (2 : ℝ) ^ f = 2 ^ (f - g).toNat * 2 ^ g := by
      rw [zpow_split f g, ← zpow_natCast, Int.toNat_of_nonneg (by omega)]
    have := grid (m * 2 ^ (f - g).toNat)
    rw [hz, ← mul_assoc]
    exact_mod_cast this
  · have h2 : (m : ℝ) * 2 ^ f ≤ 2 ^ Int.log 2 x := by
      have a : (m : ℝ) ≤ 2 ^ (p : ℤ) := by
        have := (abs_lt.mp hm).2.le
        rw [zpow_natCast]
        exact_mod_cast this
      refine (mul_le_mul_of_nonneg_right a (two_zpow_pos f).le).trans ?_
      rw [← zpow_add₀ (by norm_num)]
      exact zpow_le_zpow_right₀ (by norm_num) (by omega)
    have h3 := grid (2 ^ (p - 1))
    have e3 : (((2 ^ (p - 1) : ℤ)) : ℝ) * 2 ^ g = 2 ^ Int.log 2 x := by
      push_cast
      rw [← zpow_natCast, ← zpow_add₀ (by norm_num)]
      congr 1
      omega
    rw [e3] at h3
    refine h3.trans ?_
    rw [abs_sub_comm, abs_of_nonneg (by linarith), abs_sub_comm, abs_of_nonneg (by linarith)]
    linarith

/-- The rounding of C103 rounds to nearest. -/
theorem nearest_roundsToNearest (p : ℕ) (hp : 1 ≤ p) : RoundsToNearest p (nearest p) := by
  intro x
  refine ⟨(C103_nearest p hp).2.2.2.1 x, fun y hy => ?_⟩
  unfold nearest
  split
  · exact nearestNonneg_nearest hp ‹_› hy
  · have := nearestNonneg_nearest hp (x := -x) (by linarith) (hasBits_neg hy)
    rw [show -nearestNonneg p (-x) - x = -(nearestNonneg p (-x) - -x) by ring, abs_neg, show y - x = -(-y - -x) by ring, abs_neg]
    exact this

end Verif
