import Verif.Spec.PlannerFloat
import Verif.Lemmas.Trajectory
import Mathlib.Tactic.Linarith
import Mathlib.Tactic.FieldSimp
import Mathlib.Tactic.Ring

/-!
# Rounding to the nearest number with `p` digits
-/

set_option linter.unusedSectionVars false

namespace Verif.Lemmas
open Verif Verif.Spec

variable {K : Type*} [Field K] [LinearOrder K] [IsStrictOrderedRing K]

theorem two_zpow_pos' (e : ℤ) : (0 : K) < 2 ^ e := zpow_pos (by norm_num) e

theorem digits_neg {p : ℕ} {x : K} (h : Digits p x) : Digits p (-x) := by
  obtain ⟨m, e, hm, rfl⟩ := h
  exact ⟨-m, e, by rwa [abs_neg], by push_cast; ring⟩

/-- Numbers with `p` digits that are at least `2 ^ l` are multiples of `2 ^ (l - p + 1)`. -/
theorem digits_multiple {p : ℕ} {y : K} (hy : Digits p y) (l : ℤ) (hl : (2 : K) ^ l ≤ y) : ∃ n : ℤ, y = n * 2 ^ (l - p + 1) := by
  obtain ⟨m, f, hm, e⟩ := hy
  have hlt : l < p + f := by
    have : y < (2 : K) ^ ((p : ℤ) + f) := by
      rw [e, zpow_add₀ (by norm_num), zpow_natCast]
      refine mul_lt_mul_of_pos_right ?_ (two_zpow_pos' f)
      have := (le_abs_self m).trans_lt hm
      exact_mod_cast this
    exact (zpow_lt_zpow_iff_right₀ (by norm_num : (1 : K) < 2)).mp (hl.trans_lt this)
  obtain ⟨q, hq⟩ : ∃ q : ℕ, f = q + (l - p + 1) := ⟨(f - (l - p + 1)).toNat, by omega⟩
  refine ⟨m * 2 ^ q, ?_⟩
  push_cast
  rw [mul_assoc, ← zpow_natCast, ← zpow_add₀ (by norm_num), ← hq]
  exact e

variable [FloorRing K]

theorem log_bounds' {x : K} (hx : 0 < x) : (2 : K) ^ Int.log 2 x ≤ x ∧ x < 2 ^ (Int.log 2 x + 1) :=
  ⟨Int.zpow_log_le_self (by norm_num) hx, Int.lt_zpow_succ_log_self (by norm_num) x⟩

/-- The nearest number with `p` digits to a positive number: exists, is nearest, and has a small error. -/
theorem nearest_exists_pos {p : ℕ} (hp : 1 ≤ p) {x : K} (hx : 0 < x) :
    ∃ r : K, Digits p r ∧ (∀ y, Digits p y → |r - x| ≤ |y - x|) ∧ |r - x| ≤ 2⁻¹ ^ p * |x| := by
  obtain ⟨h1, h2⟩ := log_bounds' hx
  set l := Int.log 2 x
  set q : K := 2 ^ (l - p + 1) with hq
  have hqpos : 0 < q := two_zpow_pos' _
  set n := round (x / q)
  have key : ∀ k : ℤ, |(n : K) * q - x| ≤ |(k : K) * q - x| := by
    intro k
    have e : ∀ a : ℤ, |(a : K) * q - x| = |x / q - a| * q := by
      intro a
      rw [← abs_of_pos hqpos, ← abs_mul, abs_of_pos hqpos, abs_sub_comm]
      congr 1
      field_simp
    rw [e, e]
    exact mul_le_mul_of_nonneg_right (round_le _ _) hqpos.le
  have hpow : ((2 ^ (p - 1) : ℤ) : K) * q = 2 ^ l := by
    push_cast
    rw [← zpow_natCast, hq, ← zpow_add₀ (by norm_num)]; congr 1; omega
  have hpow2 : ((2 ^ p : ℤ) : K) * q = 2 ^ (l + 1) := by
    push_cast
    rw [← zpow_natCast, hq, ← zpow_add₀ (by norm_num)]; congr 1; omega
  have hn0 : (0 : ℤ) ≤ n := by
    have : (0 : K) ≤ x / q := by positivity
    rw [show n = ⌊x / q + 1 / 2⌋ from round_eq _]
    exact Int.floor_nonneg.mpr (by linarith)
  have hn1 : n ≤ 2 ^ p := by
    have : x / q < ((2 ^ p : ℤ) : K) := by rw [div_lt_iff₀ hqpos, hpow2]; exact h2
    rw [show n = ⌊x / q + 1 / 2⌋ from round_eq _, ← Int.lt_add_one_iff, Int.floor_lt]
    push_cast at this ⊢
    linarith
  refine ⟨n * q, ?_, ?_, ?_⟩
  · rcases eq_or_lt_of_le hn1 with he | hlt
    · refine ⟨1, l + 1, by rw [abs_one]; exact one_lt_pow₀ (by norm_num) (by omega), ?_⟩
      rw [he, hpow2]; simp
    · exact ⟨n, l - p + 1, by rwa [abs_of_nonneg hn0], rfl⟩
  · intro y hy
    by_cases hl : (2 : K) ^ l ≤ y
    · obtain ⟨k, rfl⟩ := digits_multiple hy l hl
      exact key k
    · have := key (2 ^ (p - 1))
      rw [hpow] at this
      refine this.trans ?_
      rw [abs_of_nonpos (by linarith), abs_of_nonpos (by linarith)]
      linarith
  · have e1 : |(n : K) * q - x| = |x / q - n| * q := by
      rw [← abs_of_pos hqpos, ← abs_mul, abs_of_pos hqpos, abs_sub_comm]
      congr 1
      field_simp
    have h4 : q = 2 * 2⁻¹ ^ p * 2 ^ l := by
      rw [hq, zpow_add_one₀ (by norm_num), zpow_sub₀ (by norm_num), zpow_natCast, inv_pow]
      ring
    rw [e1, abs_of_pos hx]
    calc _ ≤ 1 / 2 * q := mul_le_mul_of_nonneg_right (abs_sub_round _) hqpos.le
      _ = 2⁻¹ ^ p * 2 ^ l := by rw [h4]; ring
      _ ≤ 2⁻¹ ^ p * x := mul_le_mul_of_nonneg_left h1 (by positivity)

theorem nearest_exists {p : ℕ} (hp : 1 ≤ p) (x : K) :
    ∃ r : K, Digits p r ∧ (∀ y, Digits p y → |r - x| ≤ |y - x|) ∧ |r - x| ≤ 2⁻¹ ^ p * |x| := by
  rcases lt_trichotomy x 0 with h | rfl | h
  · obtain ⟨r, h1, h2, h3⟩ := nearest_exists_pos hp (x := -x) (by linarith)
    refine ⟨-r, digits_neg h1, fun y hy => ?_, ?_⟩
    · have := h2 _ (digits_neg hy)
      rw [show -r - x = -(r - -x) by ring, abs_neg, show y - x = -(-y - -x) by ring, abs_neg]
      exact this
    · rw [show -r - x = -(r - -x) by ring, abs_neg]
      rwa [abs_neg] at h3
  · exact ⟨0, ⟨0, 0, by simp, by simp⟩, fun y _ => by simp, by simp⟩
  · exact nearest_exists_pos hp h

/-- There is such a rounding. -/
theorem toNearest_exists (p : ℕ) (hp : 1 ≤ p) : ∃ fl : K → K, ToNearest p fl := by
  choose f h1 h2 _ using fun x : K => nearest_exists (K := K) hp x
  exact ⟨f, fun x => ⟨h1 x, h2 x⟩⟩

theorem toNearest_error {p : ℕ} (hp : 1 ≤ p) {fl : K → K} (h : ToNearest p fl) (x : K) : |fl x - x| ≤ 2⁻¹ ^ p * |x| := by
  obtain ⟨r, h1, _, h3⟩ := nearest_exists hp x
  exact ((h x).2 r h1).trans h3

omit [FloorRing K] in
theorem toNearest_fixed {p : ℕ} {fl : K → K} (h : ToNearest p fl) {x : K} (hx : Digits p x) : fl x = x := by
  have := (h x).2 x hx
  rw [sub_self, abs_zero] at this
  exact sub_eq_zero.mp (abs_nonpos_iff.mp this)

omit [FloorRing K] in
/-- Everything within half a unit of the last digit of `m * 2 ^ e` is rounded to it. -/
theorem toNearest_cell {p : ℕ} {fl : K → K} (h : ToNearest p fl) (m : ℕ) (e : ℤ) (h1 : 2 ^ (p - 1) < m) (h2 : m < 2 ^ p) (hp : 1 ≤ p) {x : K}
    (hx : |x - m * 2 ^ e| < 2 ^ e / 2) : fl x = m * 2 ^ e := by
  have hpos : (0 : K) < 2 ^ e := two_zpow_pos' e
  have hd : Digits p ((m : K) * 2 ^ e) := ⟨m, e, by simpa using (by exact_mod_cast h2 : (m : ℤ) < 2 ^ p), by simp⟩
  obtain ⟨k1, k2⟩ := h x
  have k3 := k2 _ hd
  rw [abs_sub_comm (_ * _)] at k3
  have k4 : |fl x - m * 2 ^ e| < 2 ^ e := by
    have : fl x - m * 2 ^ e = (fl x - x) + (x - m * 2 ^ e) := by ring
    rw [this]
    refine (abs_add_le _ _).trans_lt ?_
    linarith
  have hm : ((2 ^ (p - 1) : ℕ) : K) + 1 ≤ m := by exact_mod_cast h1
  have hbig : (2 : K) ^ (e + p - 1) ≤ fl x := by
    have e1 : (2 : K) ^ (e + p - 1) = ((2 ^ (p - 1) : ℕ) : K) * 2 ^ e := by
      push_cast
      rw [← zpow_natCast, ← zpow_add₀ (by norm_num)]; congr 1; omega
    rw [e1]
    have := mul_le_mul_of_nonneg_right hm hpos.le
    have := (abs_lt.mp k4).1
    linarith
  obtain ⟨n, hn⟩ := digits_multiple k1 (e + p - 1) hbig
  rw [show e + p - 1 - p + 1 = e by ring] at hn
  rw [hn] at k4 ⊢
  rw [← sub_mul, abs_mul, abs_of_pos hpos] at k4
  have k5 : |((n - m : ℤ) : K)| < 1 := by
    push_cast
    exact lt_of_mul_lt_mul_right (by linarith) hpos.le
  have k6 : |n - (m : ℤ)| < 1 := by exact_mod_cast k5
  have : n = m := by
    have := Int.abs_lt_one_iff.mp k6
    omega
  rw [this]; simp

end Verif.Lemmas
