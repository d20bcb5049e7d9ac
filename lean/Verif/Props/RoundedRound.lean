import Verif.Model.RoundedRound
import Verif.Props.RoundedOneIn

/-!
# Rounding to digits in floating-point arithmetic (C167)

`fl` is any correct rounding to `p` binary digits (53 for a Python float).
-/

namespace Verif
open Verif.Spec

variable {K : Type} [Field K] [LinearOrder K] [IsStrictOrderedRing K] [FloorRing K] {p : ℕ} {fl : K → K}

theorem roundEven_close {y : K} {m : ℤ} (h : |y - m| ≤ 3 / 8) : roundEven y = m := by
  have h1 := abs_le.1 (abs_roundEven_sub_le y)
  have h2 := abs_le.1 h
  have c1 : ((roundEven y : ℤ) : K) < ((m + 1 : ℤ) : K) := by push_cast; linarith [h1.2, h2.2]
  have c2 : ((m - 1 : ℤ) : K) < ((roundEven y : ℤ) : K) := by push_cast; linarith [h1.1, h2.1]
  have c1 := Int.cast_lt.1 c1
  have c2 := Int.cast_lt.1 c2
  omega

/-- **C167.** A larger number is never rounded to a smaller one. -/
theorem C167_monotone (h : RoundsTo p fl) (k : ℤ) {x y : K} (hxy : x ≤ y) :
    ∃ a b, (roundScalarFl fl k x).val? = some a ∧ (roundScalarFl fl k y).val? = some b ∧ a ≤ b := by
  have ht : (0 : K) < 10 ^ k := zpow_pos (by norm_num) k
  have h1 : npRoundFl fl k x ≤ npRoundFl fl k y := by
    unfold npRoundFl
    refine h.mono (div_le_div_of_nonneg_right ?_ ht.le)
    exact_mod_cast roundEven_le (h.mono (mul_le_mul_of_nonneg_right hxy ht.le))
  unfold roundScalarFl
  by_cases hk : k ≤ 0
  · simp only [if_pos hk]
    refine ⟨_, _, rfl, rfl, ?_⟩
    have : truncZ (npRoundFl fl k x) ≤ truncZ (npRoundFl fl k y) := by
      unfold truncZ
      split <;> split
      · exact Int.floor_le_floor h1
      · exact absurd (le_trans ‹_› h1) ‹_›
      · rename_i a b
        exact (Int.ceil_le.2 (by push_cast; linarith)).trans (Int.floor_nonneg.2 b)
      · exact Int.ceil_le_ceil h1
    show ((_ : ℤ) : K) ≤ ((_ : ℤ) : K)
    exact_mod_cast this
  · simp only [if_neg hk]
    exact ⟨_, _, rfl, rfl, h1⟩

/-- **C167.** The result is the float nearest to a decimal number with `k` decimals, and it is the number rounded up to
half a unit of the last decimal and two roundings. -/
theorem C167_accuracy (h : RoundsTo p fl) {k : ℕ} (hk : 1 ≤ k) (x : K) :
    ∃ (m : ℤ) (r : K), roundScalarFl fl k x = .flt r ∧ r = fl (m / 10 ^ k) ∧
      |r - x| ≤ (1 + ulp p) * (1 / (2 * 10 ^ k) + 2 * ulp p * |x|) := by
  have ht : (0 : K) < 10 ^ k := by positivity
  refine ⟨roundEven (fl (x * 10 ^ k)), npRoundFl fl k x, by simp [roundScalarFl, show k ≠ 0 by omega], by simp [npRoundFl], ?_⟩
  have hu := ulp_pos (K := K) p
  set y := fl (x * 10 ^ k) with hy
  set m := roundEven y with hm
  have e1 : |y - x * 10 ^ k| ≤ ulp p * (|x| * 10 ^ k) := by
    have := h.err (x * 10 ^ k)
    rwa [abs_mul, abs_of_pos ht] at this
  have e2 : |(m : K) - y| ≤ 1 / 2 := abs_roundEven_sub_le y
  have e3 : |(m : K) / 10 ^ k - x| ≤ 1 / (2 * 10 ^ k) + ulp p * |x| := by
    have e : (m : K) / 10 ^ k - x = (m - x * 10 ^ k) / 10 ^ k := by field_simp
    rw [e, abs_div, abs_of_pos ht, div_le_iff₀ ht]
    have e4 : (1 / (2 * 10 ^ k) + ulp p * |x|) * 10 ^ k = 1 / 2 + ulp p * (|x| * 10 ^ k) := by field_simp
    rw [e4]
    have := abs_sub_le (m : K) y (x * 10 ^ k)
    linarith
  have e5 : |(m : K) / 10 ^ k| ≤ 1 / (2 * 10 ^ k) + ulp p * |x| + |x| := by
    have := abs_add_le ((m : K) / 10 ^ k - x) x
    rw [sub_add_cancel] at this
    linarith
  have e6 : npRoundFl fl (k : ℤ) x = fl ((m : K) / 10 ^ k) := by simp [npRoundFl, hm, hy]
  have e7 := h.err ((m : K) / 10 ^ k)
  have e8 := mul_le_mul_of_nonneg_left e5 hu.le
  have e9 := abs_sub_le (fl ((m : K) / 10 ^ k)) (m / 10 ^ k) x
  rw [e6]
  have hx0 := abs_nonneg x
  have hux := mul_nonneg (mul_nonneg hu.le hu.le) hx0
  nlinarith

/-- **C167.** A float that shows a decimal number of at most `k` decimals (up to `2^p / 8` units of the last one) stays
what it is. -/
theorem C167_keeps (h : RoundsTo p fl) {k : ℕ} (hk : 1 ≤ k) {m : ℤ} (hm : 8 * |(m : K)| ≤ 2 ^ p) :
    roundScalarFl fl k (fl ((m : K) / 10 ^ k)) = .flt (fl (m / 10 ^ k)) := by
  have ht : (0 : K) < 10 ^ k := by positivity
  have hk' : ¬ ((k : ℤ) ≤ 0) := by omega
  have hu := ulp_pos (K := K) p
  have hm0 := abs_nonneg (m : K)
  simp only [roundScalarFl, hk', if_false, npRoundFl, zpow_natCast]
  rw [roundEven_close (m := m)]
  rcases eq_or_ne m 0 with rfl | hne
  · simp only [Int.cast_zero, zero_div, h.zero, zero_mul, sub_zero, abs_zero]; norm_num
  have hm1 : (1 : K) ≤ |(m : K)| := by
    have : 1 ≤ |m| := Int.one_le_abs hne
    exact_mod_cast this
  have hmu : |(m : K)| * ulp p ≤ 1 / 8 := by
    unfold ulp
    rw [mul_one_div, div_le_div_iff₀ (by positivity) (by norm_num)]
    linarith
  have hu8 : ulp (K := K) p ≤ 1 / 8 := by nlinarith
  obtain ⟨a, ha, ea⟩ := h.near ((m : K) / 10 ^ k)
  obtain ⟨b, hb, eb⟩ := h.near (fl ((m : K) / 10 ^ k) * 10 ^ k)
  have ha' := abs_le.1 ha
  have hb' := abs_le.1 hb
  rw [eb, ea]
  have e : (m : K) / 10 ^ k * a * 10 ^ k * b - m = m * (a * b - 1) := by field_simp
  have hab : |a * b - 1| ≤ 3 * ulp p := by
    rw [abs_le]
    constructor <;> nlinarith
  rw [e, abs_mul]
  calc |(m : K)| * |a * b - 1| ≤ |(m : K)| * (3 * ulp p) := mul_le_mul_of_nonneg_left hab hm0
    _ ≤ 3 / 8 := by linarith

/-- **C167.** Rounding a second time changes nothing. -/
theorem C167_twice (h : RoundsTo p fl) {k : ℕ} (hk : 1 ≤ k) (hp : 1 ≤ p) {x : K}
    (hx : 16 * (|x| * 10 ^ k + 1) ≤ 2 ^ p) :
    ∃ r, roundScalarFl fl k x = .flt r ∧ roundScalarFl fl k r = .flt r := by
  have ht : (0 : K) < 10 ^ k := by positivity
  refine ⟨fl (roundEven (fl (x * 10 ^ k)) / 10 ^ k), by simp [roundScalarFl, show k ≠ 0 by omega, npRoundFl], C167_keeps h hk ?_⟩
  have hu := ulp_le_half (K := K) hp
  have e1 := h.err (x * 10 ^ k)
  rw [abs_mul, abs_of_pos ht] at e1
  have e2 := abs_roundEven_sub_le (fl (x * 10 ^ k))
  have e3 := abs_sub_le ((roundEven (fl (x * 10 ^ k)) : ℤ) : K) (fl (x * 10 ^ k)) 0
  have e4 := abs_sub_le (fl (x * 10 ^ k)) (x * 10 ^ k) 0
  simp only [sub_zero, abs_mul, abs_of_pos ht] at e3 e4
  have hx0 : 0 ≤ |x| * 10 ^ k := mul_nonneg (abs_nonneg x) ht.le
  have e5 := mul_le_mul_of_nonneg_right hu hx0
  linarith

/-- **C167.** Without digits, every float becomes the whole number nearest to it (the even one of two). -/
theorem C167_whole (h : RoundsTo p fl) {x : K} (hx : IsFloat p x) (hx2 : |x| + 1 ≤ 2 ^ p) :
    ∃ z : ℤ, roundScalarFl fl 0 x = .int z ∧ IsNearestInt x z := by
  refine ⟨roundEven x, ?_, roundEven_nearest x⟩
  have e := abs_roundEven_sub_le x
  have e2 := abs_sub_le ((roundEven x : ℤ) : K) x 0
  simp only [sub_zero] at e2
  have e3 : |((roundEven x : ℤ) : K)| ≤ 2 ^ p := by linarith
  have e4 : IsFloat p ((roundEven x : ℤ) : K) := isFloat_int (by exact_mod_cast e3)
  simp only [roundScalarFl, npRoundFl, le_refl, if_true, zpow_zero, mul_one, div_one, h.exact hx, h.exact e4,
    truncZ_intCast]

/-- **C167 fails** (nearest): the float 2.675 lies below 2.675 and is rounded to 2.68 although 2.67 is nearer. -/
theorem C167_nearest_fails :
    roundScalarFl (roundBits 53) 2 (roundBits 53 (2675 / 1000 : ℚ)) = .flt (roundBits 53 (268 / 100)) ∧
    |267 / 100 - roundBits 53 (2675 / 1000 : ℚ)| < |268 / 100 - roundBits 53 (2675 / 1000 : ℚ)| := by
  decide +kernel

/-- **C167 fails** (whole numbers are kept): beyond `2^p / 10`, rounding a whole number to one digit adds decimals. -/
theorem C167_whole_number_fails :
    IsFloat 53 (1801441648776863 : ℚ) ∧
    roundScalarFl (roundBits 53) 1 (1801441648776863 : ℚ) = .flt (1801441648776863 + 1 / 4) := by
  refine ⟨⟨1801441648776863, 0, by norm_num, by norm_num⟩, by decide +kernel⟩

/-- The float 0.1 + 0.2, shown with 2 digits, is the float 0.3 and stays it. -/
example : roundScalarFl (roundBits 53) 2 (roundBits 53 (roundBits 53 (1 / 10) + roundBits 53 (2 / 10)) : ℚ)
      = .flt (roundBits 53 (3 / 10)) ∧
    roundScalarFl (roundBits 53) 2 (roundBits 53 (3 / 10) : ℚ) = .flt (roundBits 53 (3 / 10)) := by decide +kernel

example : ∃ r, roundScalarFl (roundBits 53) 2 (roundBits 53 (1234567 / 1000 : ℚ)) = .flt r ∧
    roundScalarFl (roundBits 53) 2 r = .flt r :=
  C167_twice (roundBits_roundsTo (by norm_num)) (by norm_num) (by norm_num) (by decide +kernel)

end Verif
