import Verif.Spec.Float
import Verif.Lemmas.Round
import Mathlib.Data.Int.Log
import Mathlib.Tactic.Linarith
import Mathlib.Tactic.Positivity
import Mathlib.Tactic.Ring
import Mathlib.Tactic.NormNum

/-! # Correct rounding -/

namespace Verif

variable {K : Type} [Field K] [LinearOrder K] [IsStrictOrderedRing K] {p : ℕ} {fl : K → K}

theorem ulp_pos (p : ℕ) : (0 : K) < ulp p := by unfold ulp; positivity

theorem isFloat_zero (p : ℕ) : IsFloat p (0 : K) := ⟨0, 0, by simp, by simp⟩

theorem isFloat_int {p : ℕ} {z : ℤ} (h : |z| ≤ 2 ^ p) : IsFloat p (z : K) := ⟨z, 0, h, by simp⟩

theorem isFloat_one (p : ℕ) : IsFloat p (1 : K) :=
  ⟨1, 0, by simpa using one_le_pow₀ (one_le_two (α := ℤ)), by simp⟩

theorem isFloat_neg {x : K} (h : IsFloat p x) : IsFloat p (-x) := by
  obtain ⟨m, e, hm, rfl⟩ := h
  exact ⟨-m, e, by simpa using hm, by push_cast; ring⟩

theorem isFloat_mul_zpow {x : K} (h : IsFloat p x) (k : ℤ) : IsFloat p (x * 2 ^ k) := by
  obtain ⟨m, e, hm, rfl⟩ := h
  exact ⟨m, e + k, hm, by rw [zpow_add₀ two_ne_zero]; ring⟩

namespace RoundsTo

/-- A number that needs no rounding is kept. -/
theorem exact (h : RoundsTo p fl) {x : K} (hx : IsFloat p x) : fl x = x := by
  have := h.nearest x x hx
  rw [sub_self, abs_zero] at this
  exact sub_eq_zero.1 (abs_eq_zero.1 (le_antisymm this (abs_nonneg _)))

theorem zero (h : RoundsTo p fl) : fl 0 = 0 := h.exact (isFloat_zero p)

theorem one (h : RoundsTo p fl) : fl 1 = 1 := h.exact (isFloat_one p)

theorem idem (h : RoundsTo p fl) (x : K) : fl (fl x) = fl x := h.exact (h.float x)

theorem mono (h : RoundsTo p fl) {x y : K} (hxy : x ≤ y) : fl x ≤ fl y := by
  rcases hxy.eq_or_lt with rfl | hlt
  · exact le_rfl
  by_contra hc
  push Not at hc
  have h1 := h.nearest x (fl y) (h.float y)
  have h2 := h.nearest y (fl x) (h.float x)
  rcases abs_cases (fl x - x) with ⟨a1, _⟩ | ⟨a1, _⟩ <;>
  rcases abs_cases (fl y - x) with ⟨a2, _⟩ | ⟨a2, _⟩ <;>
  rcases abs_cases (fl y - y) with ⟨a3, _⟩ | ⟨a3, _⟩ <;>
  rcases abs_cases (fl x - y) with ⟨a4, _⟩ | ⟨a4, _⟩ <;>
  rw [a1, a2] at h1 <;> rw [a3, a4] at h2 <;> linarith

theorem le_of_le (h : RoundsTo p fl) {x y : K} (hy : IsFloat p y) (hxy : x ≤ y) : fl x ≤ y :=
  (h.mono hxy).trans (h.exact hy).le

theorem le_of_ge (h : RoundsTo p fl) {x y : K} (hy : IsFloat p y) (hxy : y ≤ x) : y ≤ fl x :=
  (h.exact hy).ge.trans (h.mono hxy)

theorem nonneg (h : RoundsTo p fl) {x : K} (hx : 0 ≤ x) : 0 ≤ fl x := h.le_of_ge (isFloat_zero p) hx

end RoundsTo

section
variable [FloorRing K]

/-- Rounding to `p` significant binary digits, ties to even. -/
def roundBits (p : ℕ) (x : K) : K :=
  let e : ℤ := Int.log 2 |x| + 1 - p
  (roundEven (x / (2 : K) ^ e) : K) * (2 : K) ^ e

theorem roundBits_float {p : ℕ} (x : K) : IsFloat p (roundBits p x) := by
  refine ⟨_, _, ?_, rfl⟩
  set e : ℤ := Int.log 2 |x| + 1 - p with he
  have h2 : (0 : K) < 2 ^ e := by positivity
  have hlt : |x| < (2 : K) ^ (Int.log 2 |x| + 1) := by
    exact_mod_cast Int.lt_zpow_succ_log_self (R := K) (b := 2) (by norm_num) |x|
  have hq : |x / 2 ^ e| < (2 : K) ^ p := by
    rw [abs_div, abs_of_pos h2, div_lt_iff₀ h2, ← zpow_natCast, ← zpow_add₀ two_ne_zero]
    refine hlt.trans_le (le_of_eq ?_)
    congr 1
    rw [he]
    ring
  have hr := abs_roundEven_sub_le (x / (2 : K) ^ e)
  set r := roundEven (x / (2 : K) ^ e)
  have hb : (|r| : ℤ) < 2 ^ p + 1 := by
    have h3 : |(r : K)| < 2 ^ p + 1 := by
      have := abs_sub_abs_le_abs_sub (r : K) (x / 2 ^ e)
      linarith
    exact_mod_cast h3
  omega

theorem roundBits_err {p : ℕ} (x : K) : |roundBits p x - x| ≤ ulp p * |x| := by
  by_cases hx : x = 0
  · subst hx
    have : roundEven (0 : K) = 0 := by exact_mod_cast roundEven_intCast (K := K) 0
    simp [roundBits, this]
  set e : ℤ := Int.log 2 |x| + 1 - p with he
  have h2 : (0 : K) < 2 ^ e := by positivity
  have hle : (2 : K) ^ (Int.log 2 |x|) ≤ |x| := by
    exact_mod_cast Int.zpow_log_le_self (R := K) (b := 2) (by norm_num) (abs_pos.2 hx)
  have hr := abs_roundEven_sub_le (x / (2 : K) ^ e)
  have : roundBits p x - x = ((roundEven (x / (2 : K) ^ e) : K) - x / 2 ^ e) * 2 ^ e := by
    rw [roundBits, ← he, sub_mul, div_mul_cancel₀ _ h2.ne']
  rw [this, abs_mul, abs_of_pos h2]
  have h4 : (1 / 2 : K) * 2 ^ e = ulp p * 2 ^ (Int.log 2 |x|) := by
    rw [he, zpow_sub₀ two_ne_zero, zpow_add₀ two_ne_zero, ulp, zpow_one, zpow_natCast]
    ring
  calc _ ≤ (1 / 2 : K) * 2 ^ e := mul_le_mul_of_nonneg_right hr h2.le
    _ = ulp p * 2 ^ (Int.log 2 |x|) := h4
    _ ≤ _ := mul_le_mul_of_nonneg_left hle (ulp_pos p).le

theorem roundEven_best (q : K) (z : ℤ) : |(roundEven q : K) - q| ≤ |(z : K) - q| := by
  by_contra hc
  push Not at hc
  have h1 := abs_roundEven_sub_le q
  have h2 : |(z : K) - roundEven q| < 1 := by
    have := abs_sub_le (z : K) q (roundEven q : K)
    rw [abs_sub_comm q] at this
    linarith
  have h3 : |z - roundEven q| < 1 := by exact_mod_cast h2
  have h4 : z = roundEven q := by
    have := abs_lt.1 h3
    omega
  rw [h4] at hc
  exact lt_irrefl _ hc

theorem roundBits_nearest {p : ℕ} (hp : 1 ≤ p) (x y : K) (hy : IsFloat p y) :
    |roundBits p x - x| ≤ |y - x| := by
  by_cases hx : x = 0
  · subst hx
    have : roundEven (0 : K) = 0 := by exact_mod_cast roundEven_intCast (K := K) 0
    simp [roundBits, this]
  set L := Int.log 2 |x| with hL
  set e : ℤ := L + 1 - p with he
  have h2 : (0 : K) < 2 ^ e := by positivity
  have hle : (2 : K) ^ L ≤ |x| := by
    exact_mod_cast Int.zpow_log_le_self (R := K) (b := 2) (by norm_num) (abs_pos.2 hx)
  have hrb : roundBits p x - x = ((roundEven (x / (2 : K) ^ e) : K) - x / 2 ^ e) * 2 ^ e := by
    rw [roundBits, ← hL, ← he, sub_mul, div_mul_cancel₀ _ h2.ne']
  have hmul : ∀ z : ℤ, |roundBits p x - x| ≤ |z * (2 : K) ^ e - x| := by
    intro z
    have : (z : K) * 2 ^ e - x = ((z : K) - x / 2 ^ e) * 2 ^ e := by
      rw [sub_mul, div_mul_cancel₀ _ h2.ne']
    rw [hrb, this, abs_mul, abs_mul]
    exact mul_le_mul_of_nonneg_right (roundEven_best _ z) (abs_nonneg _)
  obtain ⟨m, e', hm, rfl⟩ := hy
  rcases le_or_gt e e' with hee | hee
  · obtain ⟨k, hk⟩ := Int.eq_ofNat_of_zero_le (sub_nonneg.2 hee)
    have := hmul (m * 2 ^ k)
    have h5 : ((m * 2 ^ k : ℤ) : K) * 2 ^ e = m * 2 ^ e' := by
      push_cast
      rw [mul_assoc, ← zpow_natCast (2 : K) k, ← zpow_add₀ two_ne_zero]
      congr 2
      omega
    rwa [h5] at this
  · have hy : |(m : K) * 2 ^ e'| ≤ 2 ^ L := by
      rw [abs_mul, abs_of_pos (show (0 : K) < 2 ^ e' by positivity)]
      have hm' : |(m : K)| ≤ 2 ^ p := by exact_mod_cast hm
      calc |(m : K)| * 2 ^ e' ≤ 2 ^ p * 2 ^ e' := mul_le_mul_of_nonneg_right hm' (by positivity)
        _ = 2 ^ ((p : ℤ) + e') := by rw [zpow_add₀ two_ne_zero, zpow_natCast]
        _ ≤ 2 ^ L := zpow_le_zpow_right₀ one_le_two (by omega)
    have hrev : |x| - 2 ^ L ≤ |(m : K) * 2 ^ e' - x| := by
      have := abs_sub_abs_le_abs_sub x ((m : K) * 2 ^ e')
      rw [abs_sub_comm] at this
      linarith
    refine le_trans ?_ hrev
    have h6 : (2 : K) ^ L = 2 ^ (p - 1) * 2 ^ e := by
      rw [← zpow_natCast, ← zpow_add₀ two_ne_zero]
      congr 1
      omega
    rcases lt_or_gt_of_ne hx with hneg | hpos
    · have := hmul (-2 ^ (p - 1))
      push_cast at this
      rw [neg_mul, ← h6] at this
      refine this.trans (le_of_eq ?_)
      rw [abs_of_neg hneg] at hle ⊢
      rw [abs_of_nonneg (by linarith)]
      ring
    · have := hmul (2 ^ (p - 1))
      push_cast at this
      rw [← h6] at this
      refine this.trans (le_of_eq ?_)
      rw [abs_of_pos hpos] at hle ⊢
      rw [abs_of_nonpos (by linarith)]
      ring

/-- Rounding of a number whose leading digit is known. -/
theorem roundBits_eq {p : ℕ} {x : K} (e : ℤ) (h1 : (2 : K) ^ (e + p - 1) ≤ x) (h2 : x < (2 : K) ^ (e + p)) :
    roundBits p x = (roundEven (x / (2 : K) ^ e) : K) * (2 : K) ^ e := by
  have hx : 0 < x := lt_of_lt_of_le (by positivity) h1
  have hL : Int.log 2 |x| = e + p - 1 := by
    rw [abs_of_pos hx]
    apply le_antisymm
    · have := (Int.lt_zpow_iff_log_lt (b := 2) (by norm_num) hx (x := e + p)).1 (by exact_mod_cast h2)
      omega
    · exact (Int.zpow_le_iff_le_log (b := 2) (by norm_num) hx).1 (by exact_mod_cast h1)
  have he : Int.log 2 |x| + 1 - p = e := by omega
  rw [roundBits]
  simp only [he]

/-- Rounding to nearest, ties to even, is a correct rounding. -/
theorem roundBits_roundsTo {p : ℕ} (hp : 1 ≤ p) : RoundsTo p (roundBits (K := K) p) :=
  ⟨roundBits_float, roundBits_nearest hp⟩

/-- The relative error of a correct rounding. -/
theorem RoundsTo.err {fl : K → K} (h : RoundsTo p fl) (x : K) : |fl x - x| ≤ ulp p * |x| :=
  (h.nearest x _ (roundBits_float x)).trans (roundBits_err x)

theorem RoundsTo.le_mul {fl : K → K} (h : RoundsTo p fl) {x : K} (hx : 0 ≤ x) :
    fl x ≤ (1 + ulp p) * x := by
  have := (abs_le.1 (h.err x)).2
  rw [abs_of_nonneg hx] at this
  linarith

theorem RoundsTo.ge_mul {fl : K → K} (h : RoundsTo p fl) {x : K} (hx : 0 ≤ x) :
    (1 - ulp p) * x ≤ fl x := by
  have := (abs_le.1 (h.err x)).1
  rw [abs_of_nonneg hx] at this
  linarith

theorem ulp_le_half (hp : 1 ≤ p) : (ulp p : K) ≤ 1 / 2 := by
  unfold ulp
  apply one_div_le_one_div_of_le (by norm_num)
  calc (2 : K) = 2 ^ 1 := by norm_num
    _ ≤ 2 ^ p := pow_le_pow_right₀ one_le_two hp

theorem RoundsTo.pos {fl : K → K} (h : RoundsTo p fl) (hp : 1 ≤ p) {x : K} (hx : 0 < x) : 0 < fl x := by
  have h1 := h.ge_mul hx.le
  have h2 := ulp_le_half (K := K) hp
  have : 0 < (1 - ulp p) * x := mul_pos (by linarith) hx
  linarith

end

end Verif
