import Verif.Model.RoundedPercentiles
import Verif.Lemmas.Float
import Mathlib.Tactic.Linarith
import Mathlib.Tactic.Positivity
import Mathlib.Tactic.LinearCombination

/-! # numpy's interpolation with rounding: between the neighbours, and monotone -/

namespace Verif

variable {K : Type} [Field K] [LinearOrder K] [IsStrictOrderedRing K] {p : ℕ} {fl : K → K}

/-- A positive float has a mantissa in the upper half. -/
theorem isFloat_upper_half (hp : 1 ≤ p) {x : K} (hx : IsFloat p x) (h0 : 0 < x) :
    ∃ m e : ℤ, 2 ^ (p - 1) < m ∧ m ≤ 2 ^ p ∧ x = m * (2 : K) ^ e := by
  obtain ⟨m, e, hm, rfl⟩ := hx
  have h2 : (0 : K) < 2 ^ e := by positivity
  have hm0 : 0 < m := by
    have : (0 : K) < m := by
      by_contra hc
      push Not at hc
      exact absurd h0 (not_lt.2 (mul_nonpos_of_nonpos_of_nonneg hc h2.le))
    exact_mod_cast this
  rw [abs_of_pos hm0] at hm
  have key : ∀ k : ℕ, ∀ m e : ℤ, 0 < m → m ≤ 2 ^ p → (2 ^ p - m).toNat = k →
      ∃ m' e' : ℤ, 2 ^ (p - 1) < m' ∧ m' ≤ 2 ^ p ∧ (m : K) * 2 ^ e = m' * 2 ^ e' := by
    intro k
    induction k using Nat.strong_induction_on with
    | _ k ih =>
      intro m e h0 h1 hk
      by_cases hc : 2 ^ (p - 1) < m
      · exact ⟨m, e, hc, h1, rfl⟩
      · push Not at hc
        have hpp : (2 : ℤ) ^ p = 2 * 2 ^ (p - 1) := by
          obtain ⟨q, rfl⟩ : ∃ q, p = q + 1 := ⟨p - 1, by omega⟩
          rw [Nat.add_sub_cancel, pow_succ]; ring
        obtain ⟨m', e', h2, h3, h4⟩ := ih (2 ^ p - 2 * m).toNat (by omega) (2 * m) (e - 1) (by omega) (by omega) rfl
        refine ⟨m', e', h2, h3, ?_⟩
        rw [← h4, zpow_sub₀ two_ne_zero]
        push_cast
        rw [zpow_one]
        field_simp
  exact key _ m e hm0 hm rfl

/-- A float below one half is at least half a unit in the last place below. -/
theorem isFloat_below_half (hp : 1 ≤ p) {t : K} (ht : IsFloat p t) (h : t < 1 / 2) :
    t * (2 * 2 ^ p) ≤ 2 ^ p - 1 := by
  have hpow : (2 : K) ≤ 2 ^ p := by
    calc (2 : K) = 2 ^ 1 := by norm_num
      _ ≤ 2 ^ p := pow_le_pow_right₀ one_le_two hp
  rcases le_or_gt t 0 with h0 | h0
  · have : t * (2 * 2 ^ p) ≤ 0 := mul_nonpos_of_nonpos_of_nonneg h0 (by positivity)
    linarith
  obtain ⟨m, e, h1, h2, rfl⟩ := isFloat_upper_half hp ht h0
  have he : e ≤ -(p : ℤ) - 1 := by
    by_contra hc
    push Not at hc
    have h3 : (2 : K) ^ (-(p : ℤ)) ≤ 2 ^ e := zpow_le_zpow_right₀ one_le_two (by omega)
    have h4 : ((2 : K) ^ (p - 1)) ≤ m := by exact_mod_cast h1.le
    have h5 : (2 : K) ^ (p - 1) * 2 ^ (-(p : ℤ)) = 1 / 2 := by
      obtain ⟨q, rfl⟩ : ∃ q, p = q + 1 := ⟨p - 1, by omega⟩
      rw [Nat.add_sub_cancel, zpow_neg, zpow_natCast, pow_succ]
      field_simp
    have h6 : (1 / 2 : K) ≤ m * 2 ^ e := by
      rw [← h5]
      exact mul_le_mul h4 h3 (by positivity) (le_trans (by positivity) h4)
    linarith
  rcases he.eq_or_lt with he | he
  · subst he
    have e1 : (2 : K) ^ (-(p : ℤ) - 1) * (2 * 2 ^ p) = 1 := by
      rw [zpow_sub₀ two_ne_zero, zpow_neg, zpow_natCast, zpow_one]
      field_simp
    have h3 : (m : K) * 2 ^ (-(p : ℤ) - 1) * (2 * 2 ^ p) = m := by rw [mul_assoc, e1, mul_one]
    rw [h3]
    have h4 : (m : K) < 2 ^ p := by
      rw [← h3]
      calc (m : K) * 2 ^ (-(p : ℤ) - 1) * (2 * 2 ^ p) < 1 / 2 * (2 * 2 ^ p) :=
            mul_lt_mul_of_pos_right h (by positivity)
        _ = 2 ^ p := by ring
    have h5 : m < 2 ^ p := by exact_mod_cast h4
    have h6 : m ≤ 2 ^ p - 1 := by omega
    exact_mod_cast h6
  · have h3 : (2 : K) ^ e ≤ 2 ^ (-(p : ℤ) - 2) := zpow_le_zpow_right₀ one_le_two (by omega)
    have h4 : (m : K) ≤ 2 ^ p := by exact_mod_cast h2
    have e1 : (2 : K) ^ (-(p : ℤ) - 2) * (2 * 2 ^ p) = 1 / 2 := by
      rw [zpow_sub₀ two_ne_zero, zpow_neg, zpow_natCast]
      norm_num
      field_simp
      norm_num
    calc (m : K) * 2 ^ e * (2 * 2 ^ p) ≤ 2 ^ p * 2 ^ (-(p : ℤ) - 2) * (2 * 2 ^ p) := by
          apply mul_le_mul_of_nonneg_right _ (by positivity)
          exact mul_le_mul h4 h3 (by positivity) (by positivity)
      _ = 2 ^ p * (1 / 2) := by rw [mul_assoc, e1]
      _ ≤ 2 ^ p - 1 := by linarith

namespace RoundsTo

variable [FloorRing K]

/-- Half of a float is a float. -/
theorem half (h : RoundsTo p fl) {d : K} (hd : IsFloat p d) : fl (d * (1 / 2)) = d * (1 / 2) := by
  refine h.exact ?_
  have := isFloat_mul_zpow hd (-1)
  rwa [zpow_neg, zpow_one, ← one_div] at this

/-- A float times less than one half rounds to less than its half. -/
theorem mul_lt_half (h : RoundsTo p fl) (hp : 1 ≤ p) {d t : K} (hd : IsFloat p d) (hd0 : 0 < d)
    (ht : IsFloat p t) (hlt : t < 1 / 2) : fl (d * t) < d * (1 / 2) := by
  have hle : fl (d * t) ≤ d * (1 / 2) := by
    rw [← h.half hd]
    exact h.mono (mul_le_mul_of_nonneg_left hlt.le hd0.le)
  refine lt_of_le_of_ne hle fun heq => ?_
  obtain ⟨m, e, h1, h2, rfl⟩ := isFloat_upper_half hp hd hd0
  have hE : (0 : K) < 2 ^ e := by positivity
  have hy : IsFloat p (((m - 1 : ℤ) : K) * 2 ^ (e - 1)) := by
    refine ⟨m - 1, e - 1, ?_, rfl⟩
    have : (0 : ℤ) < 2 ^ (p - 1) := by positivity
    rw [abs_of_nonneg (by omega)]
    omega
  have hn := h.nearest ((m : K) * 2 ^ e * t) _ hy
  rw [heq] at hn
  have ee : (2 : K) ^ (e - 1) = 2 ^ e * (1 / 2) := by
    rw [zpow_sub₀ two_ne_zero, zpow_one]; ring
  rw [ee] at hn
  push_cast at hn
  have hb := isFloat_below_half hp ht hlt
  have hm : (2 : K) ^ (p - 1) < m := by exact_mod_cast h1
  have hpp : (2 : K) ^ p = 2 * 2 ^ (p - 1) := by
    obtain ⟨q, rfl⟩ : ∃ q, p = q + 1 := ⟨p - 1, by omega⟩
    rw [Nat.add_sub_cancel, pow_succ]; ring
  -- all distances in units of 2 ^ e
  set E : K := 2 ^ e
  have hmt : (m : K) * t < m * (1 / 2) - 1 / 4 := by
    have h2p : (0 : K) < 2 ^ p := by positivity
    have hmp : (0 : K) < m := lt_trans (by positivity) hm
    have h3 : (m : K) * (t * (2 * 2 ^ p)) ≤ m * (2 ^ p - 1) := mul_le_mul_of_nonneg_left hb hmp.le
    by_contra hc
    push Not at hc
    have h4 : (m * (1 / 2) - 1 / 4) * (2 * 2 ^ p) ≤ (m : K) * t * (2 * 2 ^ p) :=
      mul_le_mul_of_nonneg_right hc (by positivity)
    have h5 : (m : K) * t * (2 * 2 ^ p) = m * (t * (2 * 2 ^ p)) := by ring
    rw [h5] at h4
    have h6 : (m : K) * (2 ^ p) - 2 ^ p / 2 ≤ m * 2 ^ p - m := by
      have := h4.trans h3
      ring_nf at this ⊢
      linarith
    linarith
  have hq : (m : K) * E * t = (m * t) * E := by ring
  rw [hq] at hn
  rw [show (m : K) * E * (1 / 2) - m * t * E = (m * (1 / 2) - m * t) * E by ring,
    show ((m : K) - 1) * (E * (1 / 2)) - m * t * E = ((m - 1) * (1 / 2) - m * t) * E by ring,
    abs_mul, abs_mul, abs_of_pos hE] at hn
  have hn' : |(m : K) * (1 / 2) - m * t| ≤ |((m : K) - 1) * (1 / 2) - m * t| := le_of_mul_le_mul_right hn hE
  rw [abs_of_pos (by linarith)] at hn'
  rcases abs_cases (((m : K) - 1) * (1 / 2) - m * t) with ⟨h7, _⟩ | ⟨h7, _⟩ <;> rw [h7] at hn' <;> linarith

/-- The difference of two ordered numbers, rounded, is at most half of itself and any smaller half apart. -/
theorem split_gap (h : RoundsTo p fl) {g m : K} (hm : IsFloat p m) (hlt : m < fl g * (1 / 2)) :
    m + fl g * (1 / 2) ≤ g := by
  have h2 : IsFloat p (m * 2) := by
    have := isFloat_mul_zpow hm 1
    rwa [zpow_one] at this
  have hn := h.nearest g _ h2
  by_contra hc
  push Not at hc
  rw [abs_of_pos (by linarith : (0 : K) < fl g - g)] at hn
  rcases abs_cases (m * 2 - g) with ⟨h7, _⟩ | ⟨h7, _⟩ <;> rw [h7] at hn <;> linarith

end RoundsTo

section

variable [FloorRing K] {a b t : K}

/-- The two halves of the interpolation, before the last rounding. -/
theorem lerp_low_le (h : RoundsTo p fl) (hp : 1 ≤ p) (hab : a ≤ b) (ht : IsFloat p t) (hlt : t < 1 / 2) :
    a + fl (fl (b - a) * t) ≤ b - fl (b - a) * (1 / 2) := by
  have hd0 : 0 ≤ fl (b - a) := h.nonneg (sub_nonneg.2 hab)
  rcases hd0.eq_or_lt with hd | hd
  · rw [← hd, zero_mul, zero_mul, h.zero]
    linarith
  · have := h.split_gap (h.float _) (h.mul_lt_half hp (h.float (b - a)) hd ht hlt)
    linarith

theorem lerp_high_ge (h : RoundsTo p fl) (hab : a ≤ b) (ht : 1 / 2 ≤ t) :
    b - fl (b - a) * (1 / 2) ≤ b - fl (fl (b - a) * fl (1 - t)) := by
  have hd0 : 0 ≤ fl (b - a) := h.nonneg (sub_nonneg.2 hab)
  have hs : fl (1 - t) ≤ 1 / 2 := by
    have : fl (1 * (1 / 2)) = 1 * (1 / 2) := h.half (isFloat_one p)
    rw [one_mul] at this
    rw [← this]
    exact h.mono (by linarith)
  have := h.mono (mul_le_mul_of_nonneg_left hs hd0)
  rw [h.half (h.float _)] at this
  linarith

/-- numpy's interpolation stays between its ends. -/
theorem lerp_bounds (h : RoundsTo p fl) (hp : 1 ≤ p) (ha : IsFloat p a) (hb : IsFloat p b) (hab : a ≤ b)
    (ht : IsFloat p t) (h0 : 0 ≤ t) (h1 : t ≤ 1) : a ≤ lerpFl fl a b t ∧ lerpFl fl a b t ≤ b := by
  have hd0 : 0 ≤ fl (b - a) := h.nonneg (sub_nonneg.2 hab)
  unfold lerpFl
  split
  · rename_i hh
    have hs : 0 ≤ fl (1 - t) := h.nonneg (by linarith)
    refine ⟨h.le_of_ge ha ?_, h.le_of_le hb ?_⟩
    · have h2 := lerp_high_ge (fl := fl) h hab hh
      have h3 := lerp_low_le (fl := fl) h hp hab (isFloat_zero p) (by norm_num : (0 : K) < 1 / 2)
      rw [mul_zero, h.zero] at h3
      linarith
    · linarith [h.nonneg (mul_nonneg hd0 hs)]
  · rename_i hh
    push Not at hh
    refine ⟨h.le_of_ge ha ?_, h.le_of_le hb ?_⟩
    · linarith [h.nonneg (mul_nonneg hd0 h0)]
    · have := lerp_low_le (fl := fl) h hp hab ht hh
      have h2 : 0 ≤ fl (b - a) * (1 / 2) := mul_nonneg hd0 (by norm_num)
      linarith

/-- numpy's interpolation is monotone. -/
theorem lerp_mono (h : RoundsTo p fl) (hp : 1 ≤ p) (hab : a ≤ b) {t' : K} (ht : IsFloat p t)
    (htt : t ≤ t') : lerpFl fl a b t ≤ lerpFl fl a b t' := by
  have hd0 : 0 ≤ fl (b - a) := h.nonneg (sub_nonneg.2 hab)
  unfold lerpFl
  split
  · rename_i h1
    rw [if_pos (h1.trans htt)]
    apply h.mono
    have : fl (1 - t') ≤ fl (1 - t) := h.mono (by linarith)
    have := h.mono (mul_le_mul_of_nonneg_left this hd0)
    linarith
  · rename_i h1
    push Not at h1
    split
    · rename_i h2
      exact h.mono ((lerp_low_le h hp hab ht h1).trans (lerp_high_ge h hab h2))
    · apply h.mono
      have := h.mono (mul_le_mul_of_nonneg_left htt hd0)
      linarith

theorem lerp_zero (h : RoundsTo p fl) (ha : IsFloat p a) : lerpFl fl a b 0 = a := by
  unfold lerpFl
  rw [if_neg (by norm_num), mul_zero, h.zero, add_zero, h.exact ha]

theorem lerp_same (h : RoundsTo p fl) (ha : IsFloat p a) : lerpFl fl a a t = a := by
  unfold lerpFl
  simp only [sub_self, h.zero, zero_mul, sub_zero, add_zero, h.exact ha, ite_self]

end

end Verif
