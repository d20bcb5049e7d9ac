import Verif.Spec.Double
import Verif.Lemmas.Float

/-! # Bounded formats: where they agree with unlimited exponents -/

namespace Verif

variable {K : Type} [Field K] [LinearOrder K] [IsStrictOrderedRing K] [FloorRing K] {f : FloatFormat} {fl : K → K}

/-- A multiple of the finest unit. -/
def OnGrid (f : FloatFormat) (x : K) : Prop := ∃ m : ℤ, x = m * (2 : K) ^ f.low

omit [LinearOrder K] [IsStrictOrderedRing K] [FloorRing K] in
theorem onGrid_zero : OnGrid f (0 : K) := ⟨0, by simp⟩

omit [LinearOrder K] [IsStrictOrderedRing K] [FloorRing K] in
theorem OnGrid.add {x y : K} (hx : OnGrid f x) (hy : OnGrid f y) : OnGrid f (x + y) := by
  obtain ⟨m, rfl⟩ := hx
  obtain ⟨n, rfl⟩ := hy
  exact ⟨m + n, by push_cast; ring⟩

omit [LinearOrder K] [IsStrictOrderedRing K] [FloorRing K] in
theorem OnGrid.sub {x y : K} (hx : OnGrid f x) (hy : OnGrid f y) : OnGrid f (x - y) := by
  obtain ⟨m, rfl⟩ := hx
  obtain ⟨n, rfl⟩ := hy
  exact ⟨m - n, by push_cast; ring⟩

omit [FloorRing K] in
theorem onGrid_one (hl : f.low ≤ 0) : OnGrid f (1 : K) := by
  obtain ⟨k, hk⟩ := Int.eq_ofNat_of_zero_le (show 0 ≤ -f.low by omega)
  refine ⟨2 ^ k, ?_⟩
  have : f.low = -(k : ℤ) := by omega
  rw [this, zpow_neg, zpow_natCast]
  push_cast
  have h2 : (2 : K) ^ k ≠ 0 := by positivity
  field_simp

omit [FloorRing K] in
/-- A number with `p` digits that is large enough is a multiple of the finest unit. -/
theorem onGrid_of_large (hp : 1 ≤ f.p) {x : K} (hx : IsFloat f.p x) (h : (2 : K) ^ (f.low + f.p - 1) ≤ |x|) :
    OnGrid f x := by
  obtain ⟨m, e, hm, rfl⟩ := hx
  have h2 : (0 : K) < 2 ^ e := by positivity
  have hm' : |(m : K)| ≤ 2 ^ f.p := by exact_mod_cast hm
  rw [abs_mul, abs_of_pos h2] at h
  have key : (2 : K) ^ (f.low + f.p - 1) ≤ 2 ^ (e + f.p) := by
    refine h.trans ?_
    rw [zpow_add₀ two_ne_zero, zpow_natCast, mul_comm]
    exact mul_le_mul_of_nonneg_left hm' h2.le
  have he : f.low - 1 ≤ e := by
    have := (zpow_le_zpow_iff_right₀ (one_lt_two : (1 : K) < 2)).1 key
    omega
  rcases he.eq_or_lt with he | he
  · have e1 : (2 : K) ^ (f.low + f.p - 1) = 2 ^ f.p * 2 ^ e := by
      rw [← he, ← zpow_natCast, ← zpow_add₀ two_ne_zero]
      congr 1
      ring
    rw [e1] at h
    have h3 : (2 : K) ^ f.p ≤ |(m : K)| := le_of_mul_le_mul_right h h2
    have h4 : |(m : K)| = 2 ^ f.p := le_antisymm hm' h3
    have h5 : |m| = 2 ^ f.p := by exact_mod_cast h4
    have h6 : (2 : ℤ) ∣ m := by
      rw [← dvd_abs, h5]
      exact dvd_pow_self 2 (by omega)
    obtain ⟨n, rfl⟩ := h6
    refine ⟨n, ?_⟩
    rw [← he, show f.low = f.low - 1 + 1 by ring, zpow_add₀ two_ne_zero]
    push_cast
    ring_nf
  · obtain ⟨k, hk⟩ := Int.eq_ofNat_of_zero_le (show 0 ≤ e - f.low by omega)
    refine ⟨m * 2 ^ k, ?_⟩
    have : e = f.low + k := by omega
    rw [this, zpow_add₀ two_ne_zero, zpow_natCast]
    push_cast
    ring

omit [FloorRing K] in
/-- A small multiple of the finest unit needs no rounding. -/
theorem isFloat_of_small (hp : 1 ≤ f.p) {x : K} (hx : OnGrid f x) (h : |x| ≤ (2 : K) ^ (f.low + f.p - 1)) :
    IsFloat f.p x := by
  obtain ⟨m, rfl⟩ := hx
  refine ⟨m, f.low, ?_, rfl⟩
  have h2 : (0 : K) < 2 ^ f.low := by positivity
  rw [abs_mul, abs_of_pos h2] at h
  have e1 : (2 : K) ^ (f.low + f.p - 1) = 2 ^ (f.p - 1) * 2 ^ f.low := by
    rw [← zpow_natCast, ← zpow_add₀ two_ne_zero]
    congr 1
    omega
  rw [e1] at h
  have h3 : |(m : K)| ≤ 2 ^ (f.p - 1) := le_of_mul_le_mul_right h h2
  have h4 : |m| ≤ 2 ^ (f.p - 1) := by exact_mod_cast h3
  exact h4.trans (pow_le_pow_right₀ (by norm_num) (by omega))

/-- Where a bounded format rounds as an unbounded one does. -/
def Unharmed (f : FloatFormat) (x : K) : Prop := OnGrid f x ∨ (2 : K) ^ (f.low + f.p - 1) ≤ |x|

theorem roundBits_inFormat (hp : 1 ≤ f.p) {x : K} (hx : Unharmed f x) : InFormat f (roundBits f.p x) := by
  have hr := roundBits_roundsTo (K := K) hp
  refine ⟨hr.float x, ?_⟩
  have hpow : IsFloat f.p ((2 : K) ^ (f.low + f.p - 1)) := by
    have := isFloat_mul_zpow (isFloat_one (K := K) f.p) (f.low + f.p - 1)
    rwa [one_mul] at this
  have large : (2 : K) ^ (f.low + f.p - 1) ≤ |x| → OnGrid f (roundBits f.p x) := by
    intro h
    refine onGrid_of_large hp (hr.float x) ?_
    rcases le_abs'.1 h with h | h
    · have := hr.le_of_le (isFloat_neg hpow) h
      rw [le_abs']
      exact Or.inl this
    · have := hr.le_of_ge hpow h
      exact this.trans (le_abs_self _)
  rcases hx with hx | hx
  · rcases le_total |x| ((2 : K) ^ (f.low + f.p - 1)) with h | h
    · rw [hr.exact (isFloat_of_small hp hx h)]
      exact hx
    · exact large h
  · exact large hx

/-- A rounding with unlimited exponents that agrees with the one of the format wherever that loses no digits. -/
theorem RoundsDouble.unlimited (h : RoundsDouble f fl) (hp : 1 ≤ f.p) :
    ∃ fl' : K → K, RoundsTo f.p fl' ∧ ∀ x, Unharmed f x → fl x = fl' x := by
  classical
  have hr := roundBits_roundsTo (K := K) hp
  refine ⟨fun x => if Unharmed f x then fl x else roundBits f.p x, ⟨fun x => ?_, fun x y hy => ?_⟩, fun x hx => ?_⟩
  · split_ifs
    · exact (h.format x).1
    · exact hr.float x
  · split_ifs with hx
    · exact (h.nearest x _ (roundBits_inFormat hp hx)).trans (hr.nearest x y hy)
    · exact hr.nearest x y hy
  · dsimp only
    rw [if_pos hx]

omit [FloorRing K] in
theorem RoundsDouble.exact (h : RoundsDouble f fl) {x : K} (hx : InFormat f x) : fl x = x := by
  have := h.nearest x x hx
  rw [sub_self, abs_zero] at this
  exact sub_eq_zero.1 (abs_eq_zero.1 (le_antisymm this (abs_nonneg _)))

omit [FloorRing K] in
theorem RoundsDouble.mono (h : RoundsDouble f fl) {x y : K} (hxy : x ≤ y) : fl x ≤ fl y := by
  rcases hxy.eq_or_lt with rfl | hlt
  · exact le_rfl
  by_contra hc
  push Not at hc
  have h1 := h.nearest x (fl y) (h.format y)
  have h2 := h.nearest y (fl x) (h.format x)
  rcases abs_cases (fl x - x) with ⟨a1, _⟩ | ⟨a1, _⟩ <;>
  rcases abs_cases (fl y - x) with ⟨a2, _⟩ | ⟨a2, _⟩ <;>
  rcases abs_cases (fl y - y) with ⟨a3, _⟩ | ⟨a3, _⟩ <;>
  rcases abs_cases (fl x - y) with ⟨a4, _⟩ | ⟨a4, _⟩ <;>
  rw [a1, a2] at h1 <;> rw [a3, a4] at h2 <;> linarith

omit [FloorRing K] in
theorem inFormat_zero : InFormat f (0 : K) := ⟨isFloat_zero _, onGrid_zero⟩

omit [FloorRing K] in
theorem RoundsDouble.nonneg (h : RoundsDouble f fl) {x : K} (hx : 0 ≤ x) : 0 ≤ fl x := by
  have := h.mono hx
  rwa [h.exact inFormat_zero] at this

/-- A small number is rounded to a nearest multiple of the finest unit. -/
theorem RoundsDouble.small (h : RoundsDouble f fl) (hp : 1 ≤ f.p) {x : K}
    (hx : |x| ≤ (2 : K) ^ (f.low + f.p - 1)) : |fl x - x| ≤ 2 ^ f.low / 2 := by
  have h2 : (0 : K) < 2 ^ f.low := by positivity
  set n : ℤ := round (x / 2 ^ f.low) with hn
  have e1 : |(n : K) * 2 ^ f.low - x| ≤ 2 ^ f.low / 2 := by
    have := abs_sub_round (x / (2 : K) ^ f.low)
    rw [← hn, abs_sub_comm] at this
    have e : (n : K) * 2 ^ f.low - x = (n - x / 2 ^ f.low) * 2 ^ f.low := by
      field_simp
    rw [e, abs_mul, abs_of_pos h2]
    nlinarith
  have e2 : IsFloat f.p ((n : K) * 2 ^ f.low) := by
    refine ⟨n, f.low, ?_, rfl⟩
    have e1 : (2 : K) ^ (f.low + f.p - 1) = 2 ^ (f.p - 1) * 2 ^ f.low := by
      rw [← zpow_natCast, ← zpow_add₀ two_ne_zero]
      congr 1
      omega
    have h3 : |x / 2 ^ f.low| ≤ 2 ^ (f.p - 1) := by
      rw [abs_div, abs_of_pos h2, div_le_iff₀ h2, ← e1]
      exact hx
    have h4 : |(n : K)| ≤ 2 ^ (f.p - 1) + 1 / 2 := by
      have := abs_sub_round (x / (2 : K) ^ f.low)
      rw [← hn, abs_sub_comm] at this
      have := abs_add_le ((n : K) - x / 2 ^ f.low) (x / 2 ^ f.low)
      rw [sub_add_cancel] at this
      linarith
    have h5 : |(n : K)| < ((2 ^ (f.p - 1) + 1 : ℤ) : K) := by
      push_cast
      linarith
    have h6 : |n| < 2 ^ (f.p - 1) + 1 := by exact_mod_cast h5
    have h7 : (2 : ℤ) ^ (f.p - 1) ≤ 2 ^ f.p := pow_le_pow_right₀ (by norm_num) (by omega)
    omega
  exact (h.nearest x _ ⟨e2, n, rfl⟩).trans e1

/-- Rounding in the format, ties to even. -/
def roundDouble (f : FloatFormat) (x : K) : K :=
  if (2 : K) ^ (f.low + f.p - 1) ≤ |x| then roundBits f.p x else (roundEven (x / 2 ^ f.low) : K) * 2 ^ f.low

theorem roundDouble_rounds (hp : 1 ≤ f.p) : RoundsDouble f (roundDouble (K := K) f) := by
  have hr := roundBits_roundsTo (K := K) hp
  have h2 : (0 : K) < 2 ^ f.low := by positivity
  constructor
  · intro x
    unfold roundDouble
    split_ifs with hx
    · exact roundBits_inFormat hp (Or.inr hx)
    · refine ⟨⟨_, f.low, ?_, rfl⟩, _, rfl⟩
      have e1 : (2 : K) ^ (f.low + f.p - 1) = 2 ^ (f.p - 1) * 2 ^ f.low := by
        rw [← zpow_natCast, ← zpow_add₀ two_ne_zero]
        congr 1
        omega
      have h3 : |x / 2 ^ f.low| ≤ 2 ^ (f.p - 1) := by
        rw [abs_div, abs_of_pos h2, div_le_iff₀ h2, ← e1]
        exact (not_le.1 hx).le
      have h4 : |(roundEven (x / (2 : K) ^ f.low) : K)| ≤ 2 ^ (f.p - 1) + 1 / 2 := by
        have := abs_roundEven_sub_le (x / (2 : K) ^ f.low)
        have := abs_add_le ((roundEven (x / (2 : K) ^ f.low) : K) - x / 2 ^ f.low) (x / 2 ^ f.low)
        rw [sub_add_cancel] at this
        linarith
      have h5 : |(roundEven (x / (2 : K) ^ f.low) : K)| < ((2 ^ (f.p - 1) + 1 : ℤ) : K) := by
        push_cast
        linarith
      have h6 : |roundEven (x / (2 : K) ^ f.low)| < 2 ^ (f.p - 1) + 1 := by exact_mod_cast h5
      have h7 : (2 : ℤ) ^ (f.p - 1) ≤ 2 ^ f.p := pow_le_pow_right₀ (by norm_num) (by omega)
      omega
  · intro x y hy
    unfold roundDouble
    split_ifs with hx
    · exact hr.nearest x y hy.1
    · obtain ⟨-, n, rfl⟩ := hy
      have e : ∀ z : ℤ, |(z : K) * 2 ^ f.low - x| = |z - x / 2 ^ f.low| * 2 ^ f.low := by
        intro z
        rw [← abs_of_pos h2, ← abs_mul, abs_of_pos h2]
        congr 1
        field_simp
      rw [e, e]
      exact mul_le_mul_of_nonneg_right (roundEven_best _ _) h2.le

end Verif
