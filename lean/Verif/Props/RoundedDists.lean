import Verif.Model.RoundedDists
import Verif.Props.RoundedHelpers
import Mathlib.Analysis.Real.Sqrt

/-!
# Samplers, interval parameters and Bayes' rule in floating-point arithmetic (C121–C124)
-/

namespace Verif

variable {K : Type} [Field K] [LinearOrder K] [IsStrictOrderedRing K] [FloorRing K] {p : ℕ} {fl : K → K}

/-! ## C121 -/

omit [FloorRing K] in
/-- A non-zero float can be written with all `p` digits. -/
theorem isFloat_normal (hp : 1 ≤ p) {x : K} (hx : IsFloat p x) (h0 : 0 < x) :
    ∃ (m e : ℤ), 2 ^ (p - 1) ≤ m ∧ m ≤ 2 ^ p ∧ x = m * 2 ^ e := by
  obtain ⟨m, e, hm, rfl⟩ := hx
  have he0 : (0 : K) < 2 ^ e := by positivity
  have hm0 : 0 < m := by
    by_contra hc
    push Not at hc
    have : (m : K) ≤ 0 := by exact_mod_cast hc
    nlinarith
  have hm' : m ≤ 2 ^ p := (abs_le.1 hm).2
  -- double the mantissa while it is small
  have key : ∀ k : ℕ, ∀ m e : ℤ, 0 < m → m ≤ 2 ^ p → 2 ^ (p - 1) ≤ m * 2 ^ k →
      ∃ (m' e' : ℤ), 2 ^ (p - 1) ≤ m' ∧ m' ≤ 2 ^ p ∧ (m : K) * 2 ^ e = m' * 2 ^ e' := by
    intro k
    induction k with
    | zero => exact fun m e _ h2 h3 => ⟨m, e, by simpa using h3, h2, rfl⟩
    | succ k ih =>
      intro m e h1 h2 h3
      rcases le_or_gt (2 ^ (p - 1)) m with h4 | h4
      · exact ⟨m, e, h4, h2, rfl⟩
      · have h5 : 2 * m ≤ 2 ^ p := by
          have : (2 : ℤ) ^ p = 2 * 2 ^ (p - 1) := by
            rw [← pow_succ']
            congr 1
            omega
          omega
        obtain ⟨m', e', a, b, c⟩ := ih (2 * m) (e - 1) (by omega) h5 (by
          rw [pow_succ] at h3
          linarith)
        refine ⟨m', e', a, b, c ▸ ?_⟩
        push_cast
        rw [zpow_sub_one₀ two_ne_zero]
        ring
  refine key (p - 1) m e hm0 hm' ?_
  have : (1 : ℤ) ≤ m := hm0
  nlinarith [pow_pos (show (0 : ℤ) < 2 by norm_num) (p - 1)]

/-- A positive float times a number that is at most `1 - 2^(-p)` rounds to something smaller. -/
theorem RoundsTo.shrink (h : RoundsTo p fl) (hp : 1 ≤ p) {R u : K} (hR : IsFloat p R) (h0 : 0 < R)
    (hu0 : 0 ≤ u) (hu : u ≤ 1 - ulp p) : fl (R * u) < R := by
  have hup := ulp_pos (K := K) p
  have hle : fl (R * u) ≤ R := h.le_of_le hR (by nlinarith)
  refine lt_of_le_of_ne hle fun heq => ?_
  obtain ⟨m, e, hm1, hm2, rfl⟩ := isFloat_normal hp hR h0
  set E : K := 2 ^ e with hE
  have hE0 : 0 < E := by rw [hE]; positivity
  have hmK : (2 : K) ^ (p - 1) ≤ m := by exact_mod_cast hm1
  have hup2 : (2 : K) ^ (p - 1) * ulp p = 1 / 2 := by
    unfold ulp
    obtain ⟨k, rfl⟩ : ∃ k, p = k + 1 := ⟨p - 1, by omega⟩
    rw [Nat.add_sub_cancel, pow_succ]
    field_simp
  -- the product is at least half a step below
  have hgap : (m : K) * E * u ≤ m * E - E / 2 := by
    have h1 : (m : K) * E * u ≤ m * E * (1 - ulp p) := mul_le_mul_of_nonneg_left hu h0.le
    have h2 : 1 / 2 ≤ (m : K) * ulp p := by
      rw [← hup2]
      exact mul_le_mul_of_nonneg_right hmK hup.le
    have h3 : E * (1 / 2) ≤ E * (m * ulp p) := mul_le_mul_of_nonneg_left h2 hE0.le
    nlinarith
  rcases eq_or_lt_of_le hm1 with hmin | hmin
  · -- the smallest mantissa: half a step below there is another float
    have hf : IsFloat p ((m : K) * E - E / 2) := by
      refine ⟨2 * m - 1, e - 1, ?_, ?_⟩
      · have h2p : (2 : ℤ) ^ p = 2 * 2 ^ (p - 1) := by
          rw [← pow_succ']
          congr 1
          omega
        have : (1 : ℤ) ≤ 2 ^ (p - 1) := one_le_pow₀ (by norm_num)
        rw [abs_of_nonneg (by omega)]
        omega
      · rw [hE]
        push_cast
        rw [zpow_sub_one₀ two_ne_zero]
        field_simp
    have := h.le_of_le hf hgap
    rw [heq] at this
    linarith
  · -- otherwise a whole step below
    have hf : IsFloat p (((m - 1 : ℤ) : K) * E) := by
      refine ⟨m - 1, e, ?_, rfl⟩
      have : (1 : ℤ) ≤ 2 ^ (p - 1) := one_le_pow₀ (by norm_num)
      rw [abs_of_nonneg (by omega)]
      omega
    have hn := h.nearest (m * E * u) _ hf
    rw [heq] at hn
    push_cast at hn
    have hstrict : (m : K) * E * u < m * E - E / 2 := by
      have h1 : (m : K) * E * u ≤ m * E * (1 - ulp p) := mul_le_mul_of_nonneg_left hu h0.le
      have hmK' : (2 : K) ^ (p - 1) < m := by exact_mod_cast hmin
      have h2 : 1 / 2 < (m : K) * ulp p := by
        rw [← hup2]
        exact mul_lt_mul_of_pos_right hmK' hup
      have h3 : E * (1 / 2) < E * (m * ulp p) := mul_lt_mul_of_pos_left h2 hE0
      nlinarith
    rw [abs_of_nonneg (by linarith)] at hn
    rcases le_total 0 (((m : K) - 1) * E - m * E * u) with hs | hs
    · rw [abs_of_nonneg hs] at hn
      linarith
    · rw [abs_of_nonpos hs] at hn
      linarith

/-- The scaled number never exceeds the exact width. -/
theorem RoundsTo.scaled_le (h : RoundsTo p fl) (hp : 1 ≤ p) {d u : K} (hd : 0 ≤ d) (hu0 : 0 ≤ u)
    (hu : u ≤ 1 - ulp p) : fl (fl d * u) ≤ d := by
  rcases hd.eq_or_lt with rfl | hd
  · simp [h.zero]
  have hR := h.float d
  have hR0 : 0 < fl d := h.pos hp hd
  by_contra hc
  push Not at hc
  have hlt := h.shrink hp hR hR0 hu0 hu
  have hn := h.nearest d _ (h.float (fl d * u))
  rw [abs_of_pos (by linarith), abs_of_pos (by linarith)] at hn
  linarith

/-- A float below 1 is at most `1 - 2^(-p)`. -/
theorem isFloat_lt_one (hp : 1 ≤ p) {u : K} (hf : IsFloat p u) (h1 : u < 1) : u ≤ 1 - ulp p := by
  have hu := ulp_le_half (K := K) hp
  rcases le_or_gt u (1 / 2) with h2 | h2
  · linarith
  obtain ⟨k, hk⟩ := isFloat_half hp hf h2.le h1.le
  have h2p : (0 : K) < 2 ^ p := by positivity
  rw [hk, div_lt_one h2p] at h1
  have h3 : k + 1 ≤ 2 ^ p := by
    have : k < 2 ^ p := by exact_mod_cast h1
    omega
  have h4 : (k : K) + 1 ≤ 2 ^ p := by exact_mod_cast h3
  rw [hk, ulp, le_sub_iff_add_le, ← add_div, div_le_one h2p]
  exact h4

/-- **C121**: in floating-point arithmetic no number of `uniform(low, high)` lies outside `[low, high]`. -/
theorem C121_uniform (h : RoundsTo p fl) (hp : 1 ≤ p) {low high u : K} (hl : IsFloat p low)
    (hh : IsFloat p high) (hle : low ≤ high) (hf : IsFloat p u) (h0 : 0 ≤ u) (h1 : u < 1) :
    low ≤ uniformFl fl low high u ∧ uniformFl fl low high u ≤ high := by
  have hu := isFloat_lt_one hp hf h1
  have hw := h.scaled_le hp (d := high - low) (by linarith) h0 hu
  have hw0 : 0 ≤ fl (fl (high - low) * u) :=
    h.nonneg (mul_nonneg (h.nonneg (by linarith)) h0)
  exact ⟨h.le_of_ge hl (by linarith), h.le_of_le hh (by linarith)⟩

omit [LinearOrder K] [IsStrictOrderedRing K] [FloorRing K] in
/-- The uniform numbers themselves are floats below 1. -/
theorem gridPoint_float [LinearOrder K] [IsStrictOrderedRing K] (p j : ℕ) (hj : j < 2 ^ p) :
    IsFloat p (gridPoint p j : K) ∧ 0 ≤ (gridPoint p j : K) ∧ (gridPoint p j : K) < 1 := by
  have h2 : (0 : K) < 2 ^ p := by positivity
  refine ⟨⟨j, -p, ?_, ?_⟩, ?_, ?_⟩
  · rw [abs_of_nonneg (by positivity)]
    exact_mod_cast hj.le
  · rw [gridPoint, zpow_neg, zpow_natCast, div_eq_mul_inv]
    push_cast
    rfl
  · rw [gridPoint]
    positivity
  · rw [gridPoint, div_lt_one h2]
    exact_mod_cast hj

/-- **C121**: `high` itself can be returned, in every floating-point arithmetic. -/
theorem C121_high_attained (h : RoundsTo p fl) (hp : 2 ≤ p) :
    uniformFl fl ((2 : K) ^ p) (2 ^ p + 2) (gridPoint p (2 ^ p - 1)) = 2 ^ p + 2 := by
  have h2 : (0 : K) < 2 ^ p := by positivity
  have hup := ulp_pos (K := K) p
  have hg : (gridPoint p (2 ^ p - 1) : K) = 1 - ulp p := by
    rw [gridPoint, ulp, Nat.cast_sub Nat.one_le_two_pow]
    push_cast
    field_simp
  have hR : fl ((2 : K) ^ p + 2 - 2 ^ p) = 2 := by
    rw [add_sub_cancel_left]
    have := isFloat_mul_zpow (isFloat_one (K := K) p) 1
    exact h.exact (by simpa using this)
  have hprod : fl ((2 : K) * (1 - ulp p)) = 2 * (1 - ulp p) := by
    have hf := (gridPoint_float (K := K) p (2 ^ p - 1) (by have := Nat.one_le_two_pow (n := p); omega)).1
    rw [hg] at hf
    have := isFloat_mul_zpow hf 1
    rw [zpow_one, mul_comm] at this
    exact h.exact this
  unfold uniformFl
  rw [hR, hg, hprod]
  have hclose := h.eq_of_close (x := 2 ^ p + 2 * (1 - ulp p)) (m := 2 ^ (p - 1) + 1) (e := 1)
    (by omega) (by
      have h2p : (2 : ℤ) ^ p = 2 * 2 ^ (p - 1) := by
        rw [← pow_succ']
        congr 1
        omega
      have : (1 : ℤ) ≤ 2 ^ (p - 1) := one_le_pow₀ (by norm_num)
      omega) (by omega) (by
      have h2p : (2 : K) ^ p = 2 * 2 ^ (p - 1) := by
        rw [← pow_succ']
        congr 1
        omega
      push_cast
      rw [zpow_one, show (2 : K) ^ p + 2 * (1 - ulp p) - (2 ^ (p - 1) + 1) * 2 = -(2 * ulp p) by rw [h2p]; ring,
        abs_neg, abs_of_pos (by linarith)]
      have : (ulp p : K) < 1 / 2 := by
        unfold ulp
        apply one_div_lt_one_div_of_lt (by norm_num)
        calc (2 : K) < 2 ^ 2 := by norm_num
          _ ≤ 2 ^ p := pow_le_pow_right₀ one_le_two hp
      linarith)
  rw [hclose]
  have h2p : (2 : K) ^ p = 2 * 2 ^ (p - 1) := by
    rw [← pow_succ']
    congr 1
    omega
  push_cast
  rw [zpow_one, h2p]
  ring

/-- **C121** (`pert`): the numbers of `pert(left, mode, right)` are never below `left`; they are not above
`right` unless the beta distribution returned 1, and then exceed it by at most `2^(1-p) (right - left)`. -/
theorem C121_pert_partial (h : RoundsTo p fl) (hp : 1 ≤ p) {left right b : K} (hl : IsFloat p left)
    (hr : IsFloat p right) (hle : left ≤ right) (hf : IsFloat p b) (h0 : 0 ≤ b) (h1 : b ≤ 1) :
    left ≤ pertFl fl left right b ∧ (b < 1 → pertFl fl left right b ≤ right) ∧
      pertFl fl left right b ≤ right + 2 * ulp p * (right - left) := by
  have hup := ulp_pos (K := K) p
  have hw0 : 0 ≤ fl (b * fl (right - left)) := h.nonneg (mul_nonneg h0 (h.nonneg (by linarith)))
  refine ⟨h.le_of_ge hl (by linarith), fun hb => ?_, ?_⟩
  · have hw := h.scaled_le hp (d := right - left) (by linarith) h0 (isFloat_lt_one hp hf hb)
    rw [mul_comm] at hw
    exact h.le_of_le hr (by linarith)
  · have hd : 0 ≤ right - left := by linarith
    have hR0 := h.nonneg hd
    have hw1 : fl (b * fl (right - left)) ≤ fl (right - left) :=
      h.le_of_le (h.float _) (by nlinarith)
    have hR := h.le_mul hd
    unfold pertFl
    set x := left + fl (b * fl (right - left)) with hx
    have hx1 : x ≤ right + ulp p * (right - left) := by linarith
    rcases le_total x right with hc | hc
    · have := h.le_of_le hr hc
      have : 0 ≤ ulp p * (right - left) := mul_nonneg hup.le hd
      linarith
    · have hn := h.nearest x right hr
      rw [abs_of_nonpos (show right - x ≤ 0 by linarith)] at hn
      have := (abs_le.1 hn).2
      linarith

/-- **C121** (what is missing): with doubles, `pert(-1, mode, 3/2 · 2^(-52))` returns `2^(-51)`, which is larger
than its right end, when the beta distribution returns 1. -/
theorem C121_pert_fails :
    pertFl (roundBits 53) (-1 : ℚ) (3 / 2 ^ 53) 1 = 1 / 2 ^ 51 ∧ (3 / 2 ^ 53 : ℚ) < 1 / 2 ^ 51 ∧
      IsFloat 53 (3 / 2 ^ 53 : ℚ) := by
  have h : RoundsTo 53 (roundBits (K := ℚ) 53) := roundBits_roundsTo (by norm_num)
  refine ⟨?_, by norm_num, ⟨3, -53, by norm_num, by norm_num⟩⟩
  have h1 : roundBits 53 (3 / 2 ^ 53 - -1 : ℚ) = 1 + 1 / 2 ^ 51 := by
    rw [double_step (m := 2 ^ 52 + 2) (-52) (by norm_num) (by norm_num) (by decide +kernel)]
    norm_num
  unfold pertFl
  have hid : roundBits 53 (1 + 1 / 2 ^ 51 : ℚ) = 1 + 1 / 2 ^ 51 := by rw [← h1, h.idem]
  rw [h1, one_mul, hid]
  have : (-1 + (1 + 1 / 2 ^ 51) : ℚ) = 1 / 2 ^ 51 := by ring
  rw [this]
  exact h.exact ⟨1, -51, by norm_num, by norm_num⟩


/-! ## C122 -/

omit [FloorRing K] in
theorem mul_near {x y a b : K} (hx : |x - 1| ≤ a) (hy : |y - 1| ≤ b) : |x * y - 1| ≤ a + b + a * b := by
  have e : x * y - 1 = (x - 1) + (y - 1) + (x - 1) * (y - 1) := by ring
  rw [e]
  refine (abs_add_le _ _).trans (add_le_add ((abs_add_le _ _).trans (add_le_add hx hy)) ?_)
  rw [abs_mul]
  exact mul_le_mul hx hy (abs_nonneg _) ((abs_nonneg _).trans hx)

/-- A rounding as a factor near 1. -/
theorem RoundsTo.near (h : RoundsTo p fl) (x : K) : ∃ c, |c - 1| ≤ ulp p ∧ fl x = x * c := by
  obtain ⟨d, hd, e⟩ := h.factor x
  exact ⟨1 + d, by simpa using hd, e⟩

omit [FloorRing K] in
theorem near_two {u a b : K} (hu0 : 0 < u) (hu : u ≤ 1 / 64) (ha : |a - 1| ≤ u) (hb : |b - 1| ≤ u) :
    |a * b - 1| ≤ 5 / 2 * u := by
  have := mul_near ha hb
  nlinarith

omit [FloorRing K] in
theorem near_three {u a b c : K} (hu0 : 0 < u) (hu : u ≤ 1 / 64) (ha : |a - 1| ≤ u) (hb : |b - 1| ≤ u)
    (hc : |c - 1| ≤ u) : |a * b * c - 1| ≤ 4 * u := by
  have := mul_near (near_two hu0 hu ha hb) hc
  nlinarith

omit [FloorRing K] in
theorem near_four {u a b c d : K} (hu0 : 0 < u) (hu : u ≤ 1 / 64) (ha : |a - 1| ≤ u) (hb : |b - 1| ≤ u)
    (hc : |c - 1| ≤ u) (hd : |d - 1| ≤ u) : |a * b * c * d - 1| ≤ 5 * u := by
  have h2 := near_two hu0 hu ha hb
  have h2' : |a * b - 1| ≤ 17 / 8 * u := by
    have := mul_near ha hb
    nlinarith
  have h3 : |a * b * c - 1| ≤ 51 / 16 * u := by
    have := mul_near h2' hc
    nlinarith
  have := mul_near h3 hd
  nlinarith

omit [FloorRing K] in
/-- Factors near 1 in a sum. -/
theorem sum_near {s t a b c : K} (ha : |a - 1| ≤ c) (hb : |b - 1| ≤ c) :
    |s * a + t * b - (s + t)| ≤ c * (|s| + |t|) := by
  have e : s * a + t * b - (s + t) = s * (a - 1) + t * (b - 1) := by ring
  rw [e]
  refine (abs_add_le _ _).trans ?_
  rw [abs_mul, abs_mul]
  have h1 := mul_le_mul_of_nonneg_left ha (abs_nonneg s)
  have h2 := mul_le_mul_of_nonneg_left hb (abs_nonneg t)
  linarith

/-- **C122**: in floating-point arithmetic `simple_bayes` returns a number between 0 and 1 that differs from
the one given by Bayes' rule by at most `7 · 2^(-p)` of it. -/
theorem C122_simple_bayes (h : RoundsTo p fl) (hp : 6 ≤ p) {l f q : K} (hl : 0 ≤ l) (hf : 0 ≤ f) (h0 : 0 ≤ q)
    (h1 : q ≤ 1) (hD : 0 < l * q + f * (1 - q)) :
    ∃ r, simpleBayesFl fl l f q = .ok r ∧ 0 ≤ r ∧ r ≤ 1 ∧
      |r - l * q / (l * q + f * (1 - q))| ≤ 7 * ulp p * (l * q / (l * q + f * (1 - q))) := by
  have hu := ulp_le_64 (K := K) hp
  have hu0 := ulp_pos (K := K) p
  have hs0 : 0 ≤ l * q := mul_nonneg hl h0
  have ht0 : 0 ≤ f * (1 - q) := mul_nonneg hf (by linarith)
  obtain ⟨a, ha, ea⟩ := h.near (l * q)
  obtain ⟨b, hb, eb⟩ := h.near (1 - q)
  obtain ⟨c, hc, ec⟩ := h.near (f * fl (1 - q))
  obtain ⟨d, hd, ed⟩ := h.near (fl (l * q) + fl (f * fl (1 - q)))
  have hN0 : 0 ≤ fl (l * q) := h.nonneg hs0
  have hM0 : 0 ≤ fl (f * fl (1 - q)) := h.nonneg (mul_nonneg hf (h.nonneg (by linarith)))
  set D := l * q + f * (1 - q) with hDdef
  set den := fl (fl (l * q) + fl (f * fl (1 - q))) with hden
  have hden_err : |den - D| ≤ 4 * ulp p * D := by
    have e : den = l * q * (a * d * 1) + f * (1 - q) * (b * c * d) := by
      rw [ed, ea, ec, eb]
      ring
    have h1' : |(1 : K) - 1| ≤ ulp p := by simpa using hu0.le
    have := sum_near (s := l * q) (t := f * (1 - q)) (near_three hu0 hu ha hd h1') (near_three hu0 hu hb hc hd)
    rw [abs_of_nonneg hs0, abs_of_nonneg ht0] at this
    rw [e]
    exact this
  have hd' := abs_le.1 hden_err
  have hden0 : 0 < den := by nlinarith
  obtain ⟨k, hk, ek⟩ := h.near (fl (l * q) / den)
  refine ⟨fl (fl (l * q) / den), ?_, h.nonneg (div_nonneg hN0 hden0.le), ?_, ?_⟩
  · unfold simpleBayesFl
    simp only
    rw [← hden, if_neg hden0.ne']
  · refine h.le_of_le (isFloat_one p) ((div_le_one hden0).2 ?_)
    exact h.le_of_ge (h.float _) (by linarith)
  · rw [ek, ea]
    have hex : 0 ≤ l * q / D := div_nonneg hs0 hD.le
    have e : l * q * a / den * k - l * q / D = l * q / D * ((a * k - 1 - (den - D) / D) / (den / D)) := by
      field_simp
      ring
    rw [e, abs_mul, abs_of_nonneg hex, mul_comm]
    refine mul_le_mul_of_nonneg_right ?_ hex
    have hr : 15 / 16 ≤ den / D := by
      rw [le_div_iff₀ hD]
      nlinarith
    rw [abs_div, abs_of_pos (show 0 < den / D by linarith), div_le_iff₀ (by linarith)]
    have e1 := near_two hu0 hu ha hk
    have e2 : |(den - D) / D| ≤ 4 * ulp p := by
      rw [abs_div, abs_of_pos hD, div_le_iff₀ hD]
      exact hden_err
    have e3 := abs_sub (a * k - 1) ((den - D) / D)
    have e4 : 7 * ulp p * (15 / 16) ≤ 7 * ulp p * (den / D) := mul_le_mul_of_nonneg_left hr (by linarith)
    linarith

/-! ## C123 -/

omit [FloorRing K] in
theorem quot_abs {u N D num den k M : K} (hu0 : 0 < u) (hu : u ≤ 1 / 64) (hD0 : 0 < D) (hM : 0 ≤ M)
    (hden_err : |den - D| ≤ 4 * u * D) (hnum_err : |num - N| ≤ 5 * u * (D * M)) (hNbound : |N| ≤ D * M)
    (hk : |k - 1| ≤ u) : |num / den * k - N / D| ≤ 11 * u * M := by
  have hd' := abs_le.1 hden_err
  have hden0 : 0 < den := by nlinarith
  have e : num / den * k - N / D = ((num - N) / D * k + N / D * (k - 1 - (den - D) / D)) / (den / D) := by
    field_simp
    ring
  have hr : 15 / 16 ≤ den / D := by
    rw [le_div_iff₀ hD0]
    nlinarith
  rw [e, abs_div, abs_of_pos (show 0 < den / D by linarith), div_le_iff₀ (by linarith)]
  have t1 : |(num - N) / D * k| ≤ 5 * u * M * (1 + 1 / 64) := by
    rw [abs_mul]
    refine mul_le_mul ?_ ?_ (abs_nonneg _) (mul_nonneg (by linarith) hM)
    · rw [abs_div, abs_of_pos hD0, div_le_iff₀ hD0]
      linarith
    · have := abs_add_le (k - 1) 1
      rw [sub_add_cancel, abs_one] at this
      linarith
  have t2 : |N / D * (k - 1 - (den - D) / D)| ≤ M * (5 * u) := by
    rw [abs_mul]
    refine mul_le_mul ?_ ?_ (abs_nonneg _) hM
    · rw [abs_div, abs_of_pos hD0, div_le_iff₀ hD0]
      linarith
    · refine (abs_sub _ _).trans ?_
      have : |(den - D) / D| ≤ 4 * u := by
        rw [abs_div, abs_of_pos hD0, div_le_iff₀ hD0]
        exact hden_err
      linarith
  have t3 := abs_add_le ((num - N) / D * k) (N / D * (k - 1 - (den - D) / D))
  have hMu : 0 ≤ M * u := mul_nonneg hM hu0.le
  have t4 : 11 * u * M * (15 / 16) ≤ 11 * u * M * (den / D) :=
    mul_le_mul_of_nonneg_left hr (by linarith)
  linarith

omit [FloorRing K] in
theorem quot_rel {u D den P : K} (hu0 : 0 < u) (hu : u ≤ 1 / 64) (hD0 : 0 < D)
    (hden_err : |den - D| ≤ 4 * u * D) (hP : |P - 1| ≤ 5 * u) : |P / (den / D) - 1| ≤ 10 * u := by
  have hd' := abs_le.1 hden_err
  have hr : 15 / 16 ≤ den / D := by
    rw [le_div_iff₀ hD0]
    nlinarith
  have hr0 : den / D ≠ 0 := by linarith
  have e : P / (den / D) - 1 = (P - 1 - (den - D) / D) / (den / D) := by
    rw [sub_div den D D, div_self hD0.ne', div_sub_one hr0]
    ring
  rw [e, abs_div, abs_of_pos (show 0 < den / D by linarith), div_le_iff₀ (by linarith)]
  have e2' : |(den - D) / D| ≤ 4 * u := by
    rw [abs_div, abs_of_pos hD0, div_le_iff₀ hD0]
    exact hden_err
  have e3 := abs_sub (P - 1) ((den - D) / D)
  have e4 : 10 * u * (15 / 16) ≤ 10 * u * (den / D) := mul_le_mul_of_nonneg_left hr (by linarith)
  linarith

/-- **C123** (mean): updating a normal prior in floating-point arithmetic gives the precision-weighted mean up
to `11 · 2^(-p)` times the larger of the two means in size. -/
theorem C123_mean (h : RoundsTo p fl) (hp : 6 ≤ p) {m1 s1 m2 s2 w M : K} (hs1 : 0 < s1) (hs2 : 0 < s2)
    (hw : 0 ≤ w) (hM1 : |m1| ≤ M) (hM2 : |m2| ≤ M) :
    |updateMeanFl fl m1 s1 m2 s2 w -
      (s2 ^ 2 * m1 + w * (s1 ^ 2 * m2)) / (w * s1 ^ 2 + s2 ^ 2)| ≤ 11 * ulp p * M := by
  have hu := ulp_le_64 (K := K) hp
  have hu0 := ulp_pos (K := K) p
  have hM : 0 ≤ M := (abs_nonneg m1).trans hM1
  obtain ⟨e1, he1, r1⟩ := h.near (s1 * s1)
  obtain ⟨e2, he2, r2⟩ := h.near (s2 * s2)
  unfold updateMeanFl
  simp only
  set v1 := fl (s1 * s1) with hv1
  set v2 := fl (s2 * s2) with hv2
  obtain ⟨a, ha, ea⟩ := h.near (v2 * m1)
  obtain ⟨b, hb, eb⟩ := h.near (v1 * m2)
  obtain ⟨c, hc, ec⟩ := h.near (w * fl (v1 * m2))
  obtain ⟨d, hd, ed⟩ := h.near (fl (v2 * m1) + fl (w * fl (v1 * m2)))
  obtain ⟨f, hf, ef⟩ := h.near (w * v1)
  obtain ⟨g, hg, eg⟩ := h.near (fl (w * v1) + v2)
  set num := fl (fl (v2 * m1) + fl (w * fl (v1 * m2))) with hnum
  set den := fl (fl (w * v1) + v2) with hden
  obtain ⟨k, hk, ek⟩ := h.near (num / den)
  have h1' : |(1 : K) - 1| ≤ ulp p := by simpa using hu0.le
  have hq1 : 0 < s1 ^ 2 := by positivity
  have hq2 : 0 < s2 ^ 2 := by positivity
  set A := s1 ^ 2 with hA
  set B := s2 ^ 2 with hB
  have hwA : 0 ≤ w * A := mul_nonneg hw hq1.le
  set D := w * A + B with hD
  have hD0 : 0 < D := by linarith
  have hden_err : |den - D| ≤ 4 * ulp p * D := by
    have e : den = w * A * (e1 * f * g) + B * (e2 * g * 1) := by
      rw [eg, ef, r1, r2, hA, hB]
      ring
    have := sum_near (s := w * A) (t := B) (near_three hu0 hu he1 hf hg) (near_three hu0 hu he2 hg h1')
    rw [abs_of_nonneg hwA, abs_of_pos hq2] at this
    rw [e]
    exact this
  have hnum_err : |num - (B * m1 + w * (A * m2))| ≤ 5 * ulp p * (D * M) := by
    have e : num = B * m1 * (e2 * a * d * 1) + w * (A * m2) * (e1 * b * c * d) := by
      rw [ed, ea, ec, eb, r1, r2, hA, hB]
      ring
    have := sum_near (s := B * m1) (t := w * (A * m2)) (near_four hu0 hu he2 ha hd h1')
      (near_four hu0 hu he1 hb hc hd)
    rw [e]
    refine this.trans (mul_le_mul_of_nonneg_left ?_ (by linarith))
    rw [abs_mul, ← mul_assoc w, abs_mul, abs_of_pos hq2, abs_of_nonneg hwA, hD, add_mul, add_comm]
    exact add_le_add (mul_le_mul_of_nonneg_left hM2 hwA) (mul_le_mul_of_nonneg_left hM1 hq2.le)
  have hNbound : |B * m1 + w * (A * m2)| ≤ D * M := by
    refine (abs_add_le _ _).trans ?_
    rw [abs_mul, ← mul_assoc w, abs_mul, abs_of_pos hq2, abs_of_nonneg hwA, hD, add_mul, add_comm]
    exact add_le_add (mul_le_mul_of_nonneg_left hM2 hwA) (mul_le_mul_of_nonneg_left hM1 hq2.le)
  rw [ek]
  exact quot_abs hu0 hu hD0 hM hden_err hnum_err hNbound hk

/-- The square root of a number near `V`. -/
theorem sqrt_near {V c θ : ℝ} (hV : 0 ≤ V) (hc : |c - 1| ≤ θ) (hθ : θ ≤ 1) :
    ∃ k, |k - 1| ≤ θ ∧ Real.sqrt (V * c) = Real.sqrt V * k := by
  have hc' := abs_le.1 hc
  have hc0 : 0 ≤ c := by linarith
  refine ⟨Real.sqrt c, ?_, Real.sqrt_mul hV c⟩
  have hk := Real.sq_sqrt hc0
  have hk0 := Real.sqrt_nonneg c
  have e : |c - 1| = |Real.sqrt c - 1| * (Real.sqrt c + 1) := by
    rw [← abs_of_nonneg (show 0 ≤ Real.sqrt c + 1 by linarith), ← abs_mul]
    congr 1
    nlinarith
  have : |Real.sqrt c - 1| ≤ |Real.sqrt c - 1| * (Real.sqrt c + 1) :=
    le_mul_of_one_le_right (abs_nonneg _) (by linarith)
  linarith

/-- **C123** (standard deviation): it is exact up to a relative error of `12 · 2^(-p)`, hence positive. -/
theorem C123_sd {fl : ℝ → ℝ} (h : RoundsTo p fl) (hp : 6 ≤ p) {s1 s2 w : ℝ} (hs1 : 0 < s1) (hs2 : 0 < s2)
    (hw : 0 ≤ w) :
    0 < updateSdFl fl s1 s2 w ∧
      |updateSdFl fl s1 s2 w - Real.sqrt (s2 ^ 2 * s1 ^ 2 / (w * s1 ^ 2 + s2 ^ 2))| ≤
        12 * ulp p * Real.sqrt (s2 ^ 2 * s1 ^ 2 / (w * s1 ^ 2 + s2 ^ 2)) := by
  have hu := ulp_le_64 (K := ℝ) hp
  have hu0 := ulp_pos (K := ℝ) p
  obtain ⟨e1, he1, r1⟩ := h.near (s1 * s1)
  obtain ⟨e2, he2, r2⟩ := h.near (s2 * s2)
  unfold updateSdFl
  simp only
  set v1 := fl (s1 * s1) with hv1
  set v2 := fl (s2 * s2) with hv2
  obtain ⟨a, ha, ea⟩ := h.near (v2 * v1)
  obtain ⟨f, hf, ef⟩ := h.near (w * v1)
  obtain ⟨g, hg, eg⟩ := h.near (fl (w * v1) + v2)
  set num := fl (v2 * v1) with hnum
  set den := fl (fl (w * v1) + v2) with hden
  obtain ⟨k, hk, ek⟩ := h.near (num / den)
  have h1' : |(1 : ℝ) - 1| ≤ ulp p := by simpa using hu0.le
  have hq1 : 0 < s1 ^ 2 := by positivity
  have hq2 : 0 < s2 ^ 2 := by positivity
  set A := s1 ^ 2 with hA
  set B := s2 ^ 2 with hB
  have hwA : 0 ≤ w * A := mul_nonneg hw hq1.le
  set D := w * A + B with hD
  have hD0 : 0 < D := by linarith
  have hden_err : |den - D| ≤ 4 * ulp p * D := by
    have e : den = w * A * (e1 * f * g) + B * (e2 * g * 1) := by
      rw [eg, ef, r1, r2, hA, hB]
      ring
    have := sum_near (s := w * A) (t := B) (near_three hu0 hu he1 hf hg) (near_three hu0 hu he2 hg h1')
    rw [abs_of_nonneg hwA, abs_of_pos hq2] at this
    rw [e]
    exact this
  have hd' := abs_le.1 hden_err
  have hden0 : 0 < den := by nlinarith
  have hnum_eq : num = B * A * (e2 * e1 * a) := by
    rw [ea, r1, r2, hA, hB]
    ring
  set V := B * A / D with hV
  have hV0 : 0 < V := div_pos (mul_pos hq2 hq1) hD0
  have hq : fl (num / den) = V * (e2 * e1 * a * k / (den / D)) := by
    rw [ek, hnum_eq, hV]
    field_simp
  have hc : |e2 * e1 * a * k / (den / D) - 1| ≤ 10 * ulp p :=
    quot_rel hu0 hu hD0 hden_err (near_four hu0 hu he2 he1 ha hk)
  obtain ⟨c, hc', ec⟩ := sqrt_near hV0.le hc (by linarith)
  obtain ⟨l, hl, el⟩ := h.near (Real.sqrt (fl (num / den)))
  have hsV : 0 < Real.sqrt V := Real.sqrt_pos.2 hV0
  rw [el, hq, ec]
  have hcl : |c * l - 1| ≤ 12 * ulp p := by
    have := mul_near hc' hl
    nlinarith
  have hcl' := abs_le.1 hcl
  constructor
  · rw [mul_assoc]
    exact mul_pos hsV (by linarith)
  · have e : Real.sqrt V * c * l - Real.sqrt V = (c * l - 1) * Real.sqrt V := by ring
    rw [e, abs_mul, abs_of_pos hsV]
    exact mul_le_mul_of_nonneg_right hcl hsV.le

/-! ## C124 -/

/-- **C124**: in floating-point arithmetic `norm(x, y)` has a mean between `x` and `y` and a standard deviation
that is not negative; the ends of its interval, `mean ± z sd`, are `x` and `y` up to a few roundings. -/
theorem C124_norm (h : RoundsTo p fl) (hp : 6 ≤ p) {x y z : K} (hx : IsFloat p x) (hy : IsFloat p y)
    (hxy : x ≤ y) (hz : 0 < z) :
    ∃ m s, normFl fl x y z = .ok (m, s) ∧ x ≤ m ∧ m ≤ y ∧ 0 ≤ s ∧
      |m + z * s - y| ≤ 3 * ulp p * (y - x) ∧
      |m - z * s - x| ≤ ulp p * |x + y| + 3 * ulp p * (y - x) := by
  have hu := ulp_le_64 (K := K) hp
  have hu0 := ulp_pos (K := K) p
  have hhalf : fl (fl (x + y) / 2) = fl (x + y) / 2 := by
    have := isFloat_mul_zpow (h.float (x + y)) (-1)
    rw [zpow_neg_one, ← div_eq_mul_inv] at this
    exact h.exact this
  have hx2 : IsFloat p (x * 2) := by simpa using isFloat_mul_zpow hx 1
  have hy2 : IsFloat p (y * 2) := by simpa using isFloat_mul_zpow hy 1
  have hm1 : x ≤ fl (x + y) / 2 := by
    have := h.le_of_ge hx2 (show x * 2 ≤ x + y by linarith)
    linarith
  have hm2 : fl (x + y) / 2 ≤ y := by
    have := h.le_of_le hy2 (show x + y ≤ y * 2 by linarith)
    linarith
  set m := fl (x + y) / 2 with hm
  obtain ⟨a, ha, ea⟩ := h.near (y - m)
  obtain ⟨b, hb, eb⟩ := h.near (fl (y - m) / z)
  have hzs : z * fl (fl (y - m) / z) = (y - m) * (a * b) := by
    rw [eb, ea]
    field_simp
  have hab := near_two hu0 hu ha hb
  have herr : |(y - m) * (a * b) - (y - m)| ≤ 3 * ulp p * (y - x) := by
    rw [show (y - m) * (a * b) - (y - m) = (a * b - 1) * (y - m) by ring, abs_mul,
      abs_of_nonneg (show 0 ≤ y - m by linarith)]
    exact mul_le_mul (by linarith) (by linarith) (by linarith) (by linarith)
  refine ⟨m, fl (fl (y - m) / z), ?_, hm1, hm2, ?_, ?_, ?_⟩
  · unfold normFl
    rw [if_neg (not_lt.2 hxy)]
    simp only [hhalf, ← hm]
  · exact h.nonneg (div_nonneg (h.nonneg (by linarith)) hz.le)
  · rw [hzs, show m + (y - m) * (a * b) - y = (y - m) * (a * b) - (y - m) by ring]
    exact herr
  · rw [hzs, show m - (y - m) * (a * b) - x = (fl (x + y) - (x + y)) + -((y - m) * (a * b) - (y - m)) by
      rw [hm]; ring]
    refine (abs_add_le _ _).trans ?_
    rw [abs_neg]
    exact add_le_add (h.err _) herr

/-- **C124**: when the interval is not much narrower than its ends, `sd` is positive. -/
theorem C124_positive_partial (h : RoundsTo p fl) (hp : 6 ≤ p) {x y z : K} (hz : 0 < z)
    (hw : ulp p * |x + y| < y - x) :
    ∃ m s, normFl fl x y z = .ok (m, s) ∧ 0 < s := by
  have hu0 := ulp_pos (K := K) p
  have hxy : x < y := by
    have := mul_nonneg hu0.le (abs_nonneg (x + y))
    linarith
  have hhalf : fl (fl (x + y) / 2) = fl (x + y) / 2 := by
    have := isFloat_mul_zpow (h.float (x + y)) (-1)
    rw [zpow_neg_one, ← div_eq_mul_inv] at this
    exact h.exact this
  refine ⟨fl (x + y) / 2, fl (fl (y - fl (x + y) / 2) / z), ?_, ?_⟩
  · unfold normFl
    rw [if_neg (not_lt.2 hxy.le)]
    simp only [hhalf]
  · have he := (abs_le.1 (h.err (x + y))).2
    exact h.pos (by omega) (div_pos (h.pos (by omega) (by linarith)) hz)

/-- **C124** (what is missing): with doubles, `norm(1 + 2^(-52), 1 + 2^(-51))` has standard deviation 0. -/
theorem C124_positive_fails (z : ℚ) :
    normFl (roundBits 53) (1 + 1 / 2 ^ 52) (1 + 1 / 2 ^ 51) z = .ok (1 + 1 / 2 ^ 51, 0) ∧
      IsFloat 53 (1 + 1 / 2 ^ 52 : ℚ) ∧ IsFloat 53 (1 + 1 / 2 ^ 51 : ℚ) := by
  have h : RoundsTo 53 (roundBits (K := ℚ) 53) := roundBits_roundsTo (by norm_num)
  have hf : IsFloat 53 (1 + 1 / 2 ^ 51 : ℚ) := ⟨2 ^ 52 + 2, -52, by norm_num, by norm_num⟩
  refine ⟨?_, ⟨2 ^ 52 + 1, -52, by norm_num, by norm_num⟩, hf⟩
  have h1 : roundBits 53 (1 + 1 / 2 ^ 52 + (1 + 1 / 2 ^ 51) : ℚ) = 2 + 1 / 2 ^ 50 := by
    rw [double_step (m := 2 ^ 52 + 2) (-51) (by norm_num) (by norm_num) (by decide +kernel)]
    norm_num
  unfold normFl
  rw [if_neg (by norm_num)]
  simp only [h1]
  rw [show (2 + 1 / 2 ^ 50 : ℚ) / 2 = 1 + 1 / 2 ^ 51 by norm_num, h.exact hf, sub_self, h.zero, zero_div, h.zero]

/-! ### Concrete cases -/

/-- Every one of the numbers of `uniform(-1, 1/4)`. -/
example (j : ℕ) (hj : j < 2 ^ 53) : -1 ≤ uniformFl (roundBits 53) (-1) (1 / 4 : ℚ) (gridPoint 53 j) ∧
    uniformFl (roundBits 53) (-1) (1 / 4 : ℚ) (gridPoint 53 j) ≤ 1 / 4 := by
  obtain ⟨g1, g2, g3⟩ := gridPoint_float (K := ℚ) 53 j hj
  exact C121_uniform (roundBits_roundsTo (by norm_num)) (by norm_num) (isFloat_neg (isFloat_one 53))
    ⟨1, -2, by norm_num, by norm_num⟩ (by norm_num) g1 g2 g3

/-- The mammography example of the docstring. -/
example : ∃ r, simpleBayesFl (roundBits 53) (8 / 10 : ℚ) (96 / 1000) (1 / 100) = .ok r ∧
    |r - 25 / 322| ≤ 7 * ulp 53 * (25 / 322) := by
  obtain ⟨r, h1, -, -, h2⟩ := C122_simple_bayes (roundBits_roundsTo (K := ℚ) (p := 53) (by norm_num)) (by norm_num)
    (l := 8 / 10) (f := 96 / 1000) (q := 1 / 100) (by norm_num) (by norm_num) (by norm_num) (by norm_num) (by norm_num)
  refine ⟨r, h1, ?_⟩
  norm_num at h2 ⊢
  exact h2

/-- A prior of `norm(mean=1, sd=2)` and evidence of `norm(mean=4, sd=1)`. -/
example : |updateMeanFl (roundBits 53) (1 : ℚ) 2 4 1 1 - 17 / 5| ≤ 44 * ulp 53 := by
  have := C123_mean (roundBits_roundsTo (K := ℚ) (p := 53) (by norm_num)) (by norm_num) (m1 := 1) (s1 := 2) (m2 := 4)
    (s2 := 1) (w := 1) (M := 4) (by norm_num) (by norm_num) (by norm_num) (by norm_num) (by norm_num)
  norm_num at this ⊢
  linarith

example : ∃ m s, normFl (roundBits 53) (2 : ℚ) 10 (1645 / 1000) = .ok (m, s) ∧ 0 < s :=
  C124_positive_partial (roundBits_roundsTo (by norm_num)) (by norm_num) (by norm_num) (by unfold ulp; norm_num)

end Verif
