import Verif.Props.RoundedMixture
import Mathlib.Tactic.FieldSimp

/-!
# Odds, `laplace`, `kelly` and `event` in floating-point arithmetic (C118–C120)

`fl` is any correct rounding to `p ≥ 6` binary digits (53 for a Python float).
-/

namespace Verif

variable {K : Type} [Field K] [LinearOrder K] [IsStrictOrderedRing K] [FloorRing K] {p : ℕ} {fl : K → K}

omit [FloorRing K] in
theorem ulp_le_64 (hp : 6 ≤ p) : (ulp p : K) ≤ 1 / 64 := by
  unfold ulp
  apply one_div_le_one_div_of_le (by norm_num)
  calc (64 : K) = 2 ^ 6 := by norm_num
    _ ≤ 2 ^ p := pow_le_pow_right₀ one_le_two hp

theorem RoundsTo.factor (h : RoundsTo p fl) (x : K) : ∃ d, |d| ≤ ulp p ∧ fl x = x * (1 + d) := by
  by_cases hx : x = 0
  · exact ⟨0, by simpa using (ulp_pos (K := K) p).le, by simp [hx, h.zero]⟩
  · refine ⟨(fl x - x) / x, ?_, by field_simp; ring⟩
    rw [abs_div, div_le_iff₀ (abs_pos.2 hx)]
    exact h.err x

/-- A quotient whose denominator was rounded. -/
theorem RoundsTo.quot (h : RoundsTo p fl) (hp : 6 ≤ p) (x y : K) :
    ∃ d, |d| ≤ 3 * ulp p ∧ fl (x / fl y) = x / y * (1 + d) := by
  obtain ⟨d1, h1, e1⟩ := h.factor y
  obtain ⟨d2, h2, e2⟩ := h.factor (x / fl y)
  have hu := ulp_le_64 (K := K) hp
  have hu0 := ulp_pos (K := K) p
  have b1 := abs_le.1 h1
  have b2 := abs_le.1 h2
  have hd : 0 < 1 + d1 := by linarith
  refine ⟨(d2 - d1) / (1 + d1), ?_, ?_⟩
  · rw [abs_div, abs_of_pos hd, div_le_iff₀ hd, abs_le]
    constructor <;> nlinarith
  · rw [e2, e1]
    have hd' : 1 + (d2 - d1) / (1 + d1) = (1 + d2) / (1 + d1) := by field_simp; ring
    rw [hd']
    rcases eq_or_ne y 0 with rfl | hy
    · simp
    · field_simp

/-! ## C118 -/

/-- **C118**: `p_to_odds` in floating-point arithmetic is accurate to three roundings. -/
theorem C118_odds (h : RoundsTo p fl) (hp : 6 ≤ p) {q : K} (h0 : 0 < q) (h1 : q < 1) :
    ∃ o, pToOddsFl fl q = .ok o ∧ 0 < o ∧ |o - q / (1 - q)| ≤ 3 * ulp p * (q / (1 - q)) := by
  obtain ⟨d, hd, e⟩ := h.quot hp q (1 - q)
  have hq : 0 < q / (1 - q) := div_pos h0 (by linarith)
  have hu := ulp_le_64 (K := K) hp
  have b := abs_le.1 hd
  refine ⟨fl (q / fl (1 - q)), ?_, ?_, ?_⟩
  · unfold pToOddsFl
    rw [if_neg (by push Not; exact ⟨h0, h1⟩)]
  · rw [e]
    exact mul_pos hq (by linarith)
  · rw [e]
    have : q / (1 - q) * (1 + d) - q / (1 - q) = d * (q / (1 - q)) := by ring
    rw [this, abs_mul, abs_of_pos hq]
    exact mul_le_mul_of_nonneg_right hd hq.le

/-- **C118**: so is `odds_to_p`; its result is never above 1. -/
theorem C118_prob (h : RoundsTo p fl) (hp : 6 ≤ p) {o : K} (h0 : 0 < o) (hf : IsFloat p o) :
    ∃ q, oddsToPFl fl o = .ok q ∧ 0 < q ∧ q ≤ 1 ∧ |q - o / (1 + o)| ≤ 3 * ulp p * (o / (1 + o)) := by
  obtain ⟨d, hd, e⟩ := h.quot hp o (1 + o)
  have hq : 0 < o / (1 + o) := div_pos h0 (by linarith)
  have hu := ulp_le_64 (K := K) hp
  have b := abs_le.1 hd
  refine ⟨fl (o / fl (1 + o)), ?_, ?_, ?_, ?_⟩
  · unfold oddsToPFl
    rw [if_neg (not_le.2 h0)]
  · rw [e]
    exact mul_pos hq (by linarith)
  · refine h.le_of_le (isFloat_one p) ?_
    have h1 : o ≤ fl (1 + o) := h.le_of_ge hf (by linarith)
    rw [div_le_one (by linarith)]
    exact h1
  · rw [e]
    have : o / (1 + o) * (1 + d) - o / (1 + o) = d * (o / (1 + o)) := by ring
    rw [this, abs_mul, abs_of_pos hq]
    exact mul_le_mul_of_nonneg_right hd hq.le

/-- **C118** (round trip): for every probability `q`, `odds_to_p(p_to_odds(q))` is `q` up to a relative error
of `7 · 2^(-p)`. -/
theorem C118_round_trip (h : RoundsTo p fl) (hp : 6 ≤ p) {q : K} (h0 : 0 < q) (h1 : q < 1) :
    ∃ o q', pToOddsFl fl q = .ok o ∧ oddsToPFl fl o = .ok q' ∧ |q' - q| ≤ 7 * ulp p * q := by
  obtain ⟨d, hd, e⟩ := h.quot hp q (1 - q)
  set o := fl (q / fl (1 - q)) with ho
  have hu := ulp_le_64 (K := K) hp
  have hu0 := ulp_pos (K := K) p
  have b := abs_le.1 hd
  have h1' : 0 < 1 - q := by linarith
  have ho0 : 0 < o := by
    rw [e]
    exact mul_pos (div_pos h0 h1') (by linarith)
  obtain ⟨d2, hd2, e2⟩ := h.quot hp o (1 + o)
  have b2 := abs_le.1 hd2
  refine ⟨o, fl (o / fl (1 + o)), ?_, ?_, ?_⟩
  · unfold pToOddsFl
    rw [if_neg (by push Not; exact ⟨h0, h1⟩)]
  · unfold oddsToPFl
    rw [if_neg (not_le.2 ho0)]
  · have hden : 0 < 1 + q * d := by nlinarith
    have hr : o / (1 + o) = q * ((1 + d) / (1 + q * d)) := by
      rw [e]
      have hne : 1 + q / (1 - q) * (1 + d) ≠ 0 := by
        have : 0 < q / (1 - q) * (1 + d) := mul_pos (div_pos h0 h1') (by linarith)
        linarith
      have hs : 1 + q / (1 - q) * (1 + d) = (1 + q * d) / (1 - q) := by
        field_simp
        ring
      rw [hs]
      field_simp
    rw [e2, hr]
    have : q * ((1 + d) / (1 + q * d)) * (1 + d2) - q = ((d * (1 - q) + d2 * (1 + d)) / (1 + q * d)) * q := by
      field_simp
      ring
    rw [this, abs_mul, abs_of_pos h0]
    refine mul_le_mul_of_nonneg_right ?_ h0.le
    rw [abs_div, abs_of_pos hden, div_le_iff₀ hden]
    have t1 : |d * (1 - q)| ≤ 3 * ulp p := by
      rw [abs_mul, abs_of_pos h1']
      nlinarith [abs_nonneg d]
    have t2 : |d2 * (1 + d)| ≤ 3 * ulp p * (1 + 3 / 64) := by
      rw [abs_mul, abs_of_pos (show 0 < 1 + d by linarith)]
      have : 1 + d ≤ 1 + 3 / 64 := by linarith
      exact mul_le_mul hd2 this (by linarith) (by linarith)
    have t3 := abs_add_le (d * (1 - q)) (d2 * (1 + d))
    have t4 : 1 - 3 / 64 ≤ 1 + q * d := by nlinarith
    have t5 : 7 * ulp p * (1 - 3 / 64) ≤ 7 * ulp p * (1 + q * d) :=
      mul_le_mul_of_nonneg_left t4 (by linarith)
    linarith

/-- **C118** (the other round trip, moderate odds): as long as `2^(-p) (1 + o)` is at most 1/16, odds `o`
come back with a relative error of at most `8 · 2^(-p) (1 + o)`. -/
theorem C118_round_trip_odds_partial (h : RoundsTo p fl) (hp : 6 ≤ p) {o : K} (h0 : 0 < o)
    (hsmall : ulp p * (1 + o) ≤ 1 / 16) :
    ∃ q o', oddsToPFl fl o = .ok q ∧ pToOddsFl fl q = .ok o' ∧ |o' - o| ≤ 8 * (ulp p * (1 + o)) * o := by
  obtain ⟨d, hd, e⟩ := h.quot hp o (1 + o)
  set q := fl (o / fl (1 + o)) with hq
  have hu := ulp_le_64 (K := K) hp
  have hu0 := ulp_pos (K := K) p
  have b := abs_le.1 hd
  have ho1 : 0 < 1 + o := by linarith
  have hod : |o * d| ≤ 3 / 16 := by
    rw [abs_mul, abs_of_pos h0]
    nlinarith [abs_nonneg d]
  have hod' := abs_le.1 hod
  have hq0 : 0 < q := by
    rw [e]
    exact mul_pos (div_pos h0 ho1) (by linarith)
  have hq1 : 1 - q = (1 - o * d) / (1 + o) := by
    rw [e]
    field_simp
    ring
  have hq1' : 0 < 1 - q := by
    rw [hq1]
    exact div_pos (by linarith) ho1
  obtain ⟨d2, hd2, e2⟩ := h.quot hp q (1 - q)
  have b2 := abs_le.1 hd2
  refine ⟨q, fl (q / fl (1 - q)), ?_, ?_, ?_⟩
  · unfold oddsToPFl
    rw [if_neg (not_le.2 h0)]
  · unfold pToOddsFl
    rw [if_neg (by push Not; exact ⟨hq0, by linarith⟩)]
  · have hden : 0 < 1 - o * d := by linarith
    have hr : q / (1 - q) = o * ((1 + d) / (1 - o * d)) := by
      rw [hq1, e]
      field_simp
    rw [e2, hr]
    have : o * ((1 + d) / (1 - o * d)) * (1 + d2) - o =
        ((d * (1 + o) + d2 * (1 + d)) / (1 - o * d)) * o := by
      field_simp
      ring
    rw [this, abs_mul, abs_of_pos h0]
    refine mul_le_mul_of_nonneg_right ?_ h0.le
    rw [abs_div, abs_of_pos hden, div_le_iff₀ hden]
    have t1 : |d * (1 + o)| ≤ 3 * (ulp p * (1 + o)) := by
      rw [abs_mul, abs_of_pos ho1]
      nlinarith
    have t2 : |d2 * (1 + d)| ≤ 3 * ulp p * (1 + 3 / 64) := by
      rw [abs_mul, abs_of_pos (show 0 < 1 + d by linarith)]
      have : 1 + d ≤ 1 + 3 / 64 := by linarith
      exact mul_le_mul hd2 this (by linarith) (by linarith)
    have t3 := abs_add_le (d * (1 + o)) (d2 * (1 + d))
    have t4 : ulp p ≤ ulp p * (1 + o) := by nlinarith
    have t5 : 8 * (ulp p * (1 + o)) * (1 - 3 / 16) ≤ 8 * (ulp p * (1 + o)) * (1 - o * d) :=
      mul_le_mul_of_nonneg_left (by linarith) (by nlinarith)
    linarith

/-- **C118** (what is missing): odds of `2^(p+2)` to one become the probability 1, which `p_to_odds` refuses. -/
theorem C118_huge_odds_fails (h : RoundsTo p fl) (hp : 6 ≤ p) :
    oddsToPFl fl ((2 : K) ^ (p + 2)) = .ok 1 ∧ pToOddsFl fl (1 : K) = .error .valueError := by
  constructor
  · have hpos : (0 : K) < 2 ^ (p + 2) := by positivity
    have h1 : fl (1 + 2 ^ (p + 2)) = (2 : K) ^ (p + 2) := by
      have := h.eq_of_close (x := 1 + 2 ^ (p + 2)) (m := 2 ^ p) (e := 2)
        (pow_lt_pow_right₀ (by norm_num) (by omega)) le_rfl (by omega) (by
          have : (1 : K) + 2 ^ (p + 2) - ((2 ^ p : ℤ) : K) * 2 ^ (2 : ℤ) = 1 := by
            push_cast
            rw [pow_add]
            norm_num
          rw [this]
          norm_num)
      rw [this]
      push_cast
      rw [pow_add]
      norm_num
    unfold oddsToPFl
    rw [if_neg (not_le.2 hpos), h1, div_self hpos.ne', h.one]
  · unfold pToOddsFl
    rw [if_pos (Or.inr le_rfl)]

/-- **C118** (`laplace`): `laplace(s, n)` for `0 ≤ s ≤ n` is accurate to a relative error of `5 · 2^(-p)` and
lies between 0 and 1. -/
theorem C118_laplace (h : RoundsTo p fl) (hp : 6 ≤ p) {s n : K} (hs : 0 ≤ s) (hn : s ≤ n) :
    ∃ r, laplaceFl fl s n = .ok r ∧ 0 < r ∧ r ≤ 1 ∧
      |r - (s + 1) / (n + 2)| ≤ 5 * ulp p * ((s + 1) / (n + 2)) := by
  have hu := ulp_le_64 (K := K) hp
  have hu0 := ulp_pos (K := K) p
  have hn2 : 0 < n + 2 := by linarith
  have hfn : 0 < fl (n + 2) := h.pos (by omega) hn2
  have hfs : 0 < fl (s + 1) := h.pos (by omega) (by linarith)
  obtain ⟨d, hd, e⟩ := h.quot hp (fl (s + 1)) (n + 2)
  obtain ⟨d1, hd1, e1⟩ := h.factor (s + 1)
  have b := abs_le.1 hd
  have b1 := abs_le.1 hd1
  have hex : 0 < (s + 1) / (n + 2) := div_pos (by linarith) hn2
  refine ⟨fl (fl (s + 1) / fl (n + 2)), ?_, h.pos (by omega) (div_pos hfs hfn), ?_, ?_⟩
  · unfold laplaceFl
    rw [if_neg (not_lt.2 hn), if_neg hfn.ne']
  · refine h.le_of_le (isFloat_one p) ?_
    rw [div_le_one hfn]
    exact h.mono (by linarith)
  · rw [e, e1]
    have : (s + 1) * (1 + d1) / (n + 2) * (1 + d) - (s + 1) / (n + 2) =
        (d1 + d + d1 * d) * ((s + 1) / (n + 2)) := by ring
    rw [this, abs_mul, abs_of_pos hex]
    refine mul_le_mul_of_nonneg_right ?_ hex.le
    rw [abs_le]
    constructor <;> nlinarith


/-! ## C119 -/

/-- The numbers of `kelly` in exact arithmetic (C56): the price after deference, the stake as a share of the
bankroll, and the expected return. -/
def exactPrice (my market deference : K) : K := my * (1 - deference) + market * deference

theorem RoundsTo.abs_err (h : RoundsTo p fl) {x y E : K} (hx : |x - y| ≤ E) :
    |fl x - y| ≤ E + ulp p * (|y| + E) := by
  have e := h.err x
  have hxy : |x| ≤ |y| + E := by
    have := abs_add_le (x - y) y
    rw [sub_add_cancel] at this
    linarith
  have : |fl x - y| ≤ |fl x - x| + |x - y| := by
    have := abs_add_le (fl x - x) (x - y)
    rwa [sub_add_sub_cancel] at this
  have : ulp p * |x| ≤ ulp p * (|y| + E) := mul_le_mul_of_nonneg_left hxy (ulp_pos p).le
  linarith

omit [FloorRing K] in
theorem three_factors {u a b d : K} (hu0 : 0 < u) (hu : u ≤ 1 / 64) (ha : -u ≤ a ∧ a ≤ u)
    (hb : -u ≤ b ∧ b ≤ u) (hd : -u ≤ d ∧ d ≤ u) : |(1 + a) * (1 + b) * (1 + d) - 1| ≤ 4 * u := by
  obtain ⟨a1, a2⟩ := ha
  obtain ⟨b1, b2⟩ := hb
  obtain ⟨d1, d2⟩ := hd
  have up1 : (1 + a) * (1 + b) ≤ (1 + u) * (1 + u) :=
    mul_le_mul (by linarith) (by linarith) (by linarith) (by linarith)
  have up2 : (1 + a) * (1 + b) * (1 + d) ≤ (1 + u) * (1 + u) * (1 + u) :=
    mul_le_mul up1 (by linarith) (by linarith) (mul_self_nonneg _)
  have lo1 : (1 - u) * (1 - u) ≤ (1 + a) * (1 + b) :=
    mul_le_mul (by linarith) (by linarith) (by linarith) (by linarith)
  have lo2 : (1 - u) * (1 - u) * (1 - u) ≤ (1 + a) * (1 + b) * (1 + d) :=
    mul_le_mul lo1 (by linarith) (by linarith) (mul_nonneg (by linarith) (by linarith))
  have q1 : u * u ≤ u / 64 := by nlinarith
  have q2 : 0 ≤ u * u := mul_self_nonneg u
  have q3 : u * u * u ≤ u / 64 := by nlinarith
  have q4 : 0 ≤ u * u * u := mul_nonneg q2 hu0.le
  have e1 : (1 + u) * (1 + u) * (1 + u) = 1 + 3 * u + 3 * (u * u) + u * u * u := by ring
  have e2 : (1 - u) * (1 - u) * (1 - u) = 1 - 3 * u + 3 * (u * u) - u * u * u := by ring
  rw [abs_le]
  constructor <;> linarith

theorem kelly_price (h : RoundsTo p fl) (hp : 6 ≤ p) {my market deference : K} (h0 : 0 < my) (h1 : 0 < market)
    (h2 : 0 ≤ deference) (h3 : deference ≤ 1) :
    |fl (fl (my * fl (1 - deference)) + fl (market * deference)) - exactPrice my market deference| ≤
      4 * ulp p * exactPrice my market deference := by
  have hu := ulp_le_64 (K := K) hp
  have hu0 := ulp_pos (K := K) p
  set u : K := ulp p with hu'
  obtain ⟨a, ha, ea⟩ := h.factor (1 - deference)
  obtain ⟨b, hb, eb⟩ := h.factor (my * fl (1 - deference))
  obtain ⟨c, hc, ec⟩ := h.factor (market * deference)
  obtain ⟨d, hd, ed⟩ := h.factor (fl (my * fl (1 - deference)) + fl (market * deference))
  rw [ed, eb, ea, ec]
  unfold exactPrice
  set s := my * (1 - deference) with hs
  set t := market * deference with ht
  have hs0 : 0 ≤ s := mul_nonneg h0.le (by linarith)
  have ht0 : 0 ≤ t := mul_nonneg h1.le h2
  have e : (my * ((1 - deference) * (1 + a)) * (1 + b) + t * (1 + c)) * (1 + d) - (s + t) =
      s * ((1 + a) * (1 + b) * (1 + d) - 1) + t * ((1 + c) * (1 + d) - 1) := by
    rw [hs]
    ring
  rw [e]
  have ha' := abs_le.1 (ha.trans_eq hu'.symm)
  have hb' := abs_le.1 (hb.trans_eq hu'.symm)
  have hc' := abs_le.1 (hc.trans_eq hu'.symm)
  have hd' := abs_le.1 (hd.trans_eq hu'.symm)
  have p1 : |(1 + a) * (1 + b) * (1 + d) - 1| ≤ 4 * u := by
    exact three_factors hu0 hu ha' hb' hd'
  have p2 : |(1 + c) * (1 + d) - 1| ≤ 4 * u := by
    have := three_factors hu0 hu hc' ⟨(neg_nonpos.2 hu0.le), hu0.le⟩ hd'
    simpa using this
  refine (abs_add_le _ _).trans ?_
  rw [abs_mul s, abs_mul t, abs_of_nonneg hs0, abs_of_nonneg ht0]
  have := mul_le_mul_of_nonneg_left p1 hs0
  have := mul_le_mul_of_nonneg_left p2 ht0
  linarith

theorem kelly_one_minus (h : RoundsTo p fl) (hp : 6 ≤ p) {adj price : K} (hP0 : 0 < price) (hP1 : price ≤ 1)
    (hA : |adj - price| ≤ 4 * ulp p) : |fl (1 - adj) - (1 - price)| ≤ 21 / 4 * ulp p := by
  have hu := ulp_le_64 (K := K) hp
  have hu0 := ulp_pos (K := K) p
  have h1 : |(1 - adj) - (1 - price)| ≤ 4 * ulp p := by
    rw [show (1 - adj) - (1 - price) = -(adj - price) by ring, abs_neg]
    exact hA
  have h2 := h.abs_err h1
  rw [abs_of_nonneg (show 0 ≤ 1 - price by linarith)] at h2
  refine h2.trans ?_
  have : ulp p * (1 - price + 4 * ulp p) ≤ ulp p * (1 + 4 / 64 : K) :=
    mul_le_mul_of_nonneg_left (by linarith) hu0.le
  linarith

omit [FloorRing K] in
theorem kelly_product {u X price q d : K} (hu0 : 0 < u) (hu : u ≤ 1 / 64) (hP0 : 0 < price) (hP1 : price ≤ 1)
    (hX : |X - (1 - price)| ≤ 21 / 4 * u) (hq0 : 0 < q) (hd : |d| ≤ 3 * u) :
    |X * (q * (1 + d)) - (1 - price) * q| ≤ 9 * u * q := by
  have e : X * (q * (1 + d)) - (1 - price) * q = ((X - (1 - price)) * (1 + d) + (1 - price) * d) * q := by ring
  rw [e, abs_mul, abs_of_pos hq0]
  refine mul_le_mul_of_nonneg_right ?_ hq0.le
  refine (abs_add_le _ _).trans ?_
  rw [abs_mul, abs_mul (1 - price), abs_of_nonneg (show 0 ≤ 1 - price by linarith)]
  have hd' := abs_le.1 hd
  rw [abs_of_pos (show 0 < 1 + d by linarith)]
  have a1 : |X - (1 - price)| * (1 + d) ≤ 21 / 4 * u * (1 + 3 / 64) :=
    mul_le_mul hX (by linarith) (by linarith) (by linarith)
  have a2 : (1 - price) * |d| ≤ 1 * (3 * u) := mul_le_mul (by linarith) hd (abs_nonneg d) (by norm_num)
  linarith

theorem kelly_product' (h : RoundsTo p fl) (hp : 6 ≤ p) {Y price q : K} (hP0 : 0 < price) (hP1 : price ≤ 1)
    (hq0 : 0 < q) (hY : |Y - (1 - price) * q| ≤ 9 * ulp p * q) :
    |fl Y - (1 - price) * q| ≤ 41 / 4 * ulp p * q := by
  have hu := ulp_le_64 (K := K) hp
  have hu0 := ulp_pos (K := K) p
  refine (h.abs_err hY).trans ?_
  rw [abs_of_nonneg (mul_nonneg (show 0 ≤ 1 - price by linarith) hq0.le)]
  have a1 : (1 - price) * q ≤ 1 * q := mul_le_mul_of_nonneg_right (by linarith) hq0.le
  have a2 : 9 * ulp p * q ≤ 9 * (1 / 64) * q := mul_le_mul_of_nonneg_right (by linarith) hq0.le
  have a3 : ulp p * ((1 - price) * q + 9 * ulp p * q) ≤ ulp p * (q * (1 + 9 / 64)) :=
    mul_le_mul_of_nonneg_left (by linarith) hu0.le
  have a4 : 0 < ulp p * q := mul_pos hu0 hq0
  linarith

omit [FloorRing K] in
theorem kelly_abs {price q : K} (hP0 : 0 < price) (hP1 : price ≤ 1) (hq0 : 0 < q) :
    |price - (1 - price) * q| ≤ 1 + q := by
  have a1 : (1 - price) * q ≤ 1 * q := mul_le_mul_of_nonneg_right (by linarith) hq0.le
  have a2 : 0 ≤ (1 - price) * q := mul_nonneg (by linarith) hq0.le
  rw [abs_le]
  constructor <;> linarith

theorem kelly_stake (h : RoundsTo p fl) (hp : 6 ≤ p) {adj price q Q d : K} (hP0 : 0 < price) (hP1 : price ≤ 1)
    (hA : |adj - price| ≤ 4 * ulp p) (hq0 : 0 < q) (hd : |d| ≤ 3 * ulp p) (hQ : Q = q * (1 + d)) :
    |fl (adj - fl (fl (1 - adj) * Q)) - (price - (1 - price) * q)| ≤ 12 * ulp p * (1 + q) := by
  have hu := ulp_le_64 (K := K) hp
  have hu0 := ulp_pos (K := K) p
  have hY := kelly_product' h hp hP0 hP1 hq0
    (kelly_product hu0 hu hP0 hP1 (kelly_one_minus h hp hP0 hP1 hA) hq0 hd)
  rw [← hQ] at hY
  have a0 : 0 < ulp p * q := mul_pos hu0 hq0
  have hdiff : |(adj - fl (fl (1 - adj) * Q)) - (price - (1 - price) * q)| ≤ 41 / 4 * ulp p * (1 + q) := by
    rw [show (adj - fl (fl (1 - adj) * Q)) - (price - (1 - price) * q) =
      (adj - price) + -(fl (fl (1 - adj) * Q) - (1 - price) * q) by ring]
    refine (abs_add_le _ _).trans ?_
    rw [abs_neg]
    linarith
  refine (h.abs_err hdiff).trans ?_
  have hV := kelly_abs hP0 hP1 hq0
  have a1 : 41 / 4 * ulp p * (1 + q) ≤ 41 / 4 * (1 / 64) * (1 + q) :=
    mul_le_mul_of_nonneg_right (by linarith) (by linarith)
  have a2 : ulp p * (|price - (1 - price) * q| + 41 / 4 * ulp p * (1 + q)) ≤ ulp p * ((1 + q) * (1 + 41 / 256)) :=
    mul_le_mul_of_nonneg_left (by linarith) hu0.le
  linarith

theorem kelly_money (h : RoundsTo p fl) (hp : 6 ≤ p) {k stake bankroll q : K} (hq0 : 0 < q)
    (hk : |k - stake| ≤ 12 * ulp p * (1 + q)) (hs : |stake| ≤ 1 + q) :
    |fl (bankroll * k) - bankroll * stake| ≤ |bankroll| * (15 * ulp p * (1 + q)) := by
  have hu := ulp_le_64 (K := K) hp
  have hu0 := ulp_pos (K := K) p
  have hb := abs_nonneg bankroll
  have a1 : |bankroll * k - bankroll * stake| ≤ |bankroll| * (12 * ulp p * (1 + q)) := by
    rw [← mul_sub, abs_mul]
    exact mul_le_mul_of_nonneg_left hk hb
  refine (h.abs_err a1).trans ?_
  have a2 : 12 * ulp p * (1 + q) ≤ 12 * (1 / 64) * (1 + q) := mul_le_mul_of_nonneg_right (by linarith) (by linarith)
  have a3 : |bankroll * stake| + |bankroll| * (12 * ulp p * (1 + q)) ≤ |bankroll| * ((1 + q) * (1 + 12 / 64)) := by
    rw [abs_mul, ← mul_add]
    exact mul_le_mul_of_nonneg_left (by linarith) hb
  have a4 := mul_le_mul_of_nonneg_left a3 hu0.le
  have a5 : 0 ≤ |bankroll| * (ulp p * (1 + q)) := mul_nonneg hb (mul_nonneg hu0.le (by linarith))
  linarith

theorem kelly_roi (h : RoundsTo p fl) (hp : 6 ≤ p) {adj price i : K} (hP0 : 0 < price) (hP1 : price ≤ 1)
    (hA : |adj - price| ≤ 4 * ulp p) (hi : 1 ≤ i) :
    |fl (fl (adj * i) - 1) - (price * i - 1)| ≤ 8 * ulp p * i := by
  have hu := ulp_le_64 (K := K) hp
  have hu0 := ulp_pos (K := K) p
  have hpi1 : price * i ≤ 1 * i := mul_le_mul_of_nonneg_right hP1 (by linarith)
  have hpi0 : 0 ≤ price * i := mul_nonneg hP0.le (by linarith)
  have hui : 0 < ulp p * i := mul_pos hu0 (by linarith)
  have b1 : |adj * i - price * i| ≤ 4 * ulp p * i := by
    rw [← sub_mul, abs_mul, abs_of_pos (show 0 < i by linarith)]
    exact mul_le_mul_of_nonneg_right hA (by linarith)
  have b2 := h.abs_err b1
  rw [abs_of_nonneg hpi0] at b2
  have c0 : 4 * ulp p * i ≤ 4 * (1 / 64) * i := mul_le_mul_of_nonneg_right (by linarith) (by linarith)
  have b3 : |fl (adj * i) - 1 - (price * i - 1)| ≤ 81 / 16 * ulp p * i := by
    rw [sub_sub_sub_cancel_right]
    refine b2.trans ?_
    have : ulp p * (price * i + 4 * ulp p * i) ≤ ulp p * (i * (1 + 4 / 64)) :=
      mul_le_mul_of_nonneg_left (by linarith) hu0.le
    linarith
  refine (h.abs_err b3).trans ?_
  have c1 : |price * i - 1| ≤ i := by
    rw [abs_le]
    constructor <;> linarith
  have c2 : 81 / 16 * ulp p * i ≤ 81 / 16 * (1 / 64) * i := mul_le_mul_of_nonneg_right (by linarith) (by linarith)
  have c3 : ulp p * (|price * i - 1| + 81 / 16 * ulp p * i) ≤ ulp p * (i * (1 + 81 / 1024)) :=
    mul_le_mul_of_nonneg_left (by linarith) hu0.le
  linarith

/-- **C119**: on every accepted input the numbers of `kelly` in floating-point arithmetic are the exact ones up
to a few roundings: the price up to a relative `4 · 2^(-p)`, the stake (as a share of the bankroll) up to
`12 · 2^(-p) / (1 - market)`, the stake in money accordingly, and the expected return up to
`8 · 2^(-p) / market`. -/
theorem C119_kelly (h : RoundsTo p fl) (hp : 6 ≤ p) {my market deference bankroll : K} {error : Bool}
    {r : KellyFl K} (hr : kellyFl fl my market deference bankroll error = .ok r) :
    let price := my * (1 - deference) + market * deference
    let stake := |price - (1 - price) * (market / (1 - market))|
    |r.adj - price| ≤ 4 * ulp p * price ∧
      |r.kelly - stake| ≤ 12 * ulp p / (1 - market) ∧
      |r.target - bankroll * stake| ≤ |bankroll| * (15 * ulp p / (1 - market)) ∧
      |r.roi - abs (price / market - 1)| ≤ 8 * ulp p / market := by
  have hu := ulp_le_64 (K := K) hp
  have hu0 := ulp_pos (K := K) p
  unfold kellyFl at hr
  split at hr
  · cases hr
  rename_i c1
  split at hr
  · cases hr
  rename_i c2
  split at hr
  · cases hr
  rename_i c3
  split at hr
  · cases hr
  push Not at c1 c2 c3
  obtain ⟨m1, m0⟩ := c1
  obtain ⟨y1, y0⟩ := c2
  obtain ⟨d1, d0⟩ := c3
  simp only [Except.ok.injEq] at hr
  subst hr
  have hA := kelly_price h hp y0 m0 d0 d1
  have hP0 : 0 < exactPrice my market deference := by
    unfold exactPrice
    rcases d0.eq_or_lt with hd | hd
    · rw [← hd]
      simpa using y0
    · exact add_pos_of_nonneg_of_pos (mul_nonneg y0.le (by linarith)) (mul_pos m0 hd)
  have hP1 : exactPrice my market deference ≤ 1 := by
    unfold exactPrice
    have a1 : my * (1 - deference) ≤ 1 * (1 - deference) := mul_le_mul_of_nonneg_right y1.le (by linarith)
    have a2 : market * deference ≤ 1 * deference := mul_le_mul_of_nonneg_right m1.le d0
    linarith
  intro price stake
  change |_ - price| ≤ 4 * ulp p * price at hA
  change 0 < price at hP0
  change price ≤ 1 at hP1
  have hm : 0 < 1 - market := by linarith
  have hq0 : 0 < market / (1 - market) := div_pos m0 hm
  have hq1 : 1 + market / (1 - market) = 1 / (1 - market) := by field_simp; ring
  obtain ⟨d, hd, ed⟩ := h.quot hp market (1 - market)
  have hA4 : |fl (fl (my * fl (1 - deference)) + fl (market * deference)) - price| ≤ 4 * ulp p :=
    hA.trans (mul_le_of_le_one_right (by linarith) hP1)
  have hz : ∀ c : K, c * ulp p / (1 - market) = c * ulp p * (1 + market / (1 - market)) := by
    intro c
    rw [hq1]
    ring
  have hk := (abs_abs_sub_abs_le_abs_sub _ _).trans (kelly_stake h hp hP0 hP1 hA4 hq0 hd ed)
  refine ⟨hA, ?_, ?_, ?_⟩
  · rw [hz]
    exact hk
  · rw [hz]
    refine kelly_money h hp hq0 hk ?_
    rw [abs_abs]
    exact kelly_abs hP0 hP1 hq0
  · have hi : 1 ≤ market⁻¹ := (one_le_inv₀ m0).2 m1.le
    have := (abs_abs_sub_abs_le_abs_sub _ _).trans (kelly_roi h hp hP0 hP1 hA4 hi)
    rw [div_eq_mul_inv _ market, div_eq_mul_inv _ market]
    simpa only [div_eq_mul_inv] using this

/-! ## C120 -/

/-- **C120**: with uniform numbers of `p` binary digits, `event(q)` and `bernoulli(q)` happen with a chance
that is never below `q` and exceeds it by less than `2^(-p)`. -/
theorem C120_chance (p : ℕ) {q : K} (h0 : 0 ≤ q) (h1 : q ≤ 1) :
    q ≤ gridShare (K := K) p (fun j => happensFl p q j = true) ∧
      gridShare (K := K) p (fun j => happensFl p q j = true) < q + ulp p := by
  have h2 : (0 : K) < 2 ^ p := by positivity
  have hset : ((Finset.range (2 ^ p)).filter fun j => happensFl p q j = true) =
      Finset.range ⌈q * 2 ^ p⌉₊ := by
    ext j
    rw [Finset.mem_filter, Finset.mem_range, Finset.mem_range, happensFl, decide_eq_true_iff, gridPoint,
      div_lt_iff₀ h2, Nat.lt_ceil]
    constructor
    · exact fun hj => hj.2
    · refine fun hj => ⟨?_, hj⟩
      have : (j : K) < 2 ^ p := by nlinarith
      exact_mod_cast this
  unfold gridShare
  rw [hset, Finset.card_range]
  constructor
  · rw [le_div_iff₀ h2]
    exact Nat.le_ceil _
  · rw [div_lt_iff₀ h2]
    have := Nat.ceil_lt_add_one (mul_nonneg h0 h2.le)
    have e : (q + ulp p) * 2 ^ p = q * 2 ^ p + 1 := by
      unfold ulp
      field_simp
    rw [e]
    exact this

/-- **C120**: the chance is exactly `q` when `q` is a multiple of `2^(-p)`, in particular for 0 and 1 and for
every float of at least 1/2. -/
theorem C120_exact (p : ℕ) {q : K} (h0 : 0 ≤ q) (h1 : q ≤ 1) :
    gridShare (K := K) p (fun j => happensFl p q j = true) = q ↔ ∃ k : ℕ, q = k / 2 ^ p := by
  have h2 : (0 : K) < 2 ^ p := by positivity
  constructor
  · intro h
    exact ⟨_, h.symm⟩
  · rintro ⟨k, rfl⟩
    obtain ⟨a1, a2⟩ := C120_chance (K := K) p h0 h1
    unfold gridShare ulp at *
    rw [div_le_div_iff_of_pos_right h2] at a1
    rw [← add_div, div_lt_div_iff_of_pos_right h2] at a2
    have b1 : k ≤ ((Finset.range (2 ^ p)).filter fun j => happensFl p ((k : K) / 2 ^ p) j = true).card := by
      exact_mod_cast a1
    have b2 : ((Finset.range (2 ^ p)).filter fun j => happensFl p ((k : K) / 2 ^ p) j = true).card < k + 1 := by
      exact_mod_cast a2
    have : ((Finset.range (2 ^ p)).filter fun j => happensFl p ((k : K) / 2 ^ p) j = true).card = k := by omega
    rw [this]

/-- A float between 1/2 and 1 is a multiple of `2^(-p)`. -/
theorem isFloat_half {q : K} (hp : 1 ≤ p) (hq : IsFloat p q) (h0 : 1 / 2 ≤ q) (h1 : q ≤ 1) :
    ∃ k : ℕ, q = k / 2 ^ p := by
  obtain ⟨m, e, hm, rfl⟩ := hq
  have h2 : (0 : K) < 2 ^ p := by positivity
  have he0 : (0 : K) < 2 ^ e := by positivity
  have hm0 : 0 < m := by
    by_contra hc
    push Not at hc
    have : (m : K) ≤ 0 := by exact_mod_cast hc
    nlinarith
  rcases le_or_gt (-(p : ℤ)) e with hle | hlt
  · obtain ⟨k, hk⟩ := Int.eq_ofNat_of_zero_le (show 0 ≤ e + p by omega)
    refine ⟨m.toNat * 2 ^ k, ?_⟩
    rw [eq_div_iff h2.ne', mul_assoc, ← zpow_natCast, ← zpow_add₀ two_ne_zero, hk]
    push_cast
    have : ((m.toNat : ℕ) : K) = m := by
      rw [← Int.cast_natCast, Int.toNat_of_nonneg hm0.le]
    rw [this, zpow_natCast]
  · -- then the number is at most 1/2
    have hm' : (m : K) ≤ 2 ^ p := by
      have := (abs_le.1 hm).2
      exact_mod_cast this
    have hz : (2 : K) ^ e ≤ 2 ^ (-(p : ℤ) - 1) := zpow_le_zpow_right₀ one_le_two (by omega)
    have hle : (m : K) * 2 ^ e ≤ 2 ^ p * 2 ^ (-(p : ℤ) - 1) := mul_le_mul hm' hz he0.le h2.le
    have hv : (2 : K) ^ p * 2 ^ (-(p : ℤ) - 1) = 1 / 2 := by
      rw [← zpow_natCast, ← zpow_add₀ two_ne_zero, show (p : ℤ) + (-(p : ℤ) - 1) = -1 by ring]
      norm_num
    have heq : (m : K) * 2 ^ e = 1 / 2 := le_antisymm (hle.trans_eq hv) h0
    refine ⟨2 ^ (p - 1), ?_⟩
    rw [heq]
    obtain ⟨k, rfl⟩ : ∃ k, p = k + 1 := ⟨p - 1, by omega⟩
    push_cast
    rw [pow_succ]
    field_simp

/-- **C120**: a float probability of at least one half is met exactly. -/
theorem C120_half (hp : 1 ≤ p) {q : K} (hq : IsFloat p q) (h0 : 1 / 2 ≤ q) (h1 : q ≤ 1) :
    gridShare (K := K) p (fun j => happensFl p q j = true) = q :=
  (C120_exact p (by linarith) h1).2 (isFloat_half hp hq h0 h1)

/-- **C120**: a probability of 0 never happens, one of 1 always does. -/
theorem C120_certain (p : ℕ) (j : ℕ) (hj : j < 2 ^ p) :
    happensFl p (0 : K) j = false ∧ happensFl p (1 : K) j = true := by
  have h2 : (0 : K) < 2 ^ p := by positivity
  constructor
  · rw [happensFl, decide_eq_false_iff_not, not_lt, gridPoint]
    positivity
  · rw [happensFl, decide_eq_true_iff, gridPoint, div_lt_one h2]
    exact_mod_cast hj

/-! ### Concrete cases -/

/-- Doubles: rounding half to even to 53 digits is a correct rounding. -/
example : RoundsTo 53 (roundBits 53 : ℚ → ℚ) := roundBits_roundsTo (by norm_num)

example : ∃ o q', pToOddsFl (roundBits 53) (1 / 3 : ℚ) = .ok o ∧ oddsToPFl (roundBits 53) o = .ok q' ∧
    |q' - 1 / 3| ≤ 7 * ulp 53 * (1 / 3) :=
  C118_round_trip (roundBits_roundsTo (by norm_num)) (by norm_num) (by norm_num) (by norm_num)

/-- Odds of a million to one still come back. -/
example : ∃ q o', oddsToPFl (roundBits 53) (1000000 : ℚ) = .ok q ∧ pToOddsFl (roundBits 53) q = .ok o' ∧
    |o' - 1000000| ≤ 8 * (ulp 53 * (1 + 1000000)) * 1000000 :=
  C118_round_trip_odds_partial (roundBits_roundsTo (by norm_num)) (by norm_num) (by norm_num)
    (by unfold ulp; norm_num)

/-- Odds of `2^55` to one do not. -/
example : oddsToPFl (roundBits 53) ((2 : ℚ) ^ 55) = .ok 1 :=
  (C118_huge_odds_fails (roundBits_roundsTo (by norm_num)) (by norm_num)).1

/-- An accepted bet. -/
example : ∃ r, kellyFl (roundBits 53) (7 / 10 : ℚ) (1 / 2) 0 100 true = .ok r ∧
    |r.kelly - 2 / 5| ≤ 24 * ulp 53 := by
  have hok : ∃ r, kellyFl (roundBits 53) (7 / 10 : ℚ) (1 / 2) 0 100 true = .ok r := by
    unfold kellyFl
    norm_num
  obtain ⟨r, hr⟩ := hok
  have := (C119_kelly (roundBits_roundsTo (by norm_num)) (by norm_num) hr).2.1
  refine ⟨r, hr, ?_⟩
  norm_num at this
  linarith

/-- A tenth is not a multiple of `2^(-53)`; its double (a float) is met up to `2^(-53)`. -/
example : (1 / 10 : ℚ) ≤ gridShare 53 (fun j => happensFl 53 (1 / 10 : ℚ) j = true) :=
  (C120_chance 53 (by norm_num) (by norm_num)).1

end Verif
