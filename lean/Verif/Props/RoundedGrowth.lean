import Verif.Model.RoundedGrowth
import Verif.Props.RoundedGeo
import Verif.Props.Forecast

/-!
# Growth rates, doubling times and `extremize` in floating-point arithmetic (C155)

`fl` is any correct rounding to `p` binary digits, with the rounding unit `u = ulp p = 2 ^ -p`; logarithms, exponentials
and powers are computed with a relative error of at most `e`.
-/

namespace Verif

variable {p : ℕ} {fl lg ex : ℝ → ℝ} {pw : ℝ → ℝ → ℝ} {e : ℝ}

theorem log_near_one {t u : ℝ} (ht : |t| ≤ u) (hu : u ≤ 1 / 2) : |Real.log (1 + t)| ≤ 2 * u := by
  have hb := abs_le.1 ht
  have hpos : 0 < 1 + t := by linarith
  rw [abs_le]
  constructor
  · have h1 := Real.one_sub_inv_le_log_of_pos hpos
    have h2 : -(2 * u) ≤ 1 - (1 + t)⁻¹ := by
      have h3 : (1 + t)⁻¹ ≤ 1 + 2 * u := by
        rw [inv_le_comm₀ hpos (by linarith), inv_le_iff_one_le_mul₀ (by linarith)]
        nlinarith
      linarith
    linarith
  · have := Real.log_le_sub_one_of_pos hpos
    linarith

/-- The quotient of two numbers known with small relative errors, rounded. -/
theorem quotient_bound {k e a η δ : ℝ} (hk0 : 0 ≤ k) (hk : k ≤ 1 / 100) (he0 : 0 ≤ e) (he : e ≤ 1 / 100) (ha : |a| ≤ e)
    (hη : |η| ≤ 2 * k + 51 / 50 * e) (hδ : |δ| ≤ k) : |(1 + a) / (1 + η) * (1 + δ) - 1| ≤ 4 * k + 3 * e := by
  have a1 := abs_le.1 ha
  have n1 := abs_le.1 hη
  have d1 := abs_le.1 hδ
  have hpos : 0 < 1 + η := by linarith
  have hke : k * e ≤ k * (1 / 100) := mul_le_mul_of_nonneg_left he hk0
  have hkk : k * k ≤ k * (1 / 100) := mul_le_mul_of_nonneg_left hk hk0
  have hee : e * e ≤ e * (1 / 100) := mul_le_mul_of_nonneg_left he he0
  have hup : (1 + a) * (1 + δ) ≤ (1 + e) * (1 + k) := mul_le_mul (by linarith) (by linarith) (by linarith) (by linarith)
  have hdn : (1 - e) * (1 - k) ≤ (1 + a) * (1 + δ) := mul_le_mul (by linarith) (by linarith) (by linarith) (by linarith)
  have hre : (1 + a) / (1 + η) * (1 + δ) = (1 + a) * (1 + δ) / (1 + η) := by ring
  rw [hre, abs_le]
  constructor
  · have h1 : 1 - (4 * k + 3 * e) ≤ (1 + a) * (1 + δ) / (1 + η) := by
      rw [le_div_iff₀ hpos]
      refine le_trans ?_ hdn
      have h2 : (1 - (4 * k + 3 * e)) * (1 + η) ≤ (1 - (4 * k + 3 * e)) * (1 + 2 * k + 51 / 50 * e) :=
        mul_le_mul_of_nonneg_left (by linarith) (by linarith)
      have := mul_nonneg hk0 he0
      have := mul_nonneg hk0 hk0
      have := mul_nonneg he0 he0
      nlinarith
    linarith
  · have h1 : (1 + a) * (1 + δ) / (1 + η) ≤ 1 + (4 * k + 3 * e) := by
      rw [div_le_iff₀ hpos]
      refine hup.trans ?_
      have h2 : (1 + (4 * k + 3 * e)) * (1 - 2 * k - 51 / 50 * e) ≤ (1 + (4 * k + 3 * e)) * (1 + η) :=
        mul_le_mul_of_nonneg_left (by linarith) (by linarith)
      nlinarith
    linarith

theorem exists_factor {x y c : ℝ} (hy : 0 < y) (h : |x - y| ≤ c * y) : ∃ t, |t| ≤ c ∧ x = y * (1 + t) := by
  refine ⟨(x - y) / y, ?_, ?_⟩
  · rw [abs_div, abs_of_pos hy, div_le_iff₀ hy]
    exact h
  · field_simp
    ring

/-- The logarithm of the rounded sum. -/
theorem log_one_add (h : RoundsTo p fl) (hlg : ComputesLog e lg) (he0 : 0 ≤ e) {g : ℝ} (hg : 0 < g)
    (hk : ulp p * ((1 + g) / g) ≤ 1 / 100) : 0 < fl (1 + g) ∧ ∃ η, |η| ≤ 2 * (ulp p * ((1 + g) / g)) + 51 / 50 * e ∧
      lg (fl (1 + g)) = Real.log (1 + g) * (1 + η) := by
  have hu := ulp_pos (K := ℝ) p
  have h1 : 1 ≤ (1 + g) / g := by
    rw [le_div_iff₀ hg]
    linarith
  have huk : ulp p ≤ ulp p * ((1 + g) / g) := by nlinarith
  set k := ulp p * ((1 + g) / g) with hkd
  have hk0 : 0 < k := hu.trans_le huk
  have herr := h.err (1 + g)
  rw [abs_of_pos (by linarith : 0 < 1 + g)] at herr
  obtain ⟨t, ht, hb⟩ := exists_factor (by linarith : 0 < 1 + g) herr
  have htb := abs_le.1 ht
  have hbpos : 0 < fl (1 + g) := by
    rw [hb]
    exact mul_pos (by linarith) (by linarith)
  refine ⟨hbpos, ?_⟩
  have hl0 : 0 < Real.log (1 + g) := Real.log_pos (by linarith)
  have hlg' : g / (1 + g) ≤ Real.log (1 + g) := by
    have := Real.one_sub_inv_le_log_of_pos (by linarith : 0 < 1 + g)
    have e1 : 1 - (1 + g)⁻¹ = g / (1 + g) := by
      field_simp
      ring
    linarith
  have hlt : Real.log (fl (1 + g)) = Real.log (1 + g) + Real.log (1 + t) := by
    rw [hb, Real.log_mul (by linarith) (by linarith)]
  have h2u : 2 * ulp p ≤ 2 * k * Real.log (1 + g) := by
    have e1 : ulp p = k * (g / (1 + g)) := by
      rw [hkd]
      field_simp
    have := mul_le_mul_of_nonneg_left hlg' hk0.le
    linarith
  have hd1 : |Real.log (fl (1 + g)) - Real.log (1 + g)| ≤ 2 * k * Real.log (1 + g) := by
    rw [hlt, add_sub_cancel_left]
    exact (log_near_one ht (by linarith)).trans h2u
  have hb1 := abs_le.1 hd1
  have hlb : 0 < Real.log (fl (1 + g)) := by nlinarith
  have hd2 := hlg _ hbpos
  rw [abs_of_pos hlb] at hd2
  refine (exists_factor hl0 ?_).imp fun η hη => ⟨hη.1, hη.2⟩
  have : lg (fl (1 + g)) - Real.log (1 + g) = (lg (fl (1 + g)) - Real.log (fl (1 + g))) +
      (Real.log (fl (1 + g)) - Real.log (1 + g)) := by ring
  rw [this]
  refine (abs_add_le _ _).trans ?_
  have hee : e * Real.log (fl (1 + g)) ≤ e * (51 / 50 * Real.log (1 + g)) :=
    mul_le_mul_of_nonneg_left (by nlinarith) he0
  nlinarith

/-- **C155**: the doubling time is off by a relative error of at most `4 * u * (1 + g) / g + 3 * e`: accurate unless the
growth rate is so small that adding it to 1 loses its digits. -/
theorem C155_doubling_time (h : RoundsTo p fl) (hlg : ComputesLog e lg) (he0 : 0 ≤ e) (he : e ≤ 1 / 100) {g : ℝ}
    (hg : 0 < g) (hk : ulp p * ((1 + g) / g) ≤ 1 / 100) :
    ∃ T, growthToDoublingFl fl lg g = .ok T ∧ 0 < T ∧
      |T - Real.log 2 / Real.log (1 + g)| ≤
        (4 * (ulp p * ((1 + g) / g)) + 3 * e) * (Real.log 2 / Real.log (1 + g)) := by
  have hu := ulp_pos (K := ℝ) p
  have h1 : 1 ≤ (1 + g) / g := by
    rw [le_div_iff₀ hg]
    linarith
  have huk : ulp p ≤ ulp p * ((1 + g) / g) := by nlinarith
  obtain ⟨hb, η, hη, hl⟩ := log_one_add h hlg he0 hg hk
  set k := ulp p * ((1 + g) / g) with hkd
  have hl0 : 0 < Real.log (1 + g) := Real.log_pos (by linarith)
  have hl2 : 0 < Real.log 2 := Real.log_pos (by norm_num)
  have h2 := hlg 2 (by norm_num)
  rw [abs_of_pos hl2] at h2
  obtain ⟨a, ha, hl2'⟩ := exists_factor hl2 h2
  have n1 := abs_le.1 hη
  have a1 := abs_le.1 ha
  have hη0 : 0 < 1 + η := by linarith
  have hq : lg 2 / lg (fl (1 + g)) = Real.log 2 / Real.log (1 + g) * ((1 + a) / (1 + η)) := by
    rw [hl, hl2']
    field_simp
  have hT : 0 < Real.log 2 / Real.log (1 + g) := div_pos hl2 hl0
  have hq0 : 0 < lg 2 / lg (fl (1 + g)) := by
    rw [hq]
    exact mul_pos hT (div_pos (by linarith) hη0)
  have herr := h.err (lg 2 / lg (fl (1 + g)))
  rw [abs_of_pos hq0] at herr
  obtain ⟨δ, hδ, hf⟩ := exists_factor hq0 herr
  have d1 := abs_le.1 hδ
  refine ⟨fl (lg 2 / lg (fl (1 + g))), ?_, ?_, ?_⟩
  · unfold growthToDoublingFl
    rw [if_neg (not_le.2 hb), if_neg]
    rw [hl]
    exact (mul_pos hl0 hη0).ne'
  · rw [hf]
    exact mul_pos hq0 (by linarith)
  · rw [hf, hq]
    have e1 : Real.log 2 / Real.log (1 + g) * ((1 + a) / (1 + η)) * (1 + δ) - Real.log 2 / Real.log (1 + g) =
        ((1 + a) / (1 + η) * (1 + δ) - 1) * (Real.log 2 / Real.log (1 + g)) := by ring
    rw [e1, abs_mul, abs_of_pos hT]
    exact mul_le_mul_of_nonneg_right
      (quotient_bound (hu.trans_le huk).le hk he0 he ha hη (hδ.trans huk)) hT.le

/-- **C155**: faster growth never has a longer computed doubling time, if computed logarithms never decrease. -/
theorem C155_doubling_antitone (h : RoundsTo p fl) (hlg : ComputesLog e lg) (he0 : 0 ≤ e) (he : e ≤ 1 / 100)
    (hmono : ∀ x y, 0 < x → x ≤ y → lg x ≤ lg y) {g g' T T' : ℝ} (hg : 0 < g)
    (hk : ulp p * ((1 + g) / g) ≤ 1 / 100) (hgg : g ≤ g') (hT : growthToDoublingFl fl lg g = .ok T)
    (hT' : growthToDoublingFl fl lg g' = .ok T') : T' ≤ T := by
  obtain ⟨hb, η, hη, hl⟩ := log_one_add h hlg he0 hg hk
  have n1 := abs_le.1 hη
  have hl0 : 0 < Real.log (1 + g) := Real.log_pos (by linarith)
  have hpos : 0 < lg (fl (1 + g)) := by
    rw [hl]
    exact mul_pos hl0 (by linarith)
  have hbb : fl (1 + g) ≤ fl (1 + g') := h.mono (by linarith)
  have hll := hmono _ _ hb hbb
  have hl2 : 0 ≤ lg 2 := by
    have := (abs_le.1 (hlg 2 (by norm_num))).1
    have hl2 : 0 < Real.log 2 := Real.log_pos (by norm_num)
    rw [abs_of_pos hl2] at this
    nlinarith
  unfold growthToDoublingFl at hT hT'
  rw [if_neg (not_le.2 hb), if_neg hpos.ne'] at hT
  rw [if_neg (not_le.2 (hb.trans_le hbb)), if_neg (hpos.trans_le hll).ne'] at hT'
  rw [← Except.ok.inj hT, ← Except.ok.inj hT']
  exact h.mono (div_le_div_of_nonneg_left hl2 hpos hll)

theorem one_add_tiny (h : RoundsTo p fl) (hp : 1 ≤ p) {g : ℝ} (h0 : 0 ≤ g) (hg : g < ulp p / 2) : fl (1 + g) = 1 := by
  have e1 : ((2 ^ p : ℤ) : ℝ) * (2 : ℝ) ^ (-(p : ℤ)) = 1 := by
    push_cast
    rw [zpow_neg, zpow_natCast]
    exact mul_inv_cancel₀ (by positivity)
  have hlt : (2 : ℤ) ^ (p - 1) < 2 ^ p := pow_lt_pow_right₀ (by norm_num) (by omega)
  have := h.eq_of_close (x := 1 + g) (m := 2 ^ p) (e := -(p : ℤ)) hlt le_rfl hp (by
    rw [e1, add_sub_cancel_left, abs_of_nonneg h0, zpow_neg, zpow_natCast, ← one_div]
    exact hg)
  rw [this, e1]

/-- **C155** (it fails for tiny rates): a positive growth rate below `u / 2` (5.5e-17 for doubles) has a doubling time,
but the call raises `ZeroDivisionError`. -/
theorem C155_tiny_fails (h : RoundsTo p fl) (hp : 1 ≤ p) (hlg : ComputesLog e lg) {g : ℝ} (h0 : 0 < g)
    (hg : g < ulp p / 2) : growthToDoublingFl fl lg g = .error .zeroDivisionError ∧
      growthToDoubling g = .ok (Real.log 2 / Real.log (1 + g)) ∧ 0 < Real.log 2 / Real.log (1 + g) := by
  have hl0 : 0 < Real.log (1 + g) := Real.log_pos (by linarith)
  refine ⟨?_, ?_, div_pos (Real.log_pos (by norm_num)) hl0⟩
  · unfold growthToDoublingFl
    rw [one_add_tiny h hp h0.le hg, if_neg (by norm_num), if_pos]
    have := hlg 1 (by norm_num)
    rw [Real.log_one, abs_zero, mul_zero, sub_zero] at this
    exact abs_eq_zero.1 (le_antisymm this (abs_nonneg _))
  · unfold growthToDoubling
    rw [if_neg (by linarith), if_neg hl0.ne']

/-- **C155**: the growth rate of a doubling time `d > 0` is off by at most `c * 2 ^ (1 / d) + u * (2 ^ (1 / d) - 1)` with
`c = (1 + u) * ((1 + e) * 2 ^ ((u + e + u * e) / d) - 1)`. -/
theorem C155_growth_rate (h : RoundsTo p fl) (hlg : ComputesLog e lg) (hex : ComputesExp p e ex) (he0 : 0 ≤ e) {d : ℝ}
    (hd : 0 < d) : ∃ r, doublingToGrowthFl fl lg ex d = .ok r ∧
      |r - (2 ^ (1 / d) - 1)| ≤ (1 + ulp p) * ((1 + e) * 2 ^ ((ulp p + e + ulp p * e) / d) - 1) * 2 ^ (1 / d)
        + ulp p * (2 ^ (1 / d) - 1) := by
  have hu := ulp_pos (K := ℝ) p
  have hl2 : 0 < Real.log 2 := Real.log_pos (by norm_num)
  refine ⟨fl (ex (fl (lg 2 / d)) - 1), by unfold doublingToGrowthFl; rw [if_neg hd.ne'], ?_⟩
  set s := ulp p + e + ulp p * e with hs
  have h1 := hlg 2 (by norm_num)
  rw [abs_of_pos hl2] at h1
  -- the exponent
  have h2 : |lg 2 / d - Real.log 2 / d| ≤ e * (Real.log 2 / d) := by
    rw [← sub_div, abs_div, abs_of_pos hd, ← mul_div_assoc]
    exact div_le_div_of_nonneg_right h1 hd.le
  have hq : 0 < Real.log 2 / d := div_pos hl2 hd
  have h3 : |fl (lg 2 / d) - Real.log 2 / d| ≤ s * (Real.log 2 / d) := by
    have h4 := h.err (lg 2 / d)
    have h5 : |lg 2 / d| ≤ (1 + e) * (Real.log 2 / d) := by
      have h6 : lg 2 / d = (lg 2 / d - Real.log 2 / d) + Real.log 2 / d := by ring
      rw [h6]
      refine (abs_add_le _ _).trans ?_
      rw [abs_of_pos hq]
      linarith
    have h7 := mul_le_mul_of_nonneg_left h5 hu.le
    have h8 : fl (lg 2 / d) - Real.log 2 / d = (fl (lg 2 / d) - lg 2 / d) + (lg 2 / d - Real.log 2 / d) := by ring
    rw [h8]
    refine (abs_add_le _ _).trans ?_
    rw [hs]
    linarith
  have hY : Real.exp (Real.log 2 / d) = 2 ^ (1 / d) := by
    rw [Real.rpow_def_of_pos (by norm_num)]
    congr 1
    ring
  have hS : Real.exp (s * (Real.log 2 / d)) = 2 ^ (s / d) := by
    rw [Real.rpow_def_of_pos (by norm_num)]
    congr 1
    ring
  have h9 := rel_exp h3
  rw [hY, hS] at h9
  have h10 := rel_trans h9 (z := ex (fl (lg 2 / d))) (d := 1 + e) (by simpa using (hex (fl (lg 2 / d))).1) (by linarith)
  rw [mul_comm ((2 : ℝ) ^ (s / d))] at h10
  set y := ex (fl (lg 2 / d))
  set Y : ℝ := 2 ^ (1 / d)
  set c := (1 + e) * (2 : ℝ) ^ (s / d) - 1
  have hY1 : 1 ≤ Y := Real.one_le_rpow (by norm_num) (by positivity)
  have h11 := h.err (y - 1)
  have h12 : |y - 1| ≤ c * Y + (Y - 1) := by
    have : y - 1 = (y - Y) + (Y - 1) := by ring
    rw [this]
    refine (abs_add_le _ _).trans ?_
    rw [abs_of_nonneg (by linarith : 0 ≤ Y - 1)]
    linarith
  have h13 := mul_le_mul_of_nonneg_left h12 hu.le
  have h14 : fl (y - 1) - (Y - 1) = (fl (y - 1) - (y - 1)) + (y - Y) := by ring
  rw [h14]
  refine (abs_add_le _ _).trans ?_
  linarith

/-- **C155** (it fails for long times): a doubling time above `4 / u` (3.6e16 for doubles) has a positive growth rate, but
the call returns 0, if exponentials are rounded correctly. -/
theorem C155_long_fails (h : RoundsTo p fl) (hp : 1 ≤ p) (hlg : ComputesLog e lg) (he : e ≤ 1 / 100)
    (hex : ∀ x, ex x = fl (Real.exp x)) {d : ℝ} (hd : 4 / ulp p ≤ d) :
    doublingToGrowthFl fl lg ex d = .ok 0 ∧ ∃ r, doublingToGrowth d = .ok r ∧ 0 < r := by
  have hu := ulp_pos (K := ℝ) p
  have hu2 := ulp_le_half (K := ℝ) hp
  have hd0 : 0 < d := (div_pos (by norm_num) hu).trans_le hd
  have hl2 : 0 < Real.log 2 := Real.log_pos (by norm_num)
  have hl2' := Real.log_two_lt_d9
  constructor
  · unfold doublingToGrowthFl
    rw [if_neg hd0.ne']
    have h1 := hlg 2 (by norm_num)
    rw [abs_of_pos hl2] at h1
    have hb := abs_le.1 h1
    have hlo : 0 ≤ lg 2 := by nlinarith
    have hhi : lg 2 ≤ 71 / 100 := by nlinarith
    have hq : lg 2 / d ≤ 71 / 400 * ulp p := by
      rw [div_le_iff₀ hd0]
      have : 4 ≤ d * ulp p := by rwa [div_le_iff₀ hu] at hd
      nlinarith
    have hq0 : 0 ≤ lg 2 / d := div_nonneg hlo hd0.le
    have hf0 := h.nonneg hq0
    have hf1 := h.le_mul hq0
    set x := fl (lg 2 / d)
    have hx : x ≤ 3 / 10 * ulp p := by nlinarith
    have hexp : Real.exp x - 1 < ulp p / 2 := by
      have h2 := Real.add_one_le_exp (-x)
      rw [Real.exp_neg] at h2
      have hp' := Real.exp_pos x
      have h3 : Real.exp x * (1 - x) ≤ 1 := by
        calc Real.exp x * (1 - x) ≤ Real.exp x * (Real.exp x)⁻¹ :=
              mul_le_mul_of_nonneg_left (by linarith) hp'.le
          _ = 1 := mul_inv_cancel₀ hp'.ne'
      by_contra hc
      push Not at hc
      nlinarith
    have hge : 0 ≤ Real.exp x - 1 := by
      have := Real.add_one_le_exp x
      linarith
    have h4 := one_add_tiny h hp hge hexp
    rw [show 1 + (Real.exp x - 1) = Real.exp x by ring] at h4
    rw [hex, h4, sub_self, h.exact (isFloat_zero p)]
  · refine ⟨_, by unfold doublingToGrowth; rw [if_neg hd0.ne'], ?_⟩
    have := Real.add_one_lt_exp (div_pos hl2 hd0).ne'
    have := div_pos hl2 hd0
    linarith

/-! ### `extremize` -/

/-- The distance of a float between 1/2 and 1 from 1 is a float. -/
theorem one_sub_float {q : ℝ} (hq : IsFloat p q) (h1 : 1 / 2 < q) (h2 : q < 1) : IsFloat p (1 - q) := by
  obtain ⟨m, k, hm, rfl⟩ := hq
  have h2k : (0 : ℝ) < 2 ^ k := by positivity
  have hm0 : 0 < m := by
    by_contra hc
    push Not at hc
    have : (m : ℝ) ≤ 0 := by exact_mod_cast hc
    nlinarith
  have hk : k < 0 := by
    by_contra hc
    push Not at hc
    have h3 : (1 : ℝ) ≤ 2 ^ k := one_le_zpow₀ (by norm_num) hc
    have h4 : (1 : ℝ) ≤ m := by exact_mod_cast hm0
    nlinarith
  obtain ⟨j, hj⟩ : ∃ j : ℕ, -k = j := ⟨(-k).toNat, by omega⟩
  have hkj : k = -(j : ℤ) := by omega
  have hpow : (2 : ℝ) ^ k * 2 ^ j = 1 := by
    rw [hkj, zpow_neg, zpow_natCast]
    exact inv_mul_cancel₀ (by positivity)
  have hj0 : (0 : ℝ) < 2 ^ j := by positivity
  refine ⟨2 ^ j - m, k, ?_, ?_⟩
  · have e1 : (m : ℝ) < 2 ^ j := by
      have := mul_lt_mul_of_pos_right h2 hj0
      rw [mul_assoc, hpow] at this
      linarith
    have e2 : (2 : ℝ) ^ j < 2 * m := by
      have := mul_lt_mul_of_pos_right h1 hj0
      rw [mul_assoc, hpow] at this
      linarith
    have e1' : m < 2 ^ j := by exact_mod_cast e1
    have e2' : (2 : ℤ) ^ j < 2 * m := by exact_mod_cast e2
    rw [abs_of_pos hm0] at hm
    rw [abs_of_pos (by omega)]
    omega
  · push_cast
    rw [sub_mul, mul_comm ((2 : ℝ) ^ j), hpow]

/-- **C155**: the extremized prediction.  Up to 1/2 it is `q ^ a` with a relative error of at most `e`; above, the
difference to 1 is exact, and the outcome is `1 - (1 - q) ^ a` up to `u` times itself and `(1 + u) * e * (1 - q) ^ a`. -/
theorem C155_extremize (h : RoundsTo p fl) (hpw : ComputesPow p e pw) {q a : ℝ} (ha : 0 < a)
    (hq : IsFloat p q) (h0 : 0 < q) (h1 : q < 1) :
    ∃ r, extremizeFl fl pw q a = .ok r ∧
      (q ≤ 1 / 2 → |r - q ^ a| ≤ e * q ^ a) ∧
      (1 / 2 < q → |r - (1 - (1 - q) ^ a)| ≤ ulp p * (1 - (1 - q) ^ a) + (1 + ulp p) * e * (1 - q) ^ a) := by
  have hu := ulp_pos (K := ℝ) p
  unfold extremizeFl
  rw [if_neg (by push Not; exact ⟨h0, h1⟩)]
  by_cases hh : 1 / 2 < q
  · rw [if_pos hh]
    refine ⟨_, rfl, fun hc => absurd hh (not_lt.2 hc), fun _ => ?_⟩
    rw [h.exact (one_sub_float hq hh h1)]
    have h2 := (hpw (1 - q) a (by linarith)).1
    have h3 := h.err (1 - pw (1 - q) a)
    have h4 : (1 - q) ^ a < 1 := Real.rpow_lt_one (by linarith) (by linarith) ha
    set P := (1 - q) ^ a
    set s := pw (1 - q) a
    have h5 : |1 - s| ≤ (1 - P) + e * P := by
      have : 1 - s = (1 - P) + (P - s) := by ring
      rw [this]
      refine (abs_add_le _ _).trans ?_
      rw [abs_of_pos (by linarith : 0 < 1 - P), abs_sub_comm P]
      linarith
    have h6 := mul_le_mul_of_nonneg_left h5 hu.le
    have h7 : fl (1 - s) - (1 - P) = (fl (1 - s) - (1 - s)) + (P - s) := by ring
    rw [h7]
    refine (abs_add_le _ _).trans ?_
    rw [abs_sub_comm P]
    linarith
  · rw [if_neg hh]
    exact ⟨_, rfl, fun _ => (hpw q a h0).1, fun hc => absurd hc hh⟩

/-- **C155**: if computed powers are rounded correctly, the extremized prediction is a probability, and for an exponent of
at least 1 it is as far from 1/2 as the prediction or farther, on the same side. -/
theorem C155_extremize_side (h : RoundsTo p fl) (hpw : ∀ x y, pw x y = fl (x ^ y)) {q a r : ℝ} (ha : 1 ≤ a)
    (hq : IsFloat p q) (hr : extremizeFl fl pw q a = .ok r) :
    0 ≤ r ∧ r ≤ 1 ∧ (q ≤ 1 / 2 → r ≤ q) ∧ (1 / 2 < q → q ≤ r) := by
  unfold extremizeFl at hr
  split_ifs at hr with h1 h2
  · push Not at h1
    have hf := one_sub_float hq h2 h1.2
    rw [h.exact hf, hpw] at hr
    have h3 : (1 - q) ^ a ≤ 1 - q := by
      have := Real.rpow_le_rpow_of_exponent_ge (by linarith : 0 < 1 - q) (by linarith) ha
      rwa [Real.rpow_one] at this
    have h4 : fl ((1 - q) ^ a) ≤ 1 - q := h.le_of_le hf h3
    have h5 : 0 ≤ fl ((1 - q) ^ a) := h.nonneg (Real.rpow_nonneg (by linarith) _)
    have h6 : q ≤ fl (1 - fl ((1 - q) ^ a)) := h.le_of_ge hq (by linarith)
    have h7 : fl (1 - fl ((1 - q) ^ a)) ≤ 1 := h.le_of_le (isFloat_one p) (by linarith)
    rw [← Except.ok.inj hr]
    exact ⟨by linarith, h7, fun hc => absurd h2 (not_lt.2 hc), fun _ => h6⟩
  · push Not at h1
    rw [hpw] at hr
    have h3 : q ^ a ≤ q := by
      have := Real.rpow_le_rpow_of_exponent_ge h1.1 h1.2.le ha
      rwa [Real.rpow_one] at this
    have h4 := h.le_of_le hq h3
    have h5 : 0 ≤ fl (q ^ a) := h.nonneg (Real.rpow_nonneg h1.1.le _)
    rw [← Except.ok.inj hr]
    exact ⟨h5, by linarith [h1.2], fun _ => h4, fun hc => absurd hc h2⟩

/-! ### Examples -/

/-- 5% growth with doubles: 14.2 years up to a relative error of 1e-14. -/
example : ∃ T, growthToDoublingFl (roundBits 53) (fun x => roundBits 53 (Real.log x)) (5 / 100) = .ok T ∧ 0 < T ∧
    |T - Real.log 2 / Real.log (1 + 5 / 100)| ≤ 1 / 10 ^ 14 * (Real.log 2 / Real.log (1 + 5 / 100)) := by
  obtain ⟨T, h1, h2, h3⟩ := C155_doubling_time (fl := roundBits 53) (p := 53) (roundBits_roundsTo (by norm_num))
    (e := ulp 53) (rounded_log (by norm_num)) (by unfold ulp; positivity) (by unfold ulp; norm_num) (g := 5 / 100)
    (by norm_num) (by unfold ulp; norm_num)
  refine ⟨T, h1, h2, h3.trans (mul_le_mul_of_nonneg_right (by unfold ulp; norm_num) ?_)⟩
  exact div_nonneg (Real.log_nonneg (by norm_num)) (Real.log_nonneg (by norm_num))

/-- A growth rate of 1e-17. -/
example : growthToDoublingFl (roundBits 53) (fun x => roundBits 53 (Real.log x)) (1 / 10 ^ 17) = .error .zeroDivisionError :=
  (C155_tiny_fails (roundBits_roundsTo (by norm_num)) (by norm_num) (rounded_log (by norm_num)) (by positivity)
    (by unfold ulp; norm_num)).1

/-- A doubling time of 1e17. -/
example : doublingToGrowthFl (roundBits 53) (fun x => roundBits 53 (Real.log x)) (fun x => roundBits 53 (Real.exp x))
    (10 ^ 17) = .ok 0 :=
  (C155_long_fails (roundBits_roundsTo (by norm_num)) (by norm_num) (rounded_log (q := 53) (by norm_num))
    (by unfold ulp; norm_num) (fun _ => rfl) (by unfold ulp; norm_num)).1

/-- Extremizing 3/4, a float. -/
example : ∃ r, extremizeFl (roundBits 53) (fun x y => roundBits 53 (x ^ y)) (3 / 4) (173 / 100) = .ok r ∧ 3 / 4 ≤ r ∧
    r ≤ 1 := by
  have hq : IsFloat 53 (3 / 4 : ℝ) := ⟨3, -2, by norm_num, by norm_num⟩
  have hpw : ComputesPow 53 (ulp 53) fun x y => roundBits 53 (x ^ y) := fun x y hx => by
    refine ⟨?_, roundBits_float _⟩
    have := (roundBits_roundsTo (K := ℝ) (p := 53) (by norm_num)).err (x ^ y)
    rwa [abs_of_pos (Real.rpow_pos_of_pos hx y)] at this
  obtain ⟨r, h1, -, -⟩ := C155_extremize (fl := roundBits 53) (p := 53) (roundBits_roundsTo (by norm_num))
    hpw (q := 3 / 4) (a := 173 / 100) (by norm_num) hq (by norm_num) (by norm_num)
  obtain ⟨-, h3, -, h5⟩ := C155_extremize_side (roundBits_roundsTo (by norm_num)) (fun _ _ => rfl)
    (by norm_num) hq h1
  exact ⟨r, h1, h5 (by norm_num), h3⟩

end Verif
