import Verif.Model.RoundedLognorm
import Verif.Props.RoundedGrowth
import Verif.Props.RoundedDists

/-!
# Lognormal parameters in floating-point arithmetic (C157)

`fl` is any correct rounding to `p` binary digits, with the rounding unit `u = ulp p = 2 ^ -p`; logarithms are computed
with a relative error of at most `e`.
-/

namespace Verif

variable {p : ℕ} {fl lg : ℝ → ℝ} {e : ℝ}

/-! ## Relative errors -/

theorem rel_round (h : RoundsTo p fl) {a x c : ℝ} (ha : 0 < a) (hx : |x - a| ≤ c * a) :
    |fl x - a| ≤ (c + ulp p + c * ulp p) * a := by
  have hu := ulp_pos (K := ℝ) p
  have h1 := h.err x
  have h2 : |x| ≤ (1 + c) * a := by
    have : x = (x - a) + a := by ring
    rw [this]
    refine (abs_add_le _ _).trans ?_
    rw [abs_of_pos ha]
    linarith
  have h3 : fl x - a = (fl x - x) + (x - a) := by ring
  rw [h3]
  refine (abs_add_le _ _).trans ?_
  have := mul_le_mul_of_nonneg_left h2 hu.le
  nlinarith

theorem rel_add {a b x y c : ℝ} (hx : |x - a| ≤ c * a) (hy : |y - b| ≤ c * b) :
    |x + y - (a + b)| ≤ c * (a + b) := by
  have : x + y - (a + b) = (x - a) + (y - b) := by ring
  rw [this]
  refine (abs_add_le _ _).trans ?_
  linarith

theorem rel_div {a b x y c d r : ℝ} (ha : 0 < a) (hb : 0 < b) (hd : d < 1)
    (hx : |x - a| ≤ c * a) (hy : |y - b| ≤ d * b) (hr : c + d ≤ r * (1 - d)) :
    |x / y - a / b| ≤ r * (a / b) := by
  have hyb := abs_le.1 hy
  have hy0 : 0 < y := by nlinarith
  have e1 : x / y - a / b = (x * b - a * y) / (y * b) := by
    field_simp
  rw [e1, abs_div, abs_of_pos (mul_pos hy0 hb), div_le_iff₀ (mul_pos hy0 hb)]
  have e2 : x * b - a * y = (x - a) * b - a * (y - b) := by ring
  have e3 : r * (a / b) * (y * b) = r * a * y := by
    field_simp
  rw [e2, e3]
  refine (abs_sub _ _).trans ?_
  rw [abs_mul, abs_mul, abs_of_pos ha, abs_of_pos hb]
  have h1 := mul_le_mul_of_nonneg_right hx hb.le
  have h2 := mul_le_mul_of_nonneg_left hy ha.le
  have hr0 : 0 ≤ r := by
    have hc : 0 ≤ c := by
      by_contra hc
      push Not at hc
      have := (abs_nonneg _).trans hx
      nlinarith
    have hd0 : 0 ≤ d := by
      by_contra hc
      push Not at hc
      have := (abs_nonneg _).trans hy
      nlinarith
    by_contra hc'
    push Not at hc'
    nlinarith
  have h3 : r * a * ((1 - d) * b) ≤ r * a * y :=
    mul_le_mul_of_nonneg_left (by linarith) (mul_nonneg hr0 ha.le)
  have h4 := mul_le_mul_of_nonneg_right hr (mul_pos ha hb).le
  nlinarith

theorem rel_sqrt {a x c : ℝ} (ha : 0 < a) (hx0 : 0 ≤ x) (hx : |x - a| ≤ c * a) :
    |Real.sqrt x - Real.sqrt a| ≤ c * Real.sqrt a := by
  have hs : 0 < Real.sqrt a := Real.sqrt_pos.2 ha
  have hsx := Real.sqrt_nonneg x
  have e1 : x - a = (Real.sqrt x - Real.sqrt a) * (Real.sqrt x + Real.sqrt a) := by
    have h1 := Real.mul_self_sqrt hx0
    have h2 := Real.mul_self_sqrt ha.le
    nlinarith
  rw [e1, abs_mul, abs_of_pos (by linarith : 0 < Real.sqrt x + Real.sqrt a)] at hx
  have h2 := Real.mul_self_sqrt ha.le
  have h3 : |Real.sqrt x - Real.sqrt a| * Real.sqrt a ≤ c * Real.sqrt a * Real.sqrt a := by
    have := mul_nonneg (abs_nonneg (Real.sqrt x - Real.sqrt a)) hsx
    rw [mul_assoc, h2]
    linarith
  exact le_of_mul_le_mul_right h3 hs

theorem rel_log {a x c : ℝ} (ha : 0 < a) (hc : c ≤ 1 / 2) (hx : |x - a| ≤ c * a) :
    0 < x ∧ |Real.log x - Real.log a| ≤ 2 * c := by
  obtain ⟨t, ht, rfl⟩ := exists_factor ha hx
  have htb := abs_le.1 ht
  refine ⟨mul_pos ha (by linarith), ?_⟩
  rw [Real.log_mul ha.ne' (by linarith), add_sub_cancel_left]
  exact log_near_one ht hc

/-! ## `lognorm(x, y)` -/

/-- The distance of the ends in the logarithm. -/
theorem lognorm_ends (h : RoundsTo p fl) (hp : 6 ≤ p) (hlg : ComputesLog e lg) (he0 : 0 ≤ e) (he : e ≤ 1 / 100)
    {x y z L : ℝ} (hx : 0 < x) (hxy : x ≤ y) (hz : 0 < z) (hLx : |Real.log x| ≤ L) (hLy : |Real.log y| ≤ L) :
    ∃ m s, lognormFl fl lg x y z = .ok (m, s) ∧ |m + z * s - Real.log y| ≤ (e + 3 * ulp p) * L ∧
      |m - z * s - Real.log x| ≤ (e + 5 * ulp p) * L := by
  have hu := ulp_le_64 (K := ℝ) hp
  have hu0 := ulp_pos (K := ℝ) p
  have hL : 0 ≤ L := (abs_nonneg _).trans hLx
  have hhalf : fl (fl (lg x + lg y) / 2) = fl (lg x + lg y) / 2 := by
    have := isFloat_mul_zpow (h.float (lg x + lg y)) (-1)
    rw [zpow_neg_one, ← div_eq_mul_inv] at this
    exact h.exact this
  have bound : ∀ v, 0 < v → |Real.log v| ≤ L → |lg v - Real.log v| ≤ e * L ∧ |lg v| ≤ (1 + e) * L := by
    intro v hv hl
    have h1 := (hlg v hv).trans (mul_le_mul_of_nonneg_left hl he0)
    refine ⟨h1, ?_⟩
    have : lg v = (lg v - Real.log v) + Real.log v := by ring
    rw [this]
    refine (abs_add_le _ _).trans ?_
    linarith
  obtain ⟨ex, bx⟩ := bound x hx hLx
  obtain ⟨ey, by'⟩ := bound y (hx.trans_le hxy) hLy
  set X := lg x with hX
  set Y := lg y with hY
  set m := fl (X + Y) / 2 with hm
  obtain ⟨a, ha, ea⟩ := h.near (Y - m)
  obtain ⟨b, hb, eb⟩ := h.near (fl (Y - m) / z)
  have hzs : z * fl (fl (Y - m) / z) = (Y - m) * (a * b) := by
    rw [eb, ea]
    field_simp
  have hab := near_two hu0 hu ha hb
  have hsum : |X + Y| ≤ 2 * ((1 + e) * L) := (abs_add_le _ _).trans (by linarith)
  have hdif : |Y - X| ≤ 2 * ((1 + e) * L) := (abs_sub _ _).trans (by linarith)
  have hmerr : |2 * m - (X + Y)| ≤ 2 * ulp p * ((1 + e) * L) := by
    have h1 := h.err (X + Y)
    have h2 := mul_le_mul_of_nonneg_left hsum hu0.le
    have : 2 * m = fl (X + Y) := by rw [hm]; ring
    rw [this]
    linarith
  have hYm : |Y - m| ≤ (1 + ulp p) * ((1 + e) * L) := by
    have e1 : Y - m = (Y - X) / 2 - (2 * m - (X + Y)) / 2 := by ring
    rw [e1]
    refine (abs_sub _ _).trans ?_
    rw [abs_div, abs_div, abs_of_pos (by norm_num : (0 : ℝ) < 2)]
    linarith
  have hBL : (1 + e) * L ≤ 101 / 100 * L := mul_le_mul_of_nonneg_right (by linarith) hL
  have hB0 : 0 ≤ (1 + e) * L := mul_nonneg (by linarith) hL
  have huL : 0 ≤ ulp p * L := mul_nonneg hu0.le hL
  have huB : ulp p * ((1 + e) * L) ≤ 101 / 100 * (ulp p * L) := by
    have := mul_le_mul_of_nonneg_left hBL hu0.le
    linarith
  have hcore : |m + z * fl (fl (Y - m) / z) - Y| ≤ 13 / 5 * (ulp p * L) := by
    have e1 : m + z * fl (fl (Y - m) / z) - Y = (Y - m) * (a * b - 1) := by
      rw [hzs]
      ring
    rw [e1, abs_mul]
    have h1 : |Y - m| * |a * b - 1| ≤ (1 + ulp p) * ((1 + e) * L) * (5 / 2 * ulp p) :=
      mul_le_mul hYm hab (abs_nonneg _) (mul_nonneg (by linarith) hB0)
    refine h1.trans ?_
    have h2 : (1 + ulp p) * (ulp p * ((1 + e) * L)) ≤ 65 / 64 * (101 / 100 * (ulp p * L)) :=
      mul_le_mul (by linarith) huB (mul_nonneg hu0.le hB0) (by norm_num)
    have e2 : (1 + ulp p) * ((1 + e) * L) * (5 / 2 * ulp p) = 5 / 2 * ((1 + ulp p) * (ulp p * ((1 + e) * L))) := by ring
    rw [e2]
    linarith
  refine ⟨m, fl (fl (Y - m) / z), ?_, ?_, ?_⟩
  · unfold lognormFl
    rw [if_neg (not_lt.2 hxy), if_neg (not_le.2 hx)]
    simp only [← hX, ← hY, hhalf, ← hm]
  · have e1 : m + z * fl (fl (Y - m) / z) - Real.log y = (m + z * fl (fl (Y - m) / z) - Y) + (Y - Real.log y) := by ring
    rw [e1]
    refine (abs_add_le _ _).trans ?_
    nlinarith
  · have e1 : m - z * fl (fl (Y - m) / z) - Real.log x =
        ((2 * m - (X + Y)) - (m + z * fl (fl (Y - m) / z) - Y)) + (X - Real.log x) := by ring
    rw [e1]
    refine (abs_add_le _ _).trans ?_
    have := abs_sub (2 * m - (X + Y)) (m + z * fl (fl (Y - m) / z) - Y)
    nlinarith

/-- Close logarithms. -/
theorem exp_close {l y c : ℝ} (hy : 0 < y) (hl : |l - Real.log y| ≤ c) :
    |Real.exp l - y| ≤ (Real.exp c - 1) * y := by
  have hb := abs_le.1 hl
  have e1 : Real.exp l = Real.exp (l - Real.log y) * y := by
    conv_rhs => rw [← Real.exp_log hy]
    rw [Real.log_exp, ← Real.exp_add]
    ring_nf
  have h1 : Real.exp (l - Real.log y) ≤ Real.exp c := Real.exp_le_exp.2 hb.2
  have h2 : Real.exp (-c) ≤ Real.exp (l - Real.log y) := Real.exp_le_exp.2 hb.1
  have h3 : 1 - Real.exp (-c) ≤ Real.exp c - 1 := by
    have h4 : 2 ≤ Real.exp c + Real.exp (-c) := by
      have := Real.add_one_le_exp c
      have := Real.add_one_le_exp (-c)
      linarith
    linarith
  rw [e1, abs_le]
  constructor <;> nlinarith

/-- **C157**: in floating-point arithmetic the credible interval of `lognorm(x, y)`, from `exp(mean - z sd)` to
`exp(mean + z sd)`, has the ends `x` and `y` up to a relative error of about `(e + 5u) * L`, where `L` bounds the
logarithms of `x` and `y`. -/
theorem C157_interval (h : RoundsTo p fl) (hp : 6 ≤ p) (hlg : ComputesLog e lg) (he0 : 0 ≤ e) (he : e ≤ 1 / 100)
    {x y z L : ℝ} (hx : 0 < x) (hxy : x ≤ y) (hz : 0 < z) (hLx : |Real.log x| ≤ L) (hLy : |Real.log y| ≤ L) :
    ∃ m s, lognormFl fl lg x y z = .ok (m, s) ∧
      |Real.exp (m + z * s) - y| ≤ (Real.exp ((e + 3 * ulp p) * L) - 1) * y ∧
      |Real.exp (m - z * s) - x| ≤ (Real.exp ((e + 5 * ulp p) * L) - 1) * x := by
  obtain ⟨m, s, h1, h2, h3⟩ := lognorm_ends h hp hlg he0 he hx hxy hz hLx hLy
  exact ⟨m, s, h1, exp_close (hx.trans_le hxy) h2, exp_close hx h3⟩

/-- **C157**: with doubles and logarithms that are right to 52 bits, for all `x ≤ y` between `1e-300` and `1e300`: both
ends come out with a relative error below `1e-12`. -/
theorem C157_practice (h : RoundsTo 53 fl) (hlg : ComputesLog (1 / 2 ^ 52) lg) {x y z : ℝ} (hx : 1 / 10 ^ 300 ≤ x)
    (hxy : x ≤ y) (hy : y ≤ 10 ^ 300) (hz : 0 < z) :
    ∃ m s, lognormFl fl lg x y z = .ok (m, s) ∧ |Real.exp (m + z * s) - y| ≤ 1 / 10 ^ 12 * y ∧
      |Real.exp (m - z * s) - x| ≤ 1 / 10 ^ 12 * x := by
  have hx0 : 0 < x := lt_of_lt_of_le (by positivity) hx
  have hlog10 : Real.log 10 ≤ 5 / 2 := by
    rw [Real.log_le_iff_le_exp (by norm_num)]
    have h2 : (4 / 3 : ℝ) ≤ Real.exp (1 / 3) := by
      have := Real.add_one_le_exp (1 / 3 : ℝ)
      linarith
    have h1 := Real.exp_one_gt_d9
    have e1 : Real.exp (5 / 2) = Real.exp 1 * Real.exp 1 * Real.exp (1 / 2) := by
      rw [← Real.exp_add, ← Real.exp_add]
      norm_num
    have h3 : (3 / 2 : ℝ) ≤ Real.exp (1 / 2) := by
      have := Real.add_one_le_exp (1 / 2 : ℝ)
      linarith
    rw [e1]
    nlinarith
  have hL : ∀ v : ℝ, 1 / 10 ^ 300 ≤ v → v ≤ 10 ^ 300 → |Real.log v| ≤ 750 := by
    intro v h1 h2
    have hv : 0 < v := lt_of_lt_of_le (by positivity) h1
    have a1 := Real.log_le_log hv h2
    have a2 := Real.log_le_log (by positivity) h1
    rw [Real.log_pow] at a1
    rw [one_div, Real.log_inv, Real.log_pow] at a2
    push_cast at a1 a2
    rw [abs_le]
    constructor <;> linarith
  obtain ⟨m, s, h1, h2, h3⟩ := C157_interval h (by norm_num) hlg (by positivity) (by norm_num) hx0 hxy hz
    (hL x hx (hxy.trans hy)) (hL y (hx.trans hxy) hy)
  have hexp : ∀ t : ℝ, 0 ≤ t → t ≤ 9 / 10 ^ 13 → Real.exp t - 1 ≤ 1 / 10 ^ 12 := by
    intro t ht0 ht
    have a2 : Real.exp t ≤ 1 / (1 - t) := by
      have := Real.one_sub_le_exp_neg t
      rw [le_div_iff₀ (by linarith), ]
      have h4 : Real.exp t * Real.exp (-t) = 1 := by rw [← Real.exp_add]; simp
      have := mul_le_mul_of_nonneg_left this (Real.exp_pos t).le
      linarith
    have a3 : 1 / (1 - t) ≤ 1 + 1 / 10 ^ 12 := by
      rw [div_le_iff₀ (by linarith)]
      nlinarith
    linarith
  refine ⟨m, s, h1, h2.trans (mul_le_mul_of_nonneg_right (hexp _ ?_ ?_) (hx0.trans_le hxy).le),
    h3.trans (mul_le_mul_of_nonneg_right (hexp _ ?_ ?_) hx0.le)⟩ <;> unfold ulp <;> norm_num

/-- **C157**: the standard deviation is not negative, if computed logarithms are floats and never decrease. -/
theorem C157_sd_nonneg (h : RoundsTo p fl) (hf : ∀ v, 0 < v → IsFloat p (lg v))
    (hmono : ∀ v w, 0 < v → v ≤ w → lg v ≤ lg w) {x y z m s : ℝ} (hz : 0 < z)
    (hr : lognormFl fl lg x y z = .ok (m, s)) : lg x ≤ m ∧ m ≤ lg y ∧ 0 ≤ s := by
  unfold lognormFl at hr
  split_ifs at hr with h1 h2
  push Not at h1 h2
  have hhalf : fl (fl (lg x + lg y) / 2) = fl (lg x + lg y) / 2 := by
    have := isFloat_mul_zpow (h.float (lg x + lg y)) (-1)
    rw [zpow_neg_one, ← div_eq_mul_inv] at this
    exact h.exact this
  simp only [hhalf, Except.ok.injEq, Prod.mk.injEq] at hr
  have hle := hmono x y h2 h1
  have hx2 : IsFloat p (lg x * 2) := by simpa using isFloat_mul_zpow (hf x h2) 1
  have hy2 : IsFloat p (lg y * 2) := by simpa using isFloat_mul_zpow (hf y (h2.trans_le h1)) 1
  have a1 := h.le_of_ge hx2 (show lg x * 2 ≤ lg x + lg y by linarith)
  have a2 := h.le_of_le hy2 (show lg x + lg y ≤ lg y * 2 by linarith)
  obtain ⟨rfl, rfl⟩ := hr
  refine ⟨by linarith, by linarith, h.nonneg (div_nonneg (h.nonneg (by linarith)) hz.le)⟩

/-- **C157**: it is positive when `y` is not too close to `x`.  (Missing: values that are closer; then it may be 0 or,
with logarithms that are not monotone, negative.) -/
theorem C157_sd_positive_partial (h : RoundsTo p fl) (hp : 6 ≤ p) (hlg : ComputesLog e lg) (he0 : 0 ≤ e)
    (he : e ≤ 1 / 100) {x y z L : ℝ} (hx : 0 < x) (hxy : x ≤ y) (hz : 0 < z) (hLx : |Real.log x| ≤ L)
    (hLy : |Real.log y| ≤ L) (hgap : (2 * e + 3 * ulp p) * L < Real.log y - Real.log x) :
    ∃ m s, lognormFl fl lg x y z = .ok (m, s) ∧ 0 < s := by
  have hu0 := ulp_pos (K := ℝ) p
  have hL : 0 ≤ L := (abs_nonneg _).trans hLx
  have hhalf : fl (fl (lg x + lg y) / 2) = fl (lg x + lg y) / 2 := by
    have := isFloat_mul_zpow (h.float (lg x + lg y)) (-1)
    rw [zpow_neg_one, ← div_eq_mul_inv] at this
    exact h.exact this
  have ex := (hlg x hx).trans (mul_le_mul_of_nonneg_left hLx he0)
  have ey := (hlg y (hx.trans_le hxy)).trans (mul_le_mul_of_nonneg_left hLy he0)
  have bx := abs_le.1 ex
  have by' := abs_le.1 ey
  have cx := abs_le.1 hLx
  have cy := abs_le.1 hLy
  have hsum : |lg x + lg y| ≤ 2 * ((1 + e) * L) := by
    rw [abs_le]
    constructor <;> linarith
  have h1 := abs_le.1 (h.err (lg x + lg y))
  have h2 := mul_le_mul_of_nonneg_left hsum hu0.le
  have h3 : ulp p * ((1 + e) * L) ≤ 101 / 100 * (ulp p * L) := by
    have := mul_le_mul_of_nonneg_left (mul_le_mul_of_nonneg_right (by linarith : 1 + e ≤ 101 / 100) hL) hu0.le
    linarith
  have huL : 0 ≤ ulp p * L := mul_nonneg hu0.le hL
  refine ⟨fl (lg x + lg y) / 2, fl (fl (lg y - fl (lg x + lg y) / 2) / z), ?_, ?_⟩
  · unfold lognormFl
    rw [if_neg (not_lt.2 hxy), if_neg (not_le.2 hx)]
    simp only [hhalf]
  · refine h.pos (by omega) (div_pos (h.pos (by omega) ?_) hz)
    nlinarith

/-! ## `lognorm(lognorm_mean=m, lognorm_sd=s)` -/

theorem rel_square (h : RoundsTo p fl) (v : ℝ) : |fl (v * v) - v ^ 2| ≤ ulp p * v ^ 2 := by
  have := h.err (v * v)
  rw [abs_of_nonneg (mul_self_nonneg v), ← sq] at this
  rwa [sq v] at this ⊢

/-- **C157**: `norm_mean` is the logarithm of `m ^ 2 / sqrt (s ^ 2 + m ^ 2)` up to a few roundings. -/
theorem C157_mean (h : RoundsTo p fl) (hp : 6 ≤ p) (hlg : ComputesLog e lg) (he0 : 0 ≤ e) (he : e ≤ 1 / 100)
    {m s : ℝ} (hm : 0 < m) :
    |lognormMeanFl fl lg m s - Real.log (m ^ 2 / Real.sqrt (s ^ 2 + m ^ 2))| ≤
      13 * ulp p + e * |Real.log (m ^ 2 / Real.sqrt (s ^ 2 + m ^ 2))| := by
  have hu := ulp_le_64 (K := ℝ) hp
  have hu0 := ulp_pos (K := ℝ) p
  have hm2 : 0 < m ^ 2 := by positivity
  have hV : 0 < s ^ 2 + m ^ 2 := by positivity
  have r1 := rel_round h hV (rel_add (rel_square h s) (rel_square h m))
  have hsum0 : 0 ≤ fl (fl (s * s) + fl (m * m)) :=
    h.nonneg (add_nonneg (h.nonneg (mul_self_nonneg s)) (h.nonneg (mul_self_nonneg m)))
  have hS : 0 < Real.sqrt (s ^ 2 + m ^ 2) := Real.sqrt_pos.2 hV
  have r2 := rel_round h hS (rel_sqrt hV hsum0 r1)
  have r3 : |fl (Real.sqrt (fl (fl (s * s) + fl (m * m)))) - Real.sqrt (s ^ 2 + m ^ 2)| ≤
      16 / 5 * ulp p * Real.sqrt (s ^ 2 + m ^ 2) :=
    r2.trans (mul_le_mul_of_nonneg_right (by nlinarith) hS.le)
  have r4 := rel_round h (div_pos hm2 hS) (rel_div (r := 9 / 2 * ulp p) hm2 hS (by linarith) (rel_square h m) r3
    (by nlinarith))
  have hA : 0 < m ^ 2 / Real.sqrt (s ^ 2 + m ^ 2) := div_pos hm2 hS
  set A := m ^ 2 / Real.sqrt (s ^ 2 + m ^ 2) with hAd
  have r5 := rel_log (c := 6 * ulp p) hA (by linarith) (r4.trans (mul_le_mul_of_nonneg_right (by nlinarith) hA.le))
  unfold lognormMeanFl
  set B := fl (fl (m * m) / fl (Real.sqrt (fl (fl (s * s) + fl (m * m))))) with hB
  have h1 := hlg B r5.1
  have h2 : |Real.log B| ≤ |Real.log A| + 2 * (6 * ulp p) := by
    have : Real.log B = Real.log A + (Real.log B - Real.log A) := by ring
    rw [this]
    exact (abs_add_le _ _).trans (by linarith [r5.2])
  have h3 := mul_le_mul_of_nonneg_left h2 he0
  have e1 : lg B - Real.log A = (lg B - Real.log B) + (Real.log B - Real.log A) := by ring
  rw [e1]
  refine (abs_add_le _ _).trans ?_
  nlinarith [r5.2]

/-- The computed logarithm of one plus a number that is itself off by a few roundings. -/
theorem log_one_add_near (h : RoundsTo p fl) (hu : ulp p ≤ (1 / 64 : ℝ)) (hlg : ComputesLog e lg) (he0 : 0 ≤ e)
    (he : e ≤ 1 / 100) {g G : ℝ} (hg : 0 < g) (r2 : |G - g| ≤ 7 / 2 * ulp p * g)
    (hk : ulp p * ((1 + g) / g) ≤ 1 / 200) :
    |lg (fl (1 + G)) - Real.log (1 + g)| ≤ (10 * (ulp p * ((1 + g) / g)) + 3 / 2 * e) * Real.log (1 + g) := by
  have hu0 := ulp_pos (K := ℝ) p
  have b2 := abs_le.1 r2
  have hug : ulp p * g ≤ 1 / 64 * g := mul_le_mul_of_nonneg_right hu hg.le
  have hG : 0 < G := by nlinarith
  have hGg : 9 / 10 * g ≤ G := by nlinarith
  set k := ulp p * ((1 + g) / g) with hkd
  have hk1 : ulp p ≤ k := by
    have : 1 ≤ (1 + g) / g := by
      rw [le_div_iff₀ hg]
      linarith
    nlinarith
  have hkG : ulp p * ((1 + G) / G) ≤ 10 / 9 * k := by
    have e1 : (1 + G) / G = 1 / G + 1 := by field_simp
    have e2 : (1 + g) / g = 1 / g + 1 := by field_simp
    have : 1 / G ≤ 10 / 9 * (1 / g) := by
      rw [div_le_iff₀ hG]
      have : 10 / 9 * (1 / g) * (9 / 10 * g) ≤ 10 / 9 * (1 / g) * G :=
        mul_le_mul_of_nonneg_left hGg (by positivity)
      have e3 : 10 / 9 * (1 / g) * (9 / 10 * g) = 1 := by field_simp
      linarith
    rw [hkd, e1, e2]
    have := mul_le_mul_of_nonneg_left this hu0.le
    nlinarith
  obtain ⟨-, η, hη, hl⟩ := log_one_add h hlg he0 hG (by linarith)
  have hl0 : 0 < Real.log (1 + g) := Real.log_pos (by linarith)
  have hlow : g / (1 + g) ≤ Real.log (1 + g) := by
    have := Real.one_sub_inv_le_log_of_pos (by linarith : 0 < 1 + g)
    have e1 : 1 - (1 + g)⁻¹ = g / (1 + g) := by
      field_simp
      ring
    linarith
  have hlogs : |Real.log (1 + G) - Real.log (1 + g)| ≤ 7 * ulp p * Real.log (1 + g) := by
    have h1g : 0 < 1 + g := by linarith
    have hc : 7 / 2 * ulp p * (g / (1 + g)) ≤ 1 / 2 := by
      have : g / (1 + g) ≤ 1 := by
        rw [div_le_one h1g]
        linarith
      nlinarith
    have := (rel_log (x := 1 + G) (c := 7 / 2 * ulp p * (g / (1 + g))) h1g hc (by
      have e1 : 7 / 2 * ulp p * (g / (1 + g)) * (1 + g) = 7 / 2 * ulp p * g := by field_simp
      rw [e1, add_sub_add_left_eq_sub]
      exact r2)).2
    have h5 := mul_le_mul_of_nonneg_left hlow (by linarith : (0 : ℝ) ≤ 7 * ulp p)
    linarith
  have hnb := abs_le.1 hη
  rw [hl]
  have e1 : Real.log (1 + G) * (1 + η) - Real.log (1 + g) =
      (Real.log (1 + G) - Real.log (1 + g)) * (1 + η) + Real.log (1 + g) * η := by ring
  rw [e1]
  refine (abs_add_le _ _).trans ?_
  rw [abs_mul, abs_mul, abs_of_pos hl0]
  have hη1 : |1 + η| ≤ 26 / 25 := by
    rw [abs_le]
    constructor <;> linarith
  have h6 : |Real.log (1 + G) - Real.log (1 + g)| * |1 + η| ≤ 7 * ulp p * Real.log (1 + g) * (26 / 25) :=
    mul_le_mul hlogs hη1 (abs_nonneg _) (by positivity)
  have h7 : Real.log (1 + g) * |η| ≤ Real.log (1 + g) * (20 / 9 * k + 51 / 50 * e) :=
    mul_le_mul_of_nonneg_left (by linarith) hl0.le
  have h8 : ulp p * Real.log (1 + g) ≤ k * Real.log (1 + g) := mul_le_mul_of_nonneg_right hk1 hl0.le
  have h9 : 0 ≤ e * Real.log (1 + g) := mul_nonneg he0 hl0.le
  have h10 : 0 ≤ k * Real.log (1 + g) := mul_nonneg (hu0.le.trans hk1) hl0.le
  nlinarith

/-- **C157**: `norm_sd` is `sqrt (log (1 + s² / m²))` up to a relative error of `12 * k + 2 * e` with
`k = u * (m² + s²) / s²`: accurate unless `s` is so small compared with `m` that adding the quotient to 1 loses it. -/
theorem C157_sd (h : RoundsTo p fl) (hp : 6 ≤ p) (hlg : ComputesLog e lg) (he0 : 0 ≤ e) (he : e ≤ 1 / 100)
    {m s : ℝ} (hm : 0 < m) (hs : 0 < s) (hk : ulp p * ((m ^ 2 + s ^ 2) / s ^ 2) ≤ 1 / 200) :
    |lognormSdFl fl lg m s - Real.sqrt (Real.log (1 + s ^ 2 / m ^ 2))| ≤
      (12 * (ulp p * ((m ^ 2 + s ^ 2) / s ^ 2)) + 2 * e) * Real.sqrt (Real.log (1 + s ^ 2 / m ^ 2)) := by
  have hu := ulp_le_64 (K := ℝ) hp
  have hu0 := ulp_pos (K := ℝ) p
  have hm2 : 0 < m ^ 2 := by positivity
  have hs2 : 0 < s ^ 2 := by positivity
  have hg : 0 < s ^ 2 / m ^ 2 := div_pos hs2 hm2
  have hkg : ulp p * ((m ^ 2 + s ^ 2) / s ^ 2) = ulp p * ((1 + s ^ 2 / m ^ 2) / (s ^ 2 / m ^ 2)) := by
    field_simp
  rw [hkg] at hk ⊢
  set g := s ^ 2 / m ^ 2 with hgd
  have r1 := rel_round h hg (rel_div (r := 9 / 4 * ulp p) hs2 hm2 (by linarith) (rel_square h s) (rel_square h m)
    (by nlinarith))
  have r2 : |fl (fl (s * s) / fl (m * m)) - g| ≤ 7 / 2 * ulp p * g :=
    r1.trans (mul_le_mul_of_nonneg_right (by nlinarith) hg.le)
  unfold lognormSdFl
  set G := fl (fl (s * s) / fl (m * m)) with hGd
  have htot := log_one_add_near h hu hlg he0 he hg r2 hk
  have hk1 : ulp p ≤ ulp p * ((1 + g) / g) := by
    have : 1 ≤ (1 + g) / g := by
      rw [le_div_iff₀ hg]
      linarith
    nlinarith
  have hl0 : 0 < Real.log (1 + g) := Real.log_pos (by linarith)
  set k := ulp p * ((1 + g) / g) with hkd
  have hlpos : 0 ≤ lg (fl (1 + G)) := by
    have h1 := (abs_le.1 htot).1
    have h2 : (10 * k + 3 / 2 * e) * Real.log (1 + g) ≤ 1 * Real.log (1 + g) :=
      mul_le_mul_of_nonneg_right (by linarith) hl0.le
    linarith
  have hsq : 0 < Real.sqrt (Real.log (1 + g)) := Real.sqrt_pos.2 hl0
  have r6 := rel_round h hsq (rel_sqrt hl0 hlpos htot)
  refine r6.trans (mul_le_mul_of_nonneg_right ?_ hsq.le)
  have hk0 : 0 ≤ k := hu0.le.trans hk1
  have := mul_le_mul_of_nonneg_left hu (by linarith : 0 ≤ 10 * k + 3 / 2 * e)
  linarith

/-- **C157 fails** for narrow distributions: if `s` is below about `5e-9 * m` (doubles), `norm_sd` is 0 and every sample
is the same number, although the standard deviation asked for is positive. -/
theorem C157_narrow_fails (h : RoundsTo p fl) (hp : 6 ≤ p) (hlg : ComputesLog e lg) {m s : ℝ} (hm : 0 < m)
    (hs : 0 < s) (hns : 4 * s ^ 2 ≤ ulp p * m ^ 2) :
    lognormSdFl fl lg m s = 0 ∧ 0 < Real.sqrt (Real.log (1 + s ^ 2 / m ^ 2)) := by
  have hu := ulp_le_64 (K := ℝ) hp
  have hu0 := ulp_pos (K := ℝ) p
  have hm2 : 0 < m ^ 2 := by positivity
  have hs2 : 0 < s ^ 2 := by positivity
  have hg : 0 < s ^ 2 / m ^ 2 := div_pos hs2 hm2
  have r1 := rel_round h hg (rel_div (r := 9 / 4 * ulp p) hs2 hm2 (by linarith) (rel_square h s) (rel_square h m)
    (by nlinarith))
  have b1 := abs_le.1 r1
  have hg4 : s ^ 2 / m ^ 2 ≤ ulp p / 4 := by
    rw [div_le_iff₀ hm2]
    linarith
  have hG : fl (fl (s * s) / fl (m * m)) < ulp p / 2 := by
    have h1 : 9 / 4 * ulp p + ulp p + 9 / 4 * ulp p * ulp p ≤ (1 / 10 : ℝ) := by nlinarith
    have h2 := mul_le_mul_of_nonneg_right h1 hg.le
    linarith [b1.2]
  have hG0 : 0 ≤ fl (fl (s * s) / fl (m * m)) :=
    h.nonneg (div_nonneg (h.nonneg (mul_self_nonneg s)) (h.nonneg (mul_self_nonneg m)))
  have hl1 : lg 1 = 0 := by
    have := hlg 1 (by norm_num)
    rw [Real.log_one, abs_zero, mul_zero, sub_zero] at this
    exact abs_eq_zero.1 (le_antisymm this (abs_nonneg _))
  refine ⟨?_, Real.sqrt_pos.2 (Real.log_pos (by linarith))⟩
  unfold lognormSdFl
  rw [one_add_tiny h (by omega) hG0 hG, hl1, Real.sqrt_zero, h.zero]

/-! ## Concrete cases -/

/-- The logarithm itself computes logarithms, whatever the accuracy asked for. -/
theorem computesLog_log (he0 : 0 ≤ e) : ComputesLog e Real.log := fun x _ => by
  rw [sub_self, abs_zero]
  exact mul_nonneg he0 (abs_nonneg _)

/-- `lognorm(1, 100)` with doubles. -/
example : ∃ m s, lognormFl (roundBits 53) Real.log 1 100 (1645 / 1000) = .ok (m, s) ∧
    |Real.exp (m + 1645 / 1000 * s) - 100| ≤ 1 / 10 ^ 12 * 100 ∧
      |Real.exp (m - 1645 / 1000 * s) - 1| ≤ 1 / 10 ^ 12 * 1 :=
  C157_practice (roundBits_roundsTo (by norm_num)) (computesLog_log (by positivity)) (by
    rw [div_le_one (by positivity)]
    exact one_le_pow₀ (by norm_num)) (by norm_num) (by
    rw [show (100 : ℝ) = 10 ^ 2 by norm_num]
    exact pow_le_pow_right₀ (by norm_num) (by norm_num)) (by norm_num)

/-- `lognorm(lognorm_mean=10, lognorm_sd=3)`. -/
example : ulp 53 * (((10 : ℝ) ^ 2 + 3 ^ 2) / 3 ^ 2) ≤ 1 / 200 := by unfold ulp; norm_num

/-- `lognorm(lognorm_mean=1e9, lognorm_sd=5)` has standard deviation 0. -/
example : lognormSdFl (roundBits 53) Real.log (10 ^ 9) 5 = 0 :=
  (C157_narrow_fails (e := 0) (roundBits_roundsTo (by norm_num)) (by norm_num) (computesLog_log le_rfl) (by positivity)
    (by norm_num) (by unfold ulp; norm_num)).1

/-- The gap of `C157_sd_positive_partial` for `lognorm(1, 2)`. -/
example : (2 * (1 / 2 ^ 52) + 3 * ulp 53) * 1 < Real.log 2 - Real.log 1 := by
  have := Real.log_two_gt_d9
  rw [Real.log_one]
  unfold ulp
  norm_num at this ⊢
  linarith

end Verif
