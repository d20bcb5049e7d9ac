import Verif.Model.DoubleNorm
import Verif.Props.DoubleWeights
import Verif.Props.RoundedHelpers

/-!
# C172: `norm(x, y)` for floats of any size

`f` is any floating-point format (`binary64` for a Python float) and `fl` any correct rounding in it, with
subnormal numbers and infinities.
-/

namespace Verif

variable {K : Type} [Field K] [LinearOrder K] [IsStrictOrderedRing K] [FloorRing K] {f : FloatFormat} {fl : K → K}

/-- The number that a float is, zeros of either sign being 0. -/
def XVal.Is (v : XVal K) (x : K) : Prop := v.val? = some x

omit [IsStrictOrderedRing K] [FloorRing K] in
theorem XVal.is_cases {v : XVal K} {x : K} (h : v.Is x) : v = .fin x ∨ v = .nzero ∧ x = 0 := by
  cases v <;> simp_all [XVal.Is, XVal.val?]

omit [FloorRing K] in
theorem toDouble_is {x : K} (ht : |fl x| < (2 : K) ^ f.top) : ((XVal.fin x).toDouble f fl).Is (fl x) := by
  unfold XVal.Is XVal.toDouble XVal.signed XVal.zero
  simp only [ht, if_true]
  by_cases h0 : fl x = 0
  · by_cases hx : x < 0 <;> simp [h0, hx, XVal.val?]
  · simp [h0, XVal.val?]

omit [FloorRing K] in
theorem toDouble_is_of (h : RoundsDouble f fl) {v : XVal K} {x : K} (hv : v.Is x) (ht : |fl x| < (2 : K) ^ f.top) :
    (v.toDouble f fl).Is (fl x) := by
  rcases v.is_cases hv with rfl | ⟨rfl, rfl⟩
  · exact toDouble_is ht
  · rw [h.exact inFormat_zero]
    rfl

omit [IsStrictOrderedRing K] [FloorRing K] in
theorem XVal.add_is {a b : XVal K} {x y : K} (ha : a.Is x) (hb : b.Is y) : (a.add b).Is (x + y) := by
  rcases a.is_cases ha with rfl | ⟨rfl, rfl⟩ <;> rcases b.is_cases hb with rfl | ⟨rfl, rfl⟩ <;>
    simp [XVal.Is, XVal.add, XVal.val?]

omit [IsStrictOrderedRing K] [FloorRing K] in
theorem XVal.neg_is {a : XVal K} {x : K} (ha : a.Is x) : a.neg.Is (-x) := by
  rcases a.is_cases ha with rfl | ⟨rfl, rfl⟩
  · by_cases h0 : x = 0 <;> simp [XVal.Is, XVal.neg, XVal.signed, XVal.zero, XVal.val?, h0]
  · simp [XVal.Is, XVal.neg, XVal.val?]

omit [IsStrictOrderedRing K] [FloorRing K] in
theorem XVal.sub_is {a b : XVal K} {x y : K} (ha : a.Is x) (hb : b.Is y) : (a.sub b).Is (x - y) := by
  rw [sub_eq_add_neg]
  exact XVal.add_is ha (XVal.neg_is hb)

omit [IsStrictOrderedRing K] [FloorRing K] in
theorem XVal.div_is {a : XVal K} {x z : K} (ha : a.Is x) (hz : z ≠ 0) : (a.div (.fin z)).Is (x / z) := by
  have key : ∀ n : Bool, (XVal.signed n (x / z)).Is (x / z) := by
    intro n
    by_cases h0 : x / z = 0
    · cases n <;> simp [XVal.Is, XVal.signed, XVal.zero, XVal.val?, h0]
    · simp only [XVal.signed, if_neg h0]
      rfl
  rcases a.is_cases ha with rfl | ⟨rfl, rfl⟩
  · simpa [XVal.div, XVal.val?, hz] using key _
  · simpa [XVal.div, XVal.val?, hz] using key _

/-- Every rounding is accurate up to rounding and up to half the smallest positive float. -/
theorem RoundsDouble.err (h : RoundsDouble f fl) (hp : 1 ≤ f.p) (q : K) :
    |fl q - q| ≤ ulp f.p * |q| + 2 ^ f.low / 2 := by
  have h2 : (0 : K) < 2 ^ f.low := by positivity
  have hu := mul_nonneg (ulp_pos (K := K) f.p).le (abs_nonneg q)
  rcases le_total ((2 : K) ^ (f.low + f.p - 1)) |q| with hq | hq
  · obtain ⟨fl', h', he⟩ := h.unlimited hp
    rw [he q (Or.inr hq)]
    linarith [h'.err q]
  · linarith [h.small hp hq]

/-- Half of a float, rounded. -/
theorem RoundsDouble.half (h : RoundsDouble f fl) (hp : 1 ≤ f.p) {a : K} (ha : IsFloat f.p a) :
    |fl (a / 2) - a / 2| ≤ 2 ^ f.low / 2 := by
  have h2 : (0 : K) < 2 ^ f.low := by positivity
  have hf : IsFloat f.p (a / 2) := by
    have := isFloat_mul_zpow ha (-1)
    rwa [zpow_neg_one, ← div_eq_mul_inv] at this
  rcases le_total ((2 : K) ^ (f.low + f.p - 1)) |a / 2| with hq | hq
  · rw [h.exact ⟨hf, onGrid_of_large hp hf hq⟩, sub_self, abs_zero]
    linarith
  · exact h.small hp hq

omit [FloorRing K] in
theorem inFormat_two_zpow (hp : 1 ≤ f.p) {k : ℤ} (hk : f.low + f.p - 1 ≤ k) : InFormat f ((2 : K) ^ k) := by
  have h1 : IsFloat f.p ((2 : K) ^ k) := by
    have := isFloat_mul_zpow (isFloat_one (K := K) f.p) k
    rwa [one_mul] at this
  refine ⟨h1, onGrid_of_large hp h1 ?_⟩
  rw [abs_of_pos (by positivity)]
  exact zpow_le_zpow_right₀ one_le_two hk

omit [FloorRing K] in
theorem inFormat_neg {x : K} (h : InFormat f x) : InFormat f (-x) := by
  obtain ⟨h1, m, hm⟩ := h
  exact ⟨isFloat_neg h1, -m, by rw [hm]; push_cast; ring⟩

omit [FloorRing K] in
/-- A result of at most `2^k` in size stays so when it is rounded. -/
theorem RoundsDouble.abs_le (h : RoundsDouble f fl) (hp : 1 ≤ f.p) {k : ℤ} (hk : f.low + f.p - 1 ≤ k) {x : K}
    (hx : |x| ≤ 2 ^ k) : |fl x| ≤ 2 ^ k := by
  have hk' := inFormat_two_zpow (K := K) hp hk
  have h1 := h.mono (_root_.abs_le.1 hx).1
  have h2 := h.mono (_root_.abs_le.1 hx).2
  rw [h.exact (inFormat_neg hk')] at h1
  rw [h.exact hk'] at h2
  exact _root_.abs_le.2 ⟨h1, h2⟩

/-- **C172.** For floats `x ≤ y` up to a quarter of the largest power of two (and a standard deviation in that range) the
mean and the standard deviation are finite, the mean lies between `x` and `y`, the standard deviation is not negative,
and the interval they stand for is the given one, up to rounding and up to the smallest positive float. -/
theorem C172_norm (hf : f.Usual) (h6 : 6 ≤ f.p) (h : RoundsDouble f fl) {x y z : K} (hx : InFormat f x)
    (hy : InFormat f y) (hxy : x ≤ y) (hz : 0 < z) (hxt : |x| ≤ 2 ^ (f.top - 2)) (hyt : |y| ≤ 2 ^ (f.top - 2))
    (ht : y - x ≤ z * 2 ^ (f.top - 2)) :
    ∃ mv sv m s, normX f fl x y z = .ok (mv, sv) ∧ mv.Is m ∧ sv.Is s ∧ x ≤ m ∧ m ≤ y ∧ 0 ≤ s ∧
      |m + z * s - y| ≤ 3 * ulp f.p * (y - x) + z * 2 ^ f.low ∧
      |m - z * s - x| ≤ ulp f.p * |x + y| + 3 * ulp f.p * (y - x) + (1 + z) * 2 ^ f.low := by
  have hp : 1 ≤ f.p := by omega
  have hlow : (0 : K) < 2 ^ f.low := by positivity
  have hu := ulp_le_64 (K := K) h6
  have hu0 := ulp_pos (K := K) f.p
  have a1 := hf.fine
  have a2 := hf.large
  have e1 : (2 : K) ^ (f.top - 1) = 2 * 2 ^ (f.top - 2) := by
    rw [show f.top - 1 = f.top - 2 + 1 by ring, zpow_add₀ two_ne_zero]
    norm_num
    ring
  have e0 : (2 : K) ^ f.top = 2 * 2 ^ (f.top - 1) := by
    rw [show f.top = f.top - 1 + 1 by ring, zpow_add₀ two_ne_zero]
    norm_num
    ring
  have hT : (0 : K) < 2 ^ (f.top - 2) := by positivity
  obtain ⟨fl', h', he⟩ := h.unlimited hp
  have bx := abs_le.1 hxt
  have by' := abs_le.1 hyt
  -- the sum
  have hsum : |fl (x + y)| ≤ 2 ^ (f.top - 1) := by
    refine h.abs_le hp (by omega) ?_
    rw [abs_le, e1]
    constructor <;> linarith
  set a := fl (x + y) with ha
  have haf : IsFloat f.p a := (h.format _).1
  have ha' : |a - (x + y)| ≤ ulp f.p * |x + y| := by
    rw [ha, he _ (Or.inl (OnGrid.add hx.2 hy.2))]
    exact h'.err _
  have hax : x * 2 ≤ a := by
    have := h'.le_of_ge (show IsFloat f.p (x * 2) by simpa using isFloat_mul_zpow hx.1 1)
      (show x * 2 ≤ x + y by linarith)
    rwa [← he _ (Or.inl (OnGrid.add hx.2 hy.2))] at this
  have hay : a ≤ y * 2 := by
    have := h'.le_of_le (show IsFloat f.p (y * 2) by simpa using isFloat_mul_zpow hy.1 1)
      (show x + y ≤ y * 2 by linarith)
    rwa [← he _ (Or.inl (OnGrid.add hx.2 hy.2))] at this
  -- the mean
  set m := fl (a / 2) with hm
  have hm1 : x ≤ m := by
    have := h.mono (show x ≤ a / 2 by linarith)
    rwa [h.exact hx] at this
  have hm2 : m ≤ y := by
    have := h.mono (show a / 2 ≤ y by linarith)
    rwa [h.exact hy] at this
  have hmh := abs_le.1 (h.half hp haf)
  have hmt : |m| < 2 ^ f.top := by
    rw [abs_lt, e0, e1]
    constructor <;> linarith
  -- the half width
  have hd0 : 0 ≤ y - m := by linarith
  set d := fl (y - m) with hd
  have hdn : 0 ≤ d := h.nonneg hd0
  have hdgrid : d = fl' (y - m) := he _ (Or.inl (OnGrid.sub hy.2 (h.format _).2))
  have hderr : |d - (y - m)| ≤ ulp f.p * (y - m) := by
    have := h'.err (y - m)
    rwa [← hdgrid, abs_of_nonneg hd0] at this
  have hdt : |d| ≤ 2 ^ (f.top - 1) := by
    refine h.abs_le hp (by omega) ?_
    rw [abs_le, e1]
    constructor <;> linarith
  have hdb := abs_le.1 hderr
  have hdle : d ≤ (1 + ulp f.p) * (y - x) := by nlinarith
  -- the standard deviation
  set q := d / z with hq
  have hq0 : 0 ≤ q := div_nonneg hdn hz.le
  have hqz : z * q = d := by rw [hq, mul_div_cancel₀ _ hz.ne']
  have hqt : |q| ≤ 2 ^ (f.top - 1) := by
    rw [abs_of_nonneg hq0, hq, div_le_iff₀ hz, e1]
    nlinarith [mul_pos hT hz]
  set s := fl q with hs
  have hs0 : 0 ≤ s := h.nonneg hq0
  have hst : |s| ≤ 2 ^ (f.top - 1) := h.abs_le hp (by omega) hqt
  have hserr := h.err hp q
  rw [abs_of_nonneg hq0, ← hs] at hserr
  have hT1 : (2 : K) ^ (f.top - 1) < 2 ^ f.top := by
    rw [e0, e1]
    linarith
  have isS : ((((XVal.fin x).add (.fin y)).toDouble f fl)).Is a :=
    toDouble_is_of h (XVal.add_is rfl rfl) (lt_of_le_of_lt hsum hT1)
  have isM := toDouble_is_of h (XVal.div_is isS (two_ne_zero : (2 : K) ≠ 0)) hmt
  have isD := toDouble_is_of h (XVal.sub_is (a := .fin y) rfl isM) (lt_of_le_of_lt hdt hT1)
  have isV := toDouble_is_of h (XVal.div_is isD hz.ne') (lt_of_le_of_lt hst hT1)
  have hzs : |z * s - d| ≤ ulp f.p * d + z * 2 ^ f.low / 2 := by
    have : z * s - d = z * (s - q) := by rw [mul_sub, hqz]
    rw [this, abs_mul, abs_of_pos hz]
    have := mul_le_mul_of_nonneg_left hserr hz.le
    have e : z * (ulp f.p * q + 2 ^ f.low / 2) = ulp f.p * (z * q) + z * 2 ^ f.low / 2 := by ring
    rw [e, hqz] at this
    exact this
  have hzl : 0 < z * 2 ^ f.low := mul_pos hz hlow
  have hud : ulp f.p * d ≤ 2 * ulp f.p * (y - x) := by
    have : ulp f.p * d ≤ ulp f.p * ((1 + ulp f.p) * (y - x)) := mul_le_mul_of_nonneg_left hdle hu0.le
    have h1 : (1 + ulp f.p) * (y - x) ≤ 2 * (y - x) := mul_le_mul_of_nonneg_right (by linarith) (by linarith)
    have := mul_le_mul_of_nonneg_left h1 hu0.le
    linarith
  have hum : ulp f.p * (y - m) ≤ ulp f.p * (y - x) := mul_le_mul_of_nonneg_left (by linarith) hu0.le
  have hup : |m + z * s - y| ≤ 3 * ulp f.p * (y - x) + z * 2 ^ f.low := by
    have e : m + z * s - y = (z * s - d) + (d - (y - m)) := by ring
    rw [e]
    have := abs_add_le (z * s - d) (d - (y - m))
    linarith
  refine ⟨_, _, m, s, ?_, isM, isV, hm1, hm2, hs0, hup, ?_⟩
  · unfold normX
    rw [if_neg (not_lt.2 hxy)]
  · have e : m - z * s - x = 2 * (m - a / 2) + (a - (x + y)) - (m + z * s - y) := by ring
    rw [e]
    have t1 := abs_sub (2 * (m - a / 2) + (a - (x + y))) (m + z * s - y)
    have t2 := abs_add_le (2 * (m - a / 2)) (a - (x + y))
    have t3 : |2 * (m - a / 2)| ≤ 2 ^ f.low := by
      rw [abs_le]
      constructor <;> linarith [hmh.1, hmh.2]
    linarith

omit [FloorRing K] in
theorem toDouble_pinf (h : RoundsDouble f fl) (hf : f.Usual) {x : K} (hx : (2 : K) ^ f.top ≤ x) :
    (XVal.fin x).toDouble f fl = .pinf := by
  have a1 := hf.fine
  have a2 := hf.large
  have a3 := hf.digits
  have ht : (0 : K) < 2 ^ f.top := by positivity
  have := h.mono hx
  rw [h.exact (inFormat_two_zpow (by omega) (by omega))] at this
  rw [toDouble_fin h (by linarith), if_neg (not_lt.2 this)]

omit [FloorRing K] in
/-- **C172** (not so when the sum of the ends is too large): for any two floats whose sum reaches the largest power of two
the mean is infinite and the standard deviation is minus infinity, without an error. -/
theorem C172_overflow (hf : f.Usual) (h : RoundsDouble f fl) {x y z : K} (hxy : x ≤ y) (hz : 0 < z)
    (ht : (2 : K) ^ f.top ≤ x + y) : normX f fl x y z = .ok (.pinf, .ninf) := by
  have h1 : ((XVal.fin x).add (.fin y)).toDouble f fl = .pinf := by
    have : (XVal.fin x).add (.fin y) = .fin (x + y) := by simp [XVal.add, XVal.val?]
    rw [this, toDouble_pinf h hf ht]
  have n2 : ¬ (2 : K) < 0 := by norm_num
  have nz : ¬ z < 0 := not_lt.2 hz.le
  unfold normX
  rw [if_neg (not_lt.2 hxy)]
  simp only [h1]
  simp [XVal.div, XVal.sub, XVal.neg, XVal.add, XVal.val?, XVal.negative, XVal.inf, XVal.toDouble, n2, nz]

omit [FloorRing K] in
/-- **C172** (example): `norm(2^1023, 1.5 * 2^1023)` has an infinite mean, although both ends are finite floats. -/
theorem C172_infinite_fails (hf : f.Usual) (h : RoundsDouble f fl) {z : K} (hz : 0 < z) :
    IsDouble f ((2 : K) ^ (f.top - 1)) ∧ IsDouble f (3 * (2 : K) ^ (f.top - 2)) ∧
      normX f fl (2 ^ (f.top - 1)) (3 * 2 ^ (f.top - 2)) z = .ok (.pinf, .ninf) := by
  have a1 := hf.fine
  have a2 := hf.large
  have a3 := hf.digits
  have e1 : (2 : K) ^ (f.top - 1) = 2 * 2 ^ (f.top - 2) := by
    rw [show f.top - 1 = f.top - 2 + 1 by ring, zpow_add₀ two_ne_zero]
    norm_num
    ring
  have e0 : (2 : K) ^ f.top = 4 * 2 ^ (f.top - 2) := by
    rw [show f.top = f.top - 2 + 2 by ring, zpow_add₀ two_ne_zero]
    norm_num
    ring
  have hT : (0 : K) < 2 ^ (f.top - 2) := by positivity
  refine ⟨isDouble_half_top hf, ⟨⟨⟨3, f.top - 2, ?_, by norm_num⟩, ?_⟩, ?_⟩, ?_⟩
  · calc |(3 : ℤ)| ≤ 2 ^ 2 := by norm_num
      _ ≤ 2 ^ f.p := pow_le_pow_right₀ (by norm_num) a3
  · have g1 : OnGrid f ((2 : K) ^ (f.top - 1)) := (inFormat_two_zpow (by omega) (by omega)).2
    have g2 : OnGrid f ((2 : K) ^ (f.top - 2)) := (inFormat_two_zpow (by omega) (by omega)).2
    have hh := g1.add g2
    rw [e1] at hh
    have : (3 : K) * 2 ^ (f.top - 2) = 2 * 2 ^ (f.top - 2) + 2 ^ (f.top - 2) := by ring
    rw [this]
    exact hh
  · rw [abs_of_pos (by positivity), e0]
    linarith
  · refine C172_overflow hf h ?_ hz ?_
    · rw [e1]
      linarith
    · rw [e1, e0]
      linarith

/-- Python floats meet the hypotheses of `C172_norm`, for the interval from 1 to 3 say. -/
example : ∃ mv sv m s, normX binary64 (roundDouble (K := ℚ) binary64) 1 3 (5 / 3) = .ok (mv, sv) ∧ mv.Is m ∧ sv.Is s ∧
    1 ≤ m ∧ m ≤ 3 ∧ 0 ≤ s := by
  have hi : ∀ n : ℤ, |n| ≤ 2 ^ 53 → InFormat binary64 (n : ℚ) := fun n hn =>
    ⟨isFloat_int hn, n * 2 ^ 1074, by
      push_cast
      rw [show binary64.low = -((1074 : ℕ) : ℤ) from rfl, zpow_neg, zpow_natCast, mul_assoc,
        mul_inv_cancel₀ (pow_ne_zero _ two_ne_zero), mul_one]⟩
  have hbig : (4 : ℚ) ≤ 2 ^ (binary64.top - 2) := by
    calc (4 : ℚ) = 2 ^ (2 : ℤ) := by norm_num
      _ ≤ 2 ^ (binary64.top - 2) := zpow_le_zpow_right₀ (by norm_num) (by decide)
  obtain ⟨mv, sv, m, s, h1, h2, h3, h4, h5, h6, -⟩ := C172_norm binary64_usual (by decide)
    (roundDouble_rounds (K := ℚ) (f := binary64) (by decide)) (x := 1) (y := 3) (z := 5 / 3)
    (by exact_mod_cast hi 1 (by norm_num)) (by exact_mod_cast hi 3 (by norm_num)) (by norm_num) (by norm_num)
    (by rw [abs_one]; linarith) (by rw [abs_of_pos (by norm_num)]; linarith) (by linarith)
  exact ⟨mv, sv, m, s, h1, h2, h3, h4, h5, h6⟩

end Verif
