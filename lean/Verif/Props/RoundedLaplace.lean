import Verif.Model.RoundedLaplace
import Verif.Props.RoundedLognorm

/-!
# C162: the time-invariant version of Laplace's rule in floating-point arithmetic
-/

namespace Verif

variable {p : ℕ} {fl : ℝ → ℝ} {pw : ℝ → ℝ → ℝ} {e : ℝ}

/-- The exponent of the rule: 1 without events; with events their number, plus one if the period was fixed. -/
def LaplaceExponent (s : ℕ) (fixed : Bool) (k : ℕ) : Prop :=
  (s = 0 ∧ k = 1) ∨ (0 < s ∧ fixed = false ∧ k = s) ∨ (0 < s ∧ fixed = true ∧ k = s + 1)

theorem LaplaceExponent.run {s k : ℕ} {fixed : Bool} (h : LaplaceExponent s fixed k) (t : ℝ) (r : Option ℝ) :
    laplaceOverTimeFl fl pw s t r fixed = laplaceTimeFl fl pw (r.getD 1) t k := by
  unfold laplaceOverTimeFl
  rcases h with ⟨h1, h2⟩ | ⟨h1, h2, h3⟩ | ⟨h1, h2, h3⟩
  · rw [if_pos h1, h2]
  · rw [if_neg (by omega), h2, h3]; simp
  · rw [if_neg (by omega), h2, h3]; simp

theorem LaplaceExponent.pos {s k : ℕ} {fixed : Bool} (h : LaplaceExponent s fixed k) : 1 ≤ k := by
  rcases h with ⟨h1, h2⟩ | ⟨h1, h2, h3⟩ | ⟨h1, h2, h3⟩ <;> omega

/-- There is no floating-point number between 1 and `1 + 2 * ulp`. -/
theorem float_le_one (hp : 1 ≤ p) {x : ℝ} (hx : IsFloat p x) (h : x < 1 + 2 * ulp p) : x ≤ 1 := by
  obtain ⟨m, j, hm, rfl⟩ := hx
  by_contra hc
  push Not at hc
  have h2 : (0 : ℝ) < 2 ^ j := by positivity
  have hm' : (m : ℝ) ≤ 2 ^ p := by
    have := (abs_le.1 hm).2
    exact_mod_cast this
  rcases le_or_gt j (-p) with hj | hj
  · have h3 : (2 : ℝ) ^ j ≤ 2 ^ (-(p : ℤ)) := zpow_le_zpow_right₀ (by norm_num) hj
    have h4 : (2 : ℝ) ^ p * 2 ^ (-(p : ℤ)) = 1 := by
      rw [zpow_neg, zpow_natCast]
      exact mul_inv_cancel₀ (by positivity)
    have h5 : (m : ℝ) * 2 ^ j ≤ 2 ^ p * 2 ^ j := mul_le_mul_of_nonneg_right hm' h2.le
    have h6 : (2 : ℝ) ^ p * 2 ^ j ≤ 2 ^ p * 2 ^ (-(p : ℤ)) := mul_le_mul_of_nonneg_left h3 (by positivity)
    linarith
  · obtain ⟨i, hi⟩ := Int.eq_ofNat_of_zero_le (by omega : 0 ≤ j - (1 - p))
    obtain ⟨q, rfl⟩ := Nat.exists_eq_add_of_le' hp
    have hj' : j = i + (-(q : ℤ)) := by push_cast at hi; omega
    have h3 : (m : ℝ) * 2 ^ j = ((m * 2 ^ i : ℤ) : ℝ) / 2 ^ q := by
      rw [hj', zpow_add₀ (by norm_num), zpow_natCast, zpow_neg, zpow_natCast]
      push_cast
      rw [div_eq_mul_inv]; ring
    rw [h3] at h hc
    have hq : (0 : ℝ) < 2 ^ q := by positivity
    rw [lt_div_iff₀ hq, one_mul] at hc
    have h4 : ((2 ^ q : ℤ) : ℝ) < ((m * 2 ^ i : ℤ) : ℝ) := by push_cast at hc ⊢; exact hc
    have h5 : (2 ^ q : ℤ) + 1 ≤ m * 2 ^ i := by exact_mod_cast h4
    have h6 : ((2 : ℝ) ^ q + 1) ≤ ((m * 2 ^ i : ℤ) : ℝ) := by exact_mod_cast h5
    rw [div_lt_iff₀ hq] at h
    have h7 : (1 + 2 * ulp (K := ℝ) (q + 1)) * 2 ^ q = 2 ^ q + 1 := by
      unfold ulp
      rw [pow_succ]
      field_simp
    linarith

/-- The base `1 + r / t` as computed. -/
theorem base_close (h : RoundsTo p fl) (hp : 6 ≤ p) {r t : ℝ} (hr : 0 ≤ r) (ht : 0 < t) :
    1 ≤ fl (1 + fl (r / t)) ∧ |fl (1 + fl (r / t)) - (1 + r / t)| ≤ 21 / 10 * ulp p * (1 + r / t) := by
  have hu := ulp_pos (K := ℝ) p
  have hu6 := ulp_le_64 (K := ℝ) hp
  have hx : 0 ≤ r / t := div_nonneg hr ht.le
  set x := r / t
  have hq := h.err x
  have hq0 := h.nonneg hx
  rw [abs_of_nonneg hx] at hq
  refine ⟨h.le_of_ge (isFloat_one p) (by linarith), ?_⟩
  have h1 : |(1 + fl x) - (1 + x)| ≤ ulp p * (1 + x) := by
    have : (1 + fl x) - (1 + x) = fl x - x := by ring
    rw [this]
    nlinarith
  refine (rel_round h (by linarith) h1).trans (mul_le_mul_of_nonneg_right ?_ (by linarith))
  nlinarith

/-- **C162.** With a relative error of the computed power below `2 * ulp` (one unit in the last place), what `laplace`
returns over a time is a probability: between 0 and 1. -/
theorem C162_range (h : RoundsTo p fl) (hp : 6 ≤ p) (hpw : ComputesPow p e pw) (he : e < 2 * ulp p)
    {s k : ℕ} {fixed : Bool} (hk : LaplaceExponent s fixed k) {t : ℝ} (ht : 0 < t) {r : Option ℝ}
    (hr : 0 ≤ r.getD 1) :
    ∃ v, laplaceOverTimeFl fl pw s t r fixed = .ok v ∧ 0 ≤ v ∧ v ≤ 1 := by
  have hu6 := ulp_le_64 (K := ℝ) hp
  obtain ⟨hb, -⟩ := base_close h hp hr ht
  rw [hk.run]
  unfold laplaceTimeFl
  set b := fl (1 + fl (r.getD 1 / t))
  obtain ⟨h1, h2⟩ := hpw b (-(k : ℝ)) (by linarith)
  have hP0 : 0 < b ^ (-(k : ℝ)) := Real.rpow_pos_of_pos (by linarith) _
  have hP1 : b ^ (-(k : ℝ)) ≤ 1 := Real.rpow_le_one_of_one_le_of_nonpos hb (by simp)
  have h3 := abs_le.1 h1
  have hle : pw b (-(k : ℝ)) ≤ 1 := float_le_one (by omega) h2 (by nlinarith)
  have hge : 0 ≤ pw b (-(k : ℝ)) := by nlinarith
  refine ⟨fl (1 - pw b (-(k : ℝ))), ?_, h.nonneg (by linarith), h.le_of_le (isFloat_one p) (by linarith)⟩
  simp only [if_neg ht.ne', if_pos (by linarith : 0 < b)]

/-- **C162.** It is `1 - 1 / (1 + r / t) ^ k` up to `(9 k + 1) * ulp + 2 * e`, where `k` is the exponent of the rule:
1 without events, otherwise their number, plus one if the period was fixed. -/
theorem C162_accuracy (h : RoundsTo p fl) (hp : 6 ≤ p) (hpw : ComputesPow p e pw) (he0 : 0 ≤ e) (he : e ≤ 1)
    {s k : ℕ} {fixed : Bool} (hk : LaplaceExponent s fixed k) (hks : 5 * k * ulp (K := ℝ) p ≤ 1) {t : ℝ} (ht : 0 < t)
    {r : Option ℝ} (hr : 0 ≤ r.getD 1) :
    ∃ v, laplaceOverTimeFl fl pw s t r fixed = .ok v ∧
      |v - (1 - 1 / (1 + r.getD 1 / t) ^ k)| ≤ (9 * k + 1) * ulp p + 2 * e := by
  have hu := ulp_pos (K := ℝ) p
  have hu6 := ulp_le_64 (K := ℝ) hp
  obtain ⟨hb, hbc⟩ := base_close h hp hr ht
  rw [hk.run]
  unfold laplaceTimeFl
  have hx : 0 ≤ r.getD 1 / t := div_nonneg hr ht.le
  set x := r.getD 1 / t
  set b := fl (1 + fl x)
  obtain ⟨h1, -⟩ := hpw b (-(k : ℝ)) (by linarith)
  have hP0 : 0 < b ^ (-(k : ℝ)) := Real.rpow_pos_of_pos (by linarith) _
  have hP1 : b ^ (-(k : ℝ)) ≤ 1 := Real.rpow_le_one_of_one_le_of_nonpos hb (by simp)
  refine ⟨fl (1 - pw b (-(k : ℝ))), by simp only [if_neg ht.ne', if_pos (by linarith : 0 < b)], ?_⟩
  have hA0 : 0 < (1 + x) ^ (-(k : ℝ)) := Real.rpow_pos_of_pos (by linarith) _
  have hA1 : (1 + x) ^ (-(k : ℝ)) ≤ 1 := Real.rpow_le_one_of_one_le_of_nonpos (by linarith) (by simp)
  have hA : 1 / (1 + x) ^ k = (1 + x) ^ (-(k : ℝ)) := by
    rw [Real.rpow_neg (by linarith), Real.rpow_natCast, one_div]
  rw [hA]
  set A := (1 + x) ^ (-(k : ℝ))
  set P := b ^ (-(k : ℝ))
  set Q := pw b (-(k : ℝ))
  have hlog := (rel_log (by linarith) (by linarith) hbc).2
  have hPA : |P - A| ≤ 42 / 5 * k * ulp p := by
    have e1 : P = A * Real.exp (-(k : ℝ) * (Real.log b - Real.log (1 + x))) := by
      simp only [P, A]
      rw [Real.rpow_def_of_pos (by linarith), Real.rpow_def_of_pos (by linarith), ← Real.exp_add]
      congr 1; ring
    set θ := -(k : ℝ) * (Real.log b - Real.log (1 + x)) with hθ
    have hθ1 : |θ| ≤ 21 / 5 * k * ulp p := by
      rw [hθ, abs_mul, abs_neg, abs_of_nonneg (Nat.cast_nonneg k)]
      have := mul_le_mul_of_nonneg_left hlog (Nat.cast_nonneg (α := ℝ) k)
      linarith
    have hθ2 := Real.abs_exp_sub_one_le (x := θ) (by
      have : 0 ≤ (k : ℝ) * ulp p := by positivity
      linarith)
    have e2 : P - A = A * (Real.exp θ - 1) := by rw [e1]; ring
    rw [e2, abs_mul, abs_of_pos hA0]
    have : A * |Real.exp θ - 1| ≤ 1 * |Real.exp θ - 1| := mul_le_mul_of_nonneg_right hA1 (abs_nonneg _)
    linarith
  have hQ : |Q - P| ≤ e := h1.trans (by nlinarith)
  have hQb := abs_le.1 hQ
  have hQ1 : |1 - Q| ≤ 1 + e := abs_le.2 ⟨by linarith, by linarith⟩
  have h3 := h.err (1 - Q)
  have h4 : fl (1 - Q) - (1 - A) = (fl (1 - Q) - (1 - Q)) + ((P - Q) + (A - P)) := by ring
  rw [h4]
  refine (abs_add_le _ _).trans ?_
  have h5 := abs_add_le (P - Q) (A - P)
  rw [abs_sub_comm P, abs_sub_comm A] at h5
  have h6 := mul_le_mul_of_nonneg_left hQ1 hu.le
  have h7 : 0 ≤ (k : ℝ) * ulp p := by positivity
  nlinarith

/-- **C162.** If computed powers are rounded correctly, then more time remaining, less time passed and more events never
make the answer smaller. -/
theorem C162_monotone (h : RoundsTo p fl) (hpw : ∀ x y, pw x y = fl (x ^ y))
    {s s' k k' : ℕ} {fixed fixed' : Bool} (hk : LaplaceExponent s fixed k) (hk' : LaplaceExponent s' fixed' k')
    (hkk : k ≤ k') {t t' : ℝ} (ht' : 0 < t') (htt : t' ≤ t) {r r' : Option ℝ} (hr : 0 ≤ r.getD 1)
    (hrr : r.getD 1 ≤ r'.getD 1) :
    ∃ v v', laplaceOverTimeFl fl pw s t r fixed = .ok v ∧ laplaceOverTimeFl fl pw s' t' r' fixed' = .ok v' ∧
      v ≤ v' := by
  have ht : 0 < t := by linarith
  have hx : r.getD 1 / t ≤ r'.getD 1 / t' := div_le_div₀ (by linarith) hrr ht' htt
  have hx0 : 0 ≤ r.getD 1 / t := div_nonneg hr ht.le
  rw [hk.run, hk'.run]
  unfold laplaceTimeFl
  set x := r.getD 1 / t
  set x' := r'.getD 1 / t'
  have hb : 1 ≤ fl (1 + fl x) := h.le_of_ge (isFloat_one p) (by linarith [h.nonneg hx0])
  have hbb : fl (1 + fl x) ≤ fl (1 + fl x') := h.mono (by linarith [h.mono hx])
  set b := fl (1 + fl x)
  set b' := fl (1 + fl x')
  refine ⟨fl (1 - pw b (-(k : ℝ))), fl (1 - pw b' (-(k' : ℝ))), by simp only [if_neg ht.ne', if_pos (by linarith : 0 < b)],
    by simp only [if_neg ht'.ne', if_pos (by linarith : 0 < b')], ?_⟩
  refine h.mono ?_
  rw [hpw, hpw]
  have h1 : b' ^ (-(k' : ℝ)) ≤ b ^ (-(k' : ℝ)) :=
    Real.rpow_le_rpow_of_nonpos (by linarith) hbb (by simp)
  have h2 : b ^ (-(k' : ℝ)) ≤ b ^ (-(k : ℝ)) :=
    Real.rpow_le_rpow_of_exponent_le hb (by simpa using hkk)
  linarith [h.mono (h1.trans h2)]

/-- **C162 fails** for the relative error: after a period more than `2 ^ (p + 1)` times as long as the one asked about, the
answer is exactly 0, although the chance is positive – if a power of 1 is computed as 1. -/
theorem C162_zero_fails (h : RoundsTo p fl) (hp : 6 ≤ p) (hone : ∀ y, pw 1 y = 1)
    {s k : ℕ} {fixed : Bool} (hk : LaplaceExponent s fixed k) {t : ℝ} {r : Option ℝ} (hr : 0 < r.getD 1)
    (ht : r.getD 1 * 2 ^ (p + 1) < t) :
    laplaceOverTimeFl fl pw s t r fixed = .ok 0 ∧ 0 < 1 - 1 / (1 + r.getD 1 / t) ^ k := by
  have ht0 : 0 < t := lt_trans (by positivity) ht
  have hx : 0 < r.getD 1 / t := div_pos hr ht0
  have hu := ulp_pos (K := ℝ) p
  have hu6 := ulp_le_64 (K := ℝ) hp
  refine ⟨?_, ?_⟩
  · rw [hk.run]
    unfold laplaceTimeFl
    have hxs : r.getD 1 / t < ulp p / 2 := by
      rw [div_lt_iff₀ ht0]
      unfold ulp
      rw [pow_succ] at ht
      have h2 : (0 : ℝ) < 2 ^ p := by positivity
      have : 1 / 2 ^ p / 2 * (r.getD 1 * (2 ^ p * 2)) = r.getD 1 := by field_simp
      have h3 : (0 : ℝ) < 1 / 2 ^ p / 2 := by positivity
      nlinarith
    set x := r.getD 1 / t
    have hq := h.le_mul hx.le
    have hq0 := h.nonneg hx.le
    have hb : fl (1 + fl x) = 1 := by
      have h1 : 1 ≤ fl (1 + fl x) := h.le_of_ge (isFloat_one p) (by linarith)
      have h2 := h.le_mul (x := 1 + fl x) (by linarith)
      have h3 : fl (1 + fl x) < 1 + 2 * ulp p := by nlinarith
      exact le_antisymm (float_le_one (by omega) (h.float _) h3) h1
    simp only [if_neg ht0.ne', hb, hone]
    simp [h.zero]
  · have h1 : 1 < (1 + r.getD 1 / t) ^ k := one_lt_pow₀ (by linarith) (by have := hk.pos; omega)
    have : 1 / (1 + r.getD 1 / t) ^ k < 1 := (div_lt_one (by linarith)).2 h1
    linarith

/-! ### Examples -/

theorem rounded_pow (hp : 1 ≤ p) : ComputesPow p (ulp p) fun x y => roundBits p (x ^ y) := fun x y hx => by
  refine ⟨?_, roundBits_float _⟩
  have := (roundBits_roundsTo (K := ℝ) hp).err (x ^ y)
  rwa [abs_of_pos (Real.rpow_pos_of_pos hx y)] at this

/-- The example of the documentation: one use in 77 years, and the next year: 1/78 up to 2e-15. -/
example : ∃ v, laplaceOverTimeFl (roundBits 53) (fun x y => roundBits 53 (x ^ y)) 1 77 (some 1) false = .ok v ∧
    0 ≤ v ∧ v ≤ 1 ∧ |v - 1 / 78| ≤ 2 / 10 ^ 15 := by
  have hk : LaplaceExponent 1 false 1 := .inr (.inl (by decide))
  obtain ⟨v, h1, h2⟩ := C162_accuracy (fl := roundBits 53) (p := 53) (roundBits_roundsTo (by norm_num)) (by norm_num)
    (rounded_pow (by norm_num)) (by unfold ulp; positivity) (by unfold ulp; norm_num) hk (by unfold ulp; norm_num)
    (t := 77) (by norm_num) (r := some 1) (by simp)
  obtain ⟨w, h3, h4, h5⟩ := C162_range (fl := roundBits 53) (p := 53) (roundBits_roundsTo (by norm_num)) (by norm_num)
    (rounded_pow (by norm_num)) (by unfold ulp; norm_num) hk (t := 77) (by norm_num) (r := some 1) (by simp)
  rw [h1] at h3
  cases h3
  refine ⟨v, h1, h4, h5, ?_⟩
  have e1 : (1 : ℝ) - 1 / (1 + (some (1 : ℝ)).getD 1 / 77) ^ 1 = 1 / 78 := by norm_num
  rw [e1] at h2
  exact h2.trans (by unfold ulp; norm_num)

/-- 1e17 years without an event, and the next one. -/
example : laplaceOverTimeFl (roundBits 53) (fun x y => roundBits 53 (x ^ y)) 0 (10 ^ 17) none true = .ok 0 :=
  (C162_zero_fails (p := 53) (roundBits_roundsTo (by norm_num)) (by norm_num)
    (fun y => by rw [Real.one_rpow, (roundBits_roundsTo (K := ℝ) (p := 53) (by norm_num)).one])
    (k := 1) (.inl ⟨rfl, rfl⟩) (by simp) (by simp; norm_num)).1

end Verif
