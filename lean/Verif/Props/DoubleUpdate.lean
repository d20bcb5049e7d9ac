import Verif.Model.DoubleUpdate
import Verif.Props.DoubleSample
import Verif.Props.DoubleNorm
import Verif.Lemmas.CompensatedSum

/-!
# C175: `update` of normal distributions for floats of any size
-/

namespace Verif

open Spec

variable {K : Type} [Field K] [LinearOrder K] [IsStrictOrderedRing K] [FloorRing K] {f : FloatFormat} {fl fl' : K → K}

omit [FloorRing K] in
theorem Spec.Within.moderate {m : ℕ} {x : K} (h : Within m x) : Moderate m x :=
  Or.inr (by rwa [abs_of_pos h.pos])

omit [FloorRing K] in
theorem Spec.Moderate.le {m : ℕ} {x : K} (h : Moderate m x) : |x| ≤ 2 ^ (m : ℤ) := by
  rcases h with rfl | h
  · rw [abs_zero]; positivity
  · exact h.2

omit [FloorRing K] in
theorem Spec.Moderate.mul {m n : ℕ} {x y : K} (hx : Moderate m x) (hy : Moderate n y) : Moderate (m + n) (x * y) := by
  rcases hx with rfl | hx
  · exact .inl (zero_mul _)
  rcases hy with rfl | hy
  · exact .inl (mul_zero _)
  · exact .inr (by rw [abs_mul]; exact hx.mul hy)

omit [FloorRing K] in
theorem Spec.Moderate.div {m n : ℕ} {x y : K} (hx : Moderate m x) (hy : Within n y) : Moderate (m + n) (x / y) := by
  rcases hx with rfl | hx
  · exact .inl (zero_div _)
  · exact .inr (by rw [abs_div, abs_of_pos hy.pos]; exact hx.div hy)

theorem Spec.Moderate.round {m : ℕ} {x : K} (h' : RoundsTo f.p fl') (hx : Moderate m x) : Moderate m (fl' x) := by
  rcases hx with rfl | hx
  · exact .inl h'.zero
  · right
    rcases le_or_gt 0 x with h0 | h0
    · rw [abs_of_nonneg h0] at hx
      rw [abs_of_nonneg (h'.nonneg h0)]
      exact Within.round h' hx
    · rw [abs_of_neg h0] at hx
      have h1 := h'.le_of_le (x := x) (isFloat_neg (isFloat_two_zpow (K := K) f.p (-(m : ℤ)))) (by linarith [hx.1])
      have h2 := h'.le_of_ge (x := x) (isFloat_neg (isFloat_two_zpow (K := K) f.p (m : ℤ))) (by linarith [hx.2])
      have h3 : (0 : K) < 2 ^ (-(m : ℤ)) := by positivity
      rw [abs_of_neg (by linarith)]
      exact ⟨by linarith, by linarith⟩

/-- Within the range the format rounds as with unlimited exponents. -/
theorem moderate_round (h' : RoundsTo f.p fl') (he : ∀ x, Unharmed f x → fl x = fl' x)
    {m : ℕ} (hm : f.Covers m) {x : K} (hx : Moderate m x) : fl x = fl' x ∧ |fl x| < (2 : K) ^ f.top := by
  have e : fl x = fl' x := he x (by
    rcases hx with rfl | hx
    · exact .inl onGrid_zero
    · exact .inr (le_trans (zpow_le_zpow_right₀ one_le_two (by have := hm.2; omega)) hx.1))
  refine ⟨e, ?_⟩
  rw [e]
  exact lt_of_le_of_lt (Moderate.round h' hx).le (zpow_lt_zpow_right₀ one_lt_two hm.1)

omit [IsStrictOrderedRing K] [FloorRing K] in
theorem XVal.mul_is {a b : XVal K} {x y : K} (ha : a.Is x) (hb : b.Is y) : (a.mul b).Is (x * y) := by
  have key : ∀ n : Bool, (XVal.signed n (x * y)).Is (x * y) := by
    intro n
    by_cases h0 : x * y = 0
    · cases n <;> simp [XVal.Is, XVal.signed, XVal.zero, XVal.val?, h0]
    · simp only [XVal.signed, if_neg h0]
      rfl
  have hna : a ≠ .nan := by rintro rfl; simp [XVal.Is, XVal.val?] at ha
  have hnb : b ≠ .nan := by rintro rfl; simp [XVal.Is, XVal.val?] at hb
  unfold XVal.mul
  rw [if_neg (by simp [hna, hnb])]
  unfold XVal.Is at ha hb
  rw [ha, hb]
  exact key _

theorem mulX_moderate (h : RoundsDouble f fl) (h' : RoundsTo f.p fl') (he : ∀ x, Unharmed f x → fl x = fl' x)
    {m n : ℕ} (hm : f.Covers (m + n)) {a b : XVal K} {x y : K} (ha : a.Is x) (hb : b.Is y) (hx : Moderate m x)
    (hy : Moderate n y) : ((a.mul b).toDouble f fl).Is (fl' (x * y)) ∧ Moderate (m + n) (fl' (x * y)) := by
  obtain ⟨e1, e2⟩ := moderate_round h' he hm (hx.mul hy)
  refine ⟨?_, Moderate.round h' (hx.mul hy)⟩
  rw [← e1]
  exact toDouble_is_of h (XVal.mul_is ha hb) e2

omit [FloorRing K] in
/-- A moderate number of `p` digits is a multiple of a unit. -/
theorem Spec.Moderate.grid {p m : ℕ} {x : K} (hf : IsFloat p x) (hx : Moderate m x) :
    ∃ j : ℤ, x = j * (2 : K) ^ (-((m + p : ℕ) : ℤ)) := by
  rcases hx with rfl | hx
  · exact ⟨0, by simp⟩
  obtain ⟨k, e, hk, rfl⟩ := hf
  refine grid_of_le ?_
  have h2 : (0 : K) < 2 ^ e := by positivity
  have hk' : |(k : K)| ≤ 2 ^ p := by exact_mod_cast hk
  have h1 := hx.1
  rw [abs_mul, abs_of_pos h2] at h1
  have h3 : (2 : K) ^ (-(m : ℤ)) ≤ 2 ^ ((p : ℤ) + e) := by
    refine h1.trans ?_
    rw [zpow_add₀ two_ne_zero, zpow_natCast]
    exact mul_le_mul_of_nonneg_right hk' h2.le
  have := (zpow_le_zpow_iff_right₀ (one_lt_two : (1 : K) < 2)).1 h3
  push_cast
  omega

omit [FloorRing K] in
/-- The sum of two moderate numbers of `p` digits is moderate, also when digits cancel. -/
theorem Spec.Moderate.add {p m : ℕ} (hp : 1 ≤ p) {x y : K} (hfx : IsFloat p x) (hfy : IsFloat p y) (hx : Moderate m x)
    (hy : Moderate m y) : Moderate (m + p) (x + y) := by
  obtain ⟨j, hj⟩ := hx.grid hfx
  obtain ⟨k, hk⟩ := hy.grid hfy
  by_cases h0 : x + y = 0
  · exact .inl h0
  right
  have h2 : (0 : K) < 2 ^ (-((m + p : ℕ) : ℤ)) := by positivity
  have e : x + y = ((j + k : ℤ) : K) * 2 ^ (-((m + p : ℕ) : ℤ)) := by
    rw [hj, hk]; push_cast; ring
  refine ⟨?_, ?_⟩
  · have hjk : j + k ≠ 0 := by
      intro hc
      rw [hc] at e
      exact h0 (by rw [e]; simp)
    have h1 : (1 : K) ≤ |((j + k : ℤ) : K)| := by exact_mod_cast Int.one_le_abs hjk
    rw [e, abs_mul, abs_of_pos h2]
    exact le_mul_of_one_le_left h2.le h1
  · have h3 := abs_add_le x y
    have h4 := hx.le
    have h5 := hy.le
    have h6 : (2 : K) ^ (m : ℤ) + 2 ^ (m : ℤ) = 2 ^ ((m + 1 : ℕ) : ℤ) := by
      rw [zpow_natCast, zpow_natCast, pow_succ]; ring
    have h7 : (2 : K) ^ ((m + 1 : ℕ) : ℤ) ≤ 2 ^ ((m + p : ℕ) : ℤ) :=
      zpow_le_zpow_right₀ one_le_two (by push_cast; omega)
    linarith

/-- The code computes what it computes with unlimited exponents. -/
theorem updateX_eq (hp : 1 ≤ f.p) (h : RoundsDouble f fl) (h' : RoundsTo f.p fl')
    (he : ∀ x, Unharmed f x → fl x = fl' x) {E : ℕ} (hE : f.Covers (7 * E + f.p + 1)) {m1 s1 m2 s2 w : K}
    (hs1 : Within E s1) (hs2 : Within E s2) (hw : Within E w) (hm1 : Moderate E m1) (hm2 : Moderate E m2) :
    (updateX f fl m1 s1 m2 s2 w).1.Is (updateMeanFl fl' m1 s1 m2 s2 w) ∧
    (updateX f fl m1 s1 m2 s2 w).2 = .fin (fl' (fl' (fl' (s2 * s2) * fl' (s1 * s1)) /
      fl' (fl' (w * fl' (s1 * s1)) + fl' (s2 * s2)))) ∧
    Within (7 * E + 1) (fl' (fl' (fl' (s2 * s2) * fl' (s1 * s1)) /
      fl' (fl' (w * fl' (s1 * s1)) + fl' (s2 * s2)))) := by
  have cov : ∀ {k : ℕ}, k ≤ 7 * E + f.p + 1 → f.Covers k := fun hk => Covers.mono hk hE
  have mulOk : ∀ {m n : ℕ} {x y : K}, m + n ≤ 7 * E + f.p + 1 → Within m x → Within n y →
      ((XVal.fin x).mul (.fin y)).toDouble f fl = .fin (fl' (x * y)) ∧ Within (m + n) (fl' (x * y)) :=
    fun hk hx hy => opDouble_within (o := .mul) h h' he (cov hk) hx hy (.inr (.inl ⟨rfl, rfl⟩)) rfl
  obtain ⟨a1, a2⟩ := mulOk (m := E) (n := E) (by omega) hs1 hs1
  obtain ⟨b1, b2⟩ := mulOk (m := E) (n := E) (by omega) hs2 hs2
  obtain ⟨c1, c2⟩ := mulOk (m := E) (n := E + E) (by omega) hw a2
  obtain ⟨d1, d2⟩ := opDouble_within (o := .add) (m := E + (E + E)) (n := E + (E + E)) (M := 3 * E + 1) h h' he
    (cov (by omega)) c2 (b2.mono (by omega)) (.inl ⟨rfl, by simp [Nat.max_self]; omega⟩) rfl
  obtain ⟨e1, e2⟩ := mulOk (m := E + E) (n := E + E) (by omega) b2 a2
  obtain ⟨g1, g2⟩ := opDouble_within (o := .div) (m := E + E + (E + E)) (n := 3 * E + 1) (M := 7 * E + 1) h h' he
    (cov (by omega)) e2 d2 (.inr (.inr (.inl ⟨rfl, by omega⟩))) (by simp only [opFl, if_neg d2.pos.ne']; rfl)
  have d1' : ((XVal.fin (fl' (w * fl' (s1 * s1)))).add (.fin (fl' (s2 * s2)))).toDouble f fl =
    .fin (fl' (fl' (w * fl' (s1 * s1)) + fl' (s2 * s2))) := d1
  have g1' : ((XVal.fin (fl' (fl' (s2 * s2) * fl' (s1 * s1)))).div
    (.fin (fl' (fl' (w * fl' (s1 * s1)) + fl' (s2 * s2))))).toDouble f fl = _ := g1
  -- the numerator
  obtain ⟨n1, n2⟩ := mulX_moderate h h' he (m := E + E) (n := E) (cov (by omega)) (a := .fin (fl' (s2 * s2)))
    (b := .fin m1) rfl rfl b2.moderate hm1
  obtain ⟨o1, o2⟩ := mulX_moderate h h' he (m := E + E) (n := E) (cov (by omega)) (a := .fin (fl' (s1 * s1)))
    (b := .fin m2) rfl rfl a2.moderate hm2
  obtain ⟨q1, q2⟩ := mulX_moderate h h' he (m := E) (n := E + E + E) (cov (by omega)) (a := .fin w) rfl o1 hw.moderate o2
  have n3 : Moderate (E + (E + E + E)) (fl' (fl' (s2 * s2) * m1)) := by
    rcases n2 with n2 | n2
    · exact .inl n2
    · exact .inr (n2.mono (by omega))
  have r := Moderate.add hp (h'.float _) (h'.float _) n3 q2
  obtain ⟨r1, r2⟩ := moderate_round h' he (cov (by omega)) r
  have r3 := toDouble_is_of h (XVal.add_is n1 q1) r2
  rw [r1] at r3
  have t := (Moderate.round h' r).div d2
  obtain ⟨t1, t2⟩ := moderate_round h' he (cov (by omega)) t
  have t3 := toDouble_is_of h (XVal.div_is r3 d2.pos.ne') t2
  rw [t1] at t3
  refine ⟨?_, ?_, g2⟩
  · unfold updateX updateMeanFl
    simp only [a1, b1, c1, d1']
    exact t3
  · unfold updateX
    simp only [a1, b1, c1, d1', e1]
    exact g1'

/-- **C175.** Updating a normal distribution whose standard deviation, like that of the evidence and the evidence weight, is
between `2^-E` and `2^E`, with means that are zero or of such a size: neither the mean nor the standard deviation overflows
or is lost; the mean is accurate to 11 roundings of the larger mean, the standard deviation to 12 of itself. -/
theorem C175_update {fl : ℝ → ℝ} (hp : 6 ≤ f.p) (h : RoundsDouble f fl) {E : ℕ} (hE : f.Covers (7 * E + f.p + 1))
    {m1 s1 m2 s2 w : ℝ} (hs1 : Within E s1) (hs2 : Within E s2) (hw : Within E w) (hm1 : Moderate E m1)
    (hm2 : Moderate E m2) :
    ∃ m v, (updateX f fl m1 s1 m2 s2 w).1.val? = some m ∧ (updateX f fl m1 s1 m2 s2 w).2 = .fin v ∧
      |m - (s2 ^ 2 * m1 + w * (s1 ^ 2 * m2)) / (w * s1 ^ 2 + s2 ^ 2)| ≤ 11 * ulp f.p * max |m1| |m2| ∧
      0 < fl (Real.sqrt v) ∧
      |fl (Real.sqrt v) - Real.sqrt (s2 ^ 2 * s1 ^ 2 / (w * s1 ^ 2 + s2 ^ 2))| ≤
        12 * ulp f.p * Real.sqrt (s2 ^ 2 * s1 ^ 2 / (w * s1 ^ 2 + s2 ^ 2)) := by
  obtain ⟨fl', h', he⟩ := h.unlimited (by omega)
  obtain ⟨e1, e2, e3⟩ := updateX_eq (by omega) h h' he hE hs1 hs2 hw hm1 hm2
  refine ⟨_, _, e1, e2, C123_mean h' hp hs1.pos hs2.pos hw.pos.le (le_max_left _ _) (le_max_right _ _), ?_⟩
  have hsd := C123_sd h' hp hs1.pos hs2.pos hw.pos.le
  have hsq : Within (7 * E + 1) (Real.sqrt (fl' (fl' (fl' (s2 * s2) * fl' (s1 * s1)) /
      fl' (fl' (w * fl' (s1 * s1)) + fl' (s2 * s2))))) := by
    set v := fl' (fl' (fl' (s2 * s2) * fl' (s1 * s1)) / fl' (fl' (w * fl' (s1 * s1)) + fl' (s2 * s2)))
    obtain ⟨q1, q2⟩ := e3
    rw [zpow_neg, zpow_natCast] at q1
    rw [zpow_natCast] at q2
    have hB : (1 : ℝ) ≤ 2 ^ (7 * E + 1) := one_le_pow₀ (by norm_num)
    set B : ℝ := 2 ^ (7 * E + 1) with hBdef
    constructor
    · rw [zpow_neg, zpow_natCast, ← hBdef]
      refine Real.le_sqrt_of_sq_le (le_trans ?_ q1)
      rw [sq]
      exact mul_le_of_le_one_left (by positivity) (inv_le_one_of_one_le₀ hB)
    · rw [zpow_natCast, ← hBdef]
      refine Real.sqrt_le_iff.2 ⟨by positivity, q2.trans ?_⟩
      nlinarith
  have hr := (moderate_round h' he (Covers.mono (by omega) hE) hsq.moderate).1
  rw [hr]
  exact hsd

/-- **C175 fails** for extreme intervals: with standard deviations of `2^-600` (about 2e-181) the squares are 0, and mean and
standard deviation are `nan`; with `2^600` the squares are infinite, and they are `nan` too.  The exact results are floats. -/
theorem C175_extreme_fails :
    updateX binary64 (roundDouble binary64) 1 (1 / 2 ^ 600) 3 (1 / 2 ^ 600) (1 : ℚ) = (.nan, .nan) ∧
    updateX binary64 (roundDouble binary64) 1 (2 ^ 600) 3 (2 ^ 600) (1 : ℚ) = (.nan, .nan) ∧
    RoundsDouble binary64 (roundDouble (K := ℚ) binary64) :=
  ⟨by decide +kernel, by decide +kernel, roundDouble_rounds (by decide)⟩

/-- Python floats: `E = 138`, standard deviations from 3e-42 to 3e41. -/
example : binary64.Covers (7 * 138 + binary64.p + 1) := ⟨by decide, by decide⟩

/-- Two opposite means. -/
example : ∃ m v, (updateX binary64 (roundDouble binary64) (-1) 2 1 (1 / 2) (1 : ℝ)).1.val? = some m ∧
    (updateX binary64 (roundDouble binary64) (-1) 2 1 (1 / 2) (1 : ℝ)).2 = .fin v ∧
    |m - 15 / 17| ≤ 11 * ulp 53 := by
  have hw : ∀ x : ℝ, 1 / 2 ≤ x → x ≤ 2 → Within 1 x := fun x h1 h2 => ⟨by norm_num; linarith, by norm_num; exact h2⟩
  obtain ⟨m, v, h1, h2, h3, -, -⟩ := C175_update (f := binary64) (by decide) (roundDouble_rounds (by decide)) (E := 1)
    ⟨by decide, by decide⟩ (m1 := -1) (s1 := 2) (m2 := 1) (s2 := 1 / 2) (w := 1) (hw _ (by norm_num) (by norm_num))
    (hw _ (by norm_num) (by norm_num)) (hw _ (by norm_num) (by norm_num))
    (.inr (by rw [abs_neg, abs_one]; exact hw _ (by norm_num) (by norm_num)))
    (hw _ (by norm_num) (by norm_num)).moderate
  refine ⟨m, v, h1, h2, ?_⟩
  have e : ((1 / 2 : ℝ) ^ 2 * -1 + 1 * (2 ^ 2 * 1)) / (1 * 2 ^ 2 + (1 / 2) ^ 2) = 15 / 17 := by norm_num
  rw [e] at h3
  simpa [binary64] using h3

end Verif
