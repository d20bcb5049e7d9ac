import Verif.Model.DoubleBayes
import Verif.Props.DoubleModels
import Verif.Props.RoundedDists

/-!
# C177: Bayes' rule with floats of any size
-/

namespace Verif

open Spec

variable {K : Type} [Field K] [LinearOrder K] [IsStrictOrderedRing K] [FloorRing K] {f : FloatFormat} {fl fl' : K → K}

omit [FloorRing K] in
theorem RoundsDouble.unit (h : RoundsDouble f fl) (h1 : InFormat f (1 : K)) {x : K} (h0 : 0 ≤ x) (hx : x ≤ 1) :
    0 ≤ fl x ∧ fl x ≤ 1 := by
  refine ⟨h.nonneg h0, ?_⟩
  have := h.mono hx
  rwa [h.exact h1] at this

/-- **C177.** For all probabilities, however small, `simple_bayes` either raises `ZeroDivisionError` or returns a number
between 0 and 1: no infinity and no `nan`. -/
theorem C177_probability (hp : 1 ≤ f.p) (hlow : f.low + f.p ≤ 1) (htop : 2 ≤ f.top) (h : RoundsDouble f fl) {l g q : K}
    (hl0 : 0 ≤ l) (hl1 : l ≤ 1) (hg0 : 0 ≤ g) (hg1 : g ≤ 1) (hq0 : 0 ≤ q) (hq1 : q ≤ 1) :
    simpleBayesX f fl l g q = .error .zeroDivisionError ∨
    ∃ v r, simpleBayesX f fl l g q = .ok v ∧ v.val? = some r ∧ 0 ≤ r ∧ r ≤ 1 := by
  have f1 : InFormat f (1 : K) := by
    have := inFormat_two_zpow (K := K) (f := f) hp (k := 0) (by omega)
    simpa using this
  have f2 : InFormat f (2 : K) := by
    have := inFormat_two_zpow (K := K) (f := f) hp (k := 1) (by omega)
    simpa using this
  have t2 : (2 : K) < 2 ^ f.top := by
    have : (2 : K) ^ (1 : ℤ) < 2 ^ f.top := zpow_lt_zpow_right₀ one_lt_two (by omega)
    simpa using this
  have small : ∀ {x : K}, 0 ≤ x → x ≤ 2 → |x| < 2 ^ f.top := fun h0 h2 => by rw [abs_of_nonneg h0]; linarith
  obtain ⟨n0, n1⟩ := h.unit f1 (mul_nonneg hl0 hq0) (mul_le_one₀ hl1 hq0 hq1)
  obtain ⟨c0, c1⟩ := h.unit f1 (show 0 ≤ 1 - q by linarith) (by linarith)
  obtain ⟨m0, m1⟩ := h.unit f1 (mul_nonneg hg0 c0) (mul_le_one₀ hg1 c0 c1)
  have d0 : fl (l * q) ≤ fl (fl (l * q) + fl (g * fl (1 - q))) := by
    have := h.mono (show fl (l * q) ≤ fl (l * q) + fl (g * fl (1 - q)) by linarith)
    rwa [h.exact (h.format (l * q))] at this
  have d2 : fl (fl (l * q) + fl (g * fl (1 - q))) ≤ 2 := by
    have := h.mono (show fl (l * q) + fl (g * fl (1 - q)) ≤ 2 by linarith)
    rwa [h.exact f2] at this
  have iN := toDouble_is_of h (XVal.mul_is (a := .fin l) (b := .fin q) rfl rfl) (small n0 (by linarith))
  have iC := toDouble_is_of h (XVal.sub_is (a := .fin 1) (b := .fin q) rfl rfl) (small c0 (by linarith))
  have iM := toDouble_is_of h (XVal.mul_is (a := .fin g) rfl iC) (small m0 (by linarith))
  have iD := toDouble_is_of h (XVal.add_is iN iM) (small (n0.trans d0) d2)
  unfold simpleBayesX
  simp only
  set N := fl (l * q)
  set D := fl (N + fl (g * fl (1 - q))) with hD
  rw [show _ = some D from iD]
  by_cases hz : D = 0
  · left
    simp [hz]
  right
  rw [if_neg (by simpa using hz)]
  have hDp : 0 < D := lt_of_le_of_ne (n0.trans d0) (Ne.symm hz)
  obtain ⟨r0, r1⟩ := h.unit f1 (div_nonneg n0 hDp.le) ((div_le_one hDp).2 d0)
  have eD : ((((XVal.fin l).mul (.fin q)).toDouble f fl).add
      (((XVal.fin g).mul (((XVal.fin 1).sub (.fin q)).toDouble f fl)).toDouble f fl)).toDouble f fl = .fin D := by
    rcases XVal.is_cases iD with e | ⟨-, e⟩
    · exact e
    · exact absurd e hz
  rw [eD]
  exact ⟨_, _, rfl, toDouble_is_of h (XVal.div_is iN hz) (small r0 (by linarith)), r0, r1⟩

/-- **C177**: when the likelihoods and the prior are floats that are zero or of bounded size, the result is within 7 roundings
of Bayes' rule. -/
theorem C177_accuracy (hp : 6 ≤ f.p) (h : RoundsDouble f fl) {E : ℕ} (hE : f.Covers (4 * E + 2 * f.p)) {l g q : K}
    (hl0 : 0 ≤ l) (hg0 : 0 ≤ g) (hq0 : 0 ≤ q) (hq1 : q ≤ 1) (hqf : IsFloat f.p q) (hl : Moderate E l)
    (hg : Moderate E g) (hq : Moderate E q) (hD : 0 < l * q + g * (1 - q)) :
    ∃ v r, simpleBayesX f fl l g q = .ok v ∧ v.val? = some r ∧ 0 ≤ r ∧ r ≤ 1 ∧
      |r - l * q / (l * q + g * (1 - q))| ≤ 7 * ulp f.p * (l * q / (l * q + g * (1 - q))) := by
  have hp1 : 1 ≤ f.p := by omega
  obtain ⟨fl', h', he⟩ := h.unlimited hp1
  obtain ⟨r, hr, r0, r1, r2⟩ := C122_simple_bayes h' hp hl0 hg0 hq0 hq1 hD
  have one : Moderate E (1 : K) := by
    refine .inr ?_
    rw [abs_one]
    exact ⟨zpow_le_one_of_nonpos₀ one_le_two (by omega), one_le_zpow₀ one_le_two (by omega)⟩
  have c1 : Moderate (E + f.p) (1 - q) := by
    rw [sub_eq_add_neg]
    exact Moderate.add hp1 (isFloat_one _) (isFloat_neg hqf) one hq.neg
  have iN := matches_round h h' he (Covers.mono (by omega) hE)
    (XVal.mul_is (a := .fin l) (b := .fin q) rfl rfl) (hl.mul hq)
  have iC := matches_round h h' he (Covers.mono (by omega) hE)
    (XVal.sub_is (a := .fin 1) (b := .fin q) rfl rfl) c1
  have iM := matches_round h h' he (M := E + (E + f.p)) (Covers.mono (by omega) hE)
    (XVal.mul_is (a := .fin g) rfl iC.1) (hg.mul iC.2.1)
  have iN' := iN.mono (show E + E ≤ E + (E + f.p) by omega)
  have iD := matches_round h h' he (M := E + (E + f.p) + f.p) (Covers.mono (by omega) hE)
    (XVal.add_is iN.1 iM.1) (Moderate.add hp1 iN.2.2 iM.2.2 iN'.2.1 iM.2.1)
  unfold simpleBayesFl at hr
  simp only at hr
  split at hr
  · cases hr
  rename_i hz
  cases hr
  have eD : ((((XVal.fin l).mul (.fin q)).toDouble f fl).add
      (((XVal.fin g).mul (((XVal.fin 1).sub (.fin q)).toDouble f fl)).toDouble f fl)).toDouble f fl =
      .fin (fl' (fl' (l * q) + fl' (g * fl' (1 - q)))) := by
    rcases XVal.is_cases iD.1 with e | ⟨-, e⟩
    · exact e
    · exact absurd e hz
  refine ⟨((((XVal.fin l).mul (.fin q)).toDouble f fl).div
    (.fin (fl' (fl' (l * q) + fl' (g * fl' (1 - q)))))).toDouble f fl, _, ?_, ?_, r0, r1, r2⟩
  · unfold simpleBayesX
    simp only
    rw [eD, if_neg (by simpa [XVal.val?] using hz)]
  · refine (matches_round h h' he (M := (E + E) + (E + (E + f.p) + f.p)) (Covers.mono (by omega) hE)
      (XVal.div_is iN.1 hz) ?_).1
    rcases iN.2.1 with h0 | h0
    · exact .inl (by rw [h0, zero_div])
    · exact .inr (by
        rw [abs_div]
        exact h0.div (iD.2.1.resolve_left hz))

/-- **C177** (very small probabilities): with a likelihood and a prior of `2^-600` and nothing else that explains the
evidence, the hypothesis is certain, but the code raises `ZeroDivisionError`; and where Bayes' rule gives more than
`2^-27`, the code may return 0. -/
theorem C177_small_fails :
    simpleBayesX binary64 (roundDouble binary64) (1 / 2 ^ 600) 0 (1 / 2 ^ 600 : ℚ) = .error .zeroDivisionError ∧
    simpleBayesX binary64 (roundDouble binary64) (1 / 2 ^ 500) (1 / 2 ^ 1074) (1 / 2 ^ 600 : ℚ) = .ok (.fin 0) ∧
    (1 / 2 ^ 500 * (1 / 2 ^ 600) / (1 / 2 ^ 500 * (1 / 2 ^ 600) + 1 / 2 ^ 1074 * (1 - 1 / 2 ^ 600)) : ℚ) > 1 / 2 ^ 27 ∧
    RoundsDouble binary64 (roundDouble (K := ℚ) binary64) :=
  ⟨by decide +kernel, by decide +kernel, by decide +kernel, roundDouble_rounds (by decide)⟩

/-- The hypotheses are met for Python floats: a prior of 1/8 and likelihoods of 3/4 and 0. -/
example : binary64.Covers (4 * 229 + 2 * binary64.p) ∧ Moderate 229 (3 / 4 : ℚ) ∧ Moderate 229 (0 : ℚ) ∧
    Moderate 229 (1 / 8 : ℚ) ∧ IsFloat binary64.p (1 / 8 : ℚ) ∧ (0 : ℚ) < 3 / 4 * (1 / 8) + 0 * (1 - 1 / 8) ∧
    binary64.low + binary64.p ≤ 1 ∧ 2 ≤ binary64.top ∧
    simpleBayesX binary64 (roundDouble binary64) (3 / 4) 0 (1 / 8 : ℚ) = .ok (.fin 1) := by
  refine ⟨⟨by decide, by decide⟩, .inr ⟨?_, ?_⟩, .inl rfl, .inr ⟨?_, ?_⟩, ⟨1, -3, by norm_num [binary64], by norm_num⟩,
    by norm_num, by decide, by decide, by decide +kernel⟩ <;> norm_num

end Verif
