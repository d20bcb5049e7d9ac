import Verif.Lemmas.LawMoments
import Verif.Lemmas.UniformLaw
import Mathlib.Analysis.SpecialFunctions.Integrals.Basic

/-!
# Means and variances of numpy's laws: bounded intervals
-/

namespace Verif

open MeasureTheory ProbabilityTheory Spec

/-! ## Uniform -/

theorem uniformLaw_integral {a b : ℝ} (h : a < b) (f : ℝ → ℝ) :
    ∫ x, f x ∂(uniformLaw a b) = (∫ x in a..b, f x) / (b - a) := by
  have h0 : 0 < b - a := sub_pos.2 h
  rw [uniformLaw, integral_smul_measure, intervalIntegral.integral_of_le h.le, integral_Ico_eq_integral_Ioc,
    ENNReal.toReal_inv, ENNReal.toReal_ofReal h0.le, smul_eq_mul]
  field_simp

theorem uniformLaw_integrable {a b : ℝ} (h : a < b) {f : ℝ → ℝ} (hf : Continuous f) :
    Integrable f (uniformLaw a b) := by
  have h0 : 0 < b - a := sub_pos.2 h
  refine Integrable.smul_measure ?_ (ENNReal.inv_ne_top.2 (by simpa using h))
  exact (hf.integrableOn_Icc (a := a) (b := b)).mono_set Set.Ico_subset_Icc_self

theorem uniformLaw_prob {a b : ℝ} (h : a < b) : IsProbabilityMeasure (uniformLaw a b) := by
  constructor
  rw [uniformLaw, Measure.smul_apply, Measure.restrict_apply_univ, Real.volume_Ico, smul_eq_mul,
    ENNReal.inv_mul_cancel (by simpa using h) ENNReal.ofReal_ne_top]

theorem uniform_hasMean {a b : ℝ} (h : a < b) : HasMean (uniformLaw a b) ((a + b) / 2) := by
  have h0 : 0 < b - a := sub_pos.2 h
  refine ⟨uniformLaw_integrable h (by fun_prop), ?_⟩
  rw [uniformLaw_integral h, integral_id]
  field_simp
  ring

theorem uniform_hasVar {a b : ℝ} (h : a < b) : HasVar (uniformLaw a b) ((b - a) ^ 2 / 12) := by
  have h0 : 0 < b - a := sub_pos.2 h
  have := uniformLaw_prob h
  refine hasVar_of (uniform_hasMean h) (uniformLaw_integrable h (by fun_prop)) (uniformLaw_integral h _) ?_
  rw [integral_pow]
  field_simp
  ring

/-! ## Bernoulli -/

theorem bernoulli_integral {p : ℝ} (h0 : 0 ≤ p) (h1 : p ≤ 1) (f : ℝ → ℝ) :
    Integrable (fun u : ℝ => f (if u < p then 1 else 0)) unitLaw ∧
    ∫ u : ℝ, f (if u < p then 1 else 0) ∂unitLaw = p * f 1 + (1 - p) * f 0 := by
  have v1 : unitLaw.real (Set.Iio p) = p := by
    rw [unitLaw, measureReal_restrict_apply measurableSet_Iio]
    have : Set.Iio p ∩ Set.Ico 0 1 = Set.Ico 0 p := by
      ext x
      simp only [Set.mem_inter_iff, Set.mem_Iio, Set.mem_Ico]
      constructor
      · rintro ⟨a, b, c⟩; exact ⟨b, a⟩
      · rintro ⟨a, b⟩; exact ⟨b, a, by linarith⟩
    rw [this, Real.volume_real_Ico_of_le h0, sub_zero]
  have e : (fun u : ℝ => f (if u < p then 1 else 0))
      = fun u => f 0 + (Set.Iio p).indicator (fun _ => f 1 - f 0) u := by
    funext u
    by_cases hu : u < p
    · rw [if_pos hu, Set.indicator_of_mem (by exact hu)]; ring
    · rw [if_neg hu, Set.indicator_of_notMem (by exact hu)]; ring
  have hi : Integrable ((Set.Iio p).indicator fun _ => f 1 - f 0) unitLaw :=
    (integrable_const _).indicator measurableSet_Iio
  rw [e]
  refine ⟨(integrable_const _).add hi, ?_⟩
  rw [integral_add (integrable_const _) hi, integral_indicator_const _ measurableSet_Iio, v1]
  simp
  ring

theorem bernoulli_hasMean {p : ℝ} (h0 : 0 ≤ p) (h1 : p ≤ 1) :
    HasMean (unitLaw.map fun u => if u < p then 1 else 0) p := by
  have hm : Measurable fun u : ℝ => if u < p then (1 : ℝ) else 0 :=
    Measurable.ite measurableSet_Iio measurable_const measurable_const
  obtain ⟨hi, he⟩ := bernoulli_integral h0 h1 fun x => x
  refine ⟨(integrable_map_measure (by fun_prop) hm.aemeasurable).2 hi, ?_⟩
  rw [integral_map hm.aemeasurable (by fun_prop), he]
  ring

theorem bernoulli_hasVar {p : ℝ} (h0 : 0 ≤ p) (h1 : p ≤ 1) :
    HasVar (unitLaw.map fun u => if u < p then 1 else 0) (p * (1 - p)) := by
  have hm : Measurable fun u : ℝ => if u < p then (1 : ℝ) else 0 :=
    Measurable.ite measurableSet_Iio measurable_const measurable_const
  have : IsProbabilityMeasure (unitLaw.map fun u : ℝ => if u < p then (1 : ℝ) else 0) :=
    Measure.isProbabilityMeasure_map hm.aemeasurable
  obtain ⟨hi, he⟩ := bernoulli_integral h0 h1 fun x => x ^ 2
  refine hasVar_of (bernoulli_hasMean h0 h1) ((integrable_map_measure (by fun_prop) hm.aemeasurable).2 hi)
    ((integral_map hm.aemeasurable (by fun_prop)).trans he) ?_
  ring

/-! ## Triangular -/

theorem measurable_triangularPDF (l m r : ℝ) : Measurable (triangularPDF l m r) := by
  unfold triangularPDF
  refine Measurable.ite (measurableSet_Ico) (by fun_prop) (Measurable.ite measurableSet_Icc (by fun_prop) (by fun_prop))

theorem triangularPDF_nonneg {l m r : ℝ} (h1 : l ≤ m) (h2 : m ≤ r) (h3 : l < r) (x : ℝ) :
    0 ≤ triangularPDF l m r x := by
  unfold triangularPDF
  split_ifs with h h'
  · exact div_nonneg (by linarith [h.1]) (mul_nonneg (by linarith) (by linarith))
  · exact div_nonneg (by linarith [h'.2]) (mul_nonneg (by linarith) (by linarith))
  · exact le_rfl

/-- Integrals against the triangular density. -/
theorem triangular_integral {l m r : ℝ} (h1 : l ≤ m) (h2 : m ≤ r) {f : ℝ → ℝ} (hf : Continuous f) :
    Integrable (fun x => triangularPDF l m r x * f x) ∧
    ∫ x, triangularPDF l m r x * f x
      = (∫ x in l..m, 2 * (x - l) / ((r - l) * (m - l)) * f x)
        + ∫ x in m..r, 2 * (r - x) / ((r - l) * (r - m)) * f x := by
  have e : (fun x => triangularPDF l m r x * f x)
      = fun x => (Set.Ico l m).indicator (fun x => 2 * (x - l) / ((r - l) * (m - l)) * f x) x
        + (Set.Icc m r).indicator (fun x => 2 * (r - x) / ((r - l) * (r - m)) * f x) x := by
    funext x
    unfold triangularPDF
    by_cases a : l ≤ x ∧ x < m
    · rw [if_pos a, Set.indicator_of_mem (by exact a), Set.indicator_of_notMem (by
        rintro ⟨b, -⟩; linarith [a.2]), add_zero]
    · rw [if_neg a, Set.indicator_of_notMem (by exact a), zero_add]
      by_cases b : m ≤ x ∧ x ≤ r
      · rw [if_pos b, Set.indicator_of_mem (by exact b)]
      · rw [if_neg b, Set.indicator_of_notMem (by exact b), zero_mul]
  have i1 : Integrable ((Set.Ico l m).indicator (fun x => 2 * (x - l) / ((r - l) * (m - l)) * f x)) := by
    rw [integrable_indicator_iff measurableSet_Ico]
    exact (Continuous.integrableOn_Icc (by fun_prop)).mono_set Set.Ico_subset_Icc_self
  have i2 : Integrable ((Set.Icc m r).indicator (fun x => 2 * (r - x) / ((r - l) * (r - m)) * f x)) := by
    rw [integrable_indicator_iff measurableSet_Icc]
    exact Continuous.integrableOn_Icc (by fun_prop)
  rw [e]
  refine ⟨i1.add i2, ?_⟩
  rw [integral_add i1 i2, integral_indicator measurableSet_Ico, integral_indicator measurableSet_Icc,
    integral_Ico_eq_integral_Ioc, integral_Icc_eq_integral_Ioc, intervalIntegral.integral_of_le h1,
    intervalIntegral.integral_of_le h2]

/-- The integral of a linear function times a power of `x`. -/
theorem ramp (a b c d : ℝ) (k : ℕ) :
    ∫ x in a..b, 2 * (x - c) / d * x ^ k
      = 2 / d * ((b ^ (k + 2) - a ^ (k + 2)) / (k + 2) - c * ((b ^ (k + 1) - a ^ (k + 1)) / (k + 1))) := by
  have e : (fun x : ℝ => 2 * (x - c) / d * x ^ k) = fun x => 2 / d * (x ^ (k + 1) - c * x ^ k) := by
    funext x
    ring
  have i1 : IntervalIntegrable (fun x : ℝ => x ^ (k + 1)) volume a b := Continuous.intervalIntegrable (by fun_prop) _ _
  have i2 : IntervalIntegrable (fun x : ℝ => c * x ^ k) volume a b := Continuous.intervalIntegrable (by fun_prop) _ _
  rw [e, intervalIntegral.integral_const_mul, intervalIntegral.integral_sub i1 i2,
    intervalIntegral.integral_const_mul, integral_pow, integral_pow]
  push_cast
  ring

theorem triangular_power {l m r : ℝ} (h1 : l ≤ m) (h2 : m ≤ r) (h3 : l < r) (k : ℕ) :
    Integrable (fun x => x ^ k) (triangularLaw l m r) ∧
    ∫ x, x ^ k ∂(triangularLaw l m r)
      = 2 / ((r - l) * (m - l))
          * ((m ^ (k + 2) - l ^ (k + 2)) / (k + 2) - l * ((m ^ (k + 1) - l ^ (k + 1)) / (k + 1)))
        + 2 / ((r - l) * (r - m))
          * (r * ((r ^ (k + 1) - m ^ (k + 1)) / (k + 1)) - (r ^ (k + 2) - m ^ (k + 2)) / (k + 2)) := by
  have hm := measurable_triangularPDF l m r
  have hn := triangularPDF_nonneg h1 h2 h3
  obtain ⟨hi, he⟩ := triangular_integral (l := l) (m := m) (r := r) h1 h2 (f := fun x => x ^ k) (by fun_prop)
  constructor
  · rw [triangularLaw, integrable_withDensity_iff hm.ennreal_ofReal (.of_forall fun x => ENNReal.ofReal_lt_top)]
    refine hi.congr (.of_forall fun x => ?_)
    simp only [ENNReal.toReal_ofReal (hn x)]
    ring
  · rw [triangularLaw, integral_withDensity_eq_integral_toReal_smul hm.ennreal_ofReal
      (.of_forall fun x => ENNReal.ofReal_lt_top)]
    simp only [ENNReal.toReal_ofReal (hn _), smul_eq_mul]
    have e : (fun x : ℝ => 2 * (r - x) / ((r - l) * (r - m)) * x ^ k)
        = fun x => 2 * (x - r) / (-((r - l) * (r - m))) * x ^ k := by
      funext x
      rw [div_neg, ← neg_div]
      congr 2
      ring
    rw [he, e, ramp, ramp, div_neg]
    ring

theorem triangular_zeroth {l m r : ℝ} (h1 : l ≤ m) (h2 : m ≤ r) (h3 : l < r) :
    ∫ x, x ^ 0 ∂(triangularLaw l m r) = 1 := by
  rw [(triangular_power h1 h2 h3 0).2]
  have h0 : r - l ≠ 0 := by linarith
  rcases h1.eq_or_lt with rfl | h1
  · simp
    field_simp
    ring
  · rcases h2.eq_or_lt with rfl | h2
    · simp
      field_simp
      ring
    · have g1 : m - l ≠ 0 := by linarith
      have g2 : r - m ≠ 0 := by linarith
      simp
      field_simp
      ring

theorem triangular_first {l m r : ℝ} (h1 : l ≤ m) (h2 : m ≤ r) (h3 : l < r) :
    ∫ x, x ^ 1 ∂(triangularLaw l m r) = (l + m + r) / 3 := by
  rw [(triangular_power h1 h2 h3 1).2]
  have h0 : r - l ≠ 0 := by linarith
  rcases h1.eq_or_lt with rfl | h1
  · simp
    field_simp
    ring
  · rcases h2.eq_or_lt with rfl | h2
    · simp
      field_simp
      ring
    · have g1 : m - l ≠ 0 := by linarith
      have g2 : r - m ≠ 0 := by linarith
      simp
      field_simp
      ring

theorem triangular_second {l m r : ℝ} (h1 : l ≤ m) (h2 : m ≤ r) (h3 : l < r) :
    ∫ x, x ^ 2 ∂(triangularLaw l m r)
      = (l ^ 2 + m ^ 2 + r ^ 2 + l * m + l * r + m * r) / 6 := by
  rw [(triangular_power h1 h2 h3 2).2]
  have h0 : r - l ≠ 0 := by linarith
  rcases h1.eq_or_lt with rfl | h1
  · simp
    field_simp
    ring
  · rcases h2.eq_or_lt with rfl | h2
    · simp
      field_simp
      ring
    · have g1 : m - l ≠ 0 := by linarith
      have g2 : r - m ≠ 0 := by linarith
      simp
      field_simp
      ring

theorem triangularLaw_prob {l m r : ℝ} (h1 : l ≤ m) (h2 : m ≤ r) (h3 : l < r) :
    IsProbabilityMeasure (triangularLaw l m r) := by
  have hi := (triangular_power h1 h2 h3 0).1
  have h := triangular_zeroth h1 h2 h3
  simp only [pow_zero, integral_const, smul_eq_mul, mul_one] at h
  constructor
  have hne : (triangularLaw l m r) Set.univ ≠ ⊤ := by
    intro ht
    rw [measureReal_def, ht] at h
    simp at h
  rw [← ENNReal.ofReal_toReal hne]
  rw [measureReal_def] at h
  rw [h, ENNReal.ofReal_one]

theorem triangular_hasMean {l m r : ℝ} (h1 : l ≤ m) (h2 : m ≤ r) (h3 : l < r) :
    HasMean (triangularLaw l m r) ((l + m + r) / 3) := by
  have hi := (triangular_power h1 h2 h3 1).1
  have h := triangular_first h1 h2 h3
  simp only [pow_one] at hi h
  exact ⟨hi, h⟩

theorem triangular_hasVar {l m r : ℝ} (h1 : l ≤ m) (h2 : m ≤ r) (h3 : l < r) :
    HasVar (triangularLaw l m r) ((l ^ 2 + m ^ 2 + r ^ 2 - l * m - l * r - m * r) / 18) := by
  have := triangularLaw_prob h1 h2 h3
  exact hasVar_of (triangular_hasMean h1 h2 h3) (triangular_power h1 h2 h3 2).1 (triangular_second h1 h2 h3) (by ring)

end Verif
