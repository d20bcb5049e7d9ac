import Verif.Lemmas.LawMomentsDiscrete
import Verif.Lemmas.LawMomentsBounded
import Verif.Lemmas.UniformLaw
import Verif.Spec.Chances
import Mathlib.Probability.CDF
import Mathlib.MeasureTheory.Integral.IntegralEqImproper

/-!
# Distribution functions of numpy's laws
-/

namespace Verif

open MeasureTheory ProbabilityTheory Spec

/-- The law is at most `x` with chance `F x` and less than `x` with chance `G x`. -/
structure CdfOf (μ : Measure ℝ) (F G : ℝ → ℝ) : Prop where
  le : ∀ x, μ.real (Set.Iic x) = F x
  lt : ∀ x, μ.real (Set.Iio x) = G x

theorem CdfOf.gt {μ : Measure ℝ} [IsProbabilityMeasure μ] {F G : ℝ → ℝ} (h : CdfOf μ F G) (x : ℝ) :
    μ.real (Set.Ioi x) = 1 - F x := by
  rw [← Set.compl_Iic, probReal_compl_eq_one_sub measurableSet_Iic, h.le]

theorem CdfOf.ge {μ : Measure ℝ} [IsProbabilityMeasure μ] {F G : ℝ → ℝ} (h : CdfOf μ F G) (x : ℝ) :
    μ.real (Set.Ici x) = 1 - G x := by
  rw [← Set.compl_Iio, probReal_compl_eq_one_sub measurableSet_Iio, h.lt]

theorem cdfOf_curve {μ : Measure ℝ} (h0 : ∀ x, μ {x} = 0) {F : ℝ → ℝ} (h : ∀ x, μ.real (Set.Iic x) = F x) :
    CdfOf μ F F := by
  refine ⟨h, fun x => ?_⟩
  rw [← h x, measureReal_def, measureReal_def]
  congr 1
  refine le_antisymm (measure_mono Set.Iio_subset_Iic_self) ?_
  rw [← Set.Iio_union_right]
  exact (measure_union_le _ _).trans (by rw [h0, add_zero])

theorem cdfOf_integral {μ : Measure ℝ} {F G : ℝ → ℝ}
    (h : ∀ x, ∫ y, (if y ≤ x then (1 : ℝ) else 0) ∂μ = F x) (h' : ∀ x, ∫ y, (if y < x then (1 : ℝ) else 0) ∂μ = G x) :
    CdfOf μ F G := by
  constructor
  · intro x
    rw [← h x, ← integral_indicator_one measurableSet_Iic]
    rfl
  · intro x
    rw [← h' x, ← integral_indicator_one measurableSet_Iio]
    rfl

theorem withDensity_null {f : ℝ → ENNReal} (x : ℝ) : (volume.withDensity f) {x} = 0 :=
  withDensity_absolutelyContinuous _ _ (Real.volume_singleton)

theorem uniform_cdf {a b : ℝ} (h : a < b) :
    CdfOf (uniformLaw a b) (fun x => if x ≤ a then 0 else if x < b then (x - a) / (b - a) else 1)
      (fun x => if x ≤ a then 0 else if x < b then (x - a) / (b - a) else 1) := by
  have hp := uniformLaw_prob h
  refine cdfOf_curve (fun x => ?_) fun x => ?_
  · rw [uniformLaw, Measure.smul_apply, Measure.restrict_apply (measurableSet_singleton x)]
    rw [measure_mono_null Set.inter_subset_left Real.volume_singleton, smul_zero]
  · rw [measureReal_def, uniformLaw, Measure.smul_apply, Measure.restrict_apply measurableSet_Iic, smul_eq_mul,
      ENNReal.toReal_mul, ENNReal.toReal_inv, ENNReal.toReal_ofReal (by linarith)]
    split_ifs with h1 h2
    · have : volume (Set.Iic x ∩ Set.Ico a b) = 0 := by
        refine measure_mono_null (t := {a}) ?_ Real.volume_singleton
        rintro y ⟨h3, h4, -⟩
        exact le_antisymm ((show y ≤ x from h3).trans h1) h4
      rw [this]
      simp
    · have : Set.Iic x ∩ Set.Ico a b = Set.Icc a x := by
        ext y
        simp only [Set.mem_inter_iff, Set.mem_Iic, Set.mem_Ico, Set.mem_Icc]
        constructor
        · rintro ⟨p, q, r⟩; exact ⟨q, p⟩
        · rintro ⟨p, q⟩; exact ⟨q, p, by linarith⟩
      rw [this, Real.volume_Icc, ENNReal.toReal_ofReal (by linarith)]
      field_simp
    · have : Set.Iic x ∩ Set.Ico a b = Set.Ico a b := by
        ext y
        simp only [Set.mem_inter_iff, Set.mem_Iic, Set.mem_Ico]
        constructor
        · rintro ⟨p, q⟩; exact q
        · rintro ⟨p, q⟩; exact ⟨by linarith, p, q⟩
      rw [this, Real.volume_Ico, ENNReal.toReal_ofReal (by linarith)]
      have : b - a ≠ 0 := by linarith
      field_simp

theorem normal_cdf {m s : ℝ} (hs : 0 < s) :
    CdfOf (normalLaw m s) (fun x => Phi ((x - m) / s)) (fun x => Phi ((x - m) / s)) := by
  have hv : (NNReal.mk (s ^ 2) (sq_nonneg s)) ≠ 0 := by
    intro h
    have := congrArg NNReal.toReal h
    simp at this
    exact hs.ne' this
  have := nullSingletonClass_gaussianReal (μ := m) hv
  refine cdfOf_curve (μ := normalLaw m s) (fun x => this.measure_singleton x) fun x => ?_
  have e : normalLaw m s = (gaussianReal 0 1).map (fun x => m + s * x) := by
    have h1 := gaussianReal_map_const_mul (μ := 0) (v := 1) s
    have h2 := gaussianReal_map_const_add (μ := s * 0) (v := (NNReal.mk (s ^ 2) (sq_nonneg s)) * 1) m
    rw [← h1, Measure.map_map (by fun_prop) (by fun_prop)] at h2
    rw [normalLaw]
    simp only [mul_zero, zero_add, mul_one] at h2
    exact h2.symm
  rw [e, map_measureReal_apply (by fun_prop) measurableSet_Iic]
  show _ = (gaussianReal 0 1).real (Set.Iic ((x - m) / s))
  congr 1
  ext y
  simp only [Set.mem_preimage, Set.mem_Iic]
  rw [le_div_iff₀ hs]
  constructor <;> intro h <;> linarith

theorem lognormal_cdf {m s : ℝ} (hs : 0 < s) :
    CdfOf (lognormalLaw m s) (fun x => if x ≤ 0 then 0 else Phi ((Real.log x - m) / s))
      (fun x => if x ≤ 0 then 0 else Phi ((Real.log x - m) / s)) := by
  have hn := normal_cdf (m := m) hs
  constructor
  · intro x
    rw [lognormalLaw, map_measureReal_apply Real.measurable_exp measurableSet_Iic]
    split_ifs with h
    · have : Real.exp ⁻¹' Set.Iic x = ∅ := by
        ext y
        simp only [Set.mem_preimage, Set.mem_Iic, Set.mem_empty_iff_false, iff_false, not_le]
        exact h.trans_lt (Real.exp_pos y)
      rw [this, measureReal_empty]
    · rw [← hn.le]
      congr 1
      ext y
      exact (Real.le_log_iff_exp_le (not_le.1 h)).symm
  · intro x
    rw [lognormalLaw, map_measureReal_apply Real.measurable_exp measurableSet_Iio]
    split_ifs with h
    · have : Real.exp ⁻¹' Set.Iio x = ∅ := by
        ext y
        simp only [Set.mem_preimage, Set.mem_Iio, Set.mem_empty_iff_false, iff_false, not_lt]
        exact h.trans (Real.exp_pos y).le
      rw [this, measureReal_empty]
    · rw [← hn.lt]
      congr 1
      ext y
      exact (Real.lt_log_iff_exp_lt (not_le.1 h)).symm

theorem exponential_cdf {c : ℝ} (hc : 0 < c) :
    CdfOf (expMeasure (1 / c)) (fun x => if x ≤ 0 then 0 else 1 - Real.exp (-x / c))
      (fun x => if x ≤ 0 then 0 else 1 - Real.exp (-x / c)) := by
  have hr : 0 < 1 / c := by positivity
  have := isProbabilityMeasure_expMeasure hr
  refine cdfOf_curve (μ := expMeasure (1 / c)) (fun x => withDensity_null x) fun x => ?_
  rw [← cdf_eq_real, cdf_expMeasure_eq hr]
  by_cases h : x ≤ 0
  · rw [if_pos h]
    by_cases h' : 0 ≤ x
    · obtain rfl := le_antisymm h h'
      simp
    · rw [if_neg h']
  · rw [if_neg h, if_pos (by linarith)]
    congr 2
    field_simp

theorem pareto_cdf {r : ℝ} (hr : 0 < r) :
    CdfOf (paretoMeasure 1 r) (fun x => if x ≤ 1 then 0 else 1 - x ^ (-r))
      (fun x => if x ≤ 1 then 0 else 1 - x ^ (-r)) := by
  have hp := isProbabilityMeasure_paretoMeasure one_pos hr
  refine cdfOf_curve (μ := paretoMeasure 1 r) (fun x => withDensity_null x) fun x => ?_
  split_ifs with h
  · have : paretoMeasure 1 r (Set.Iio 1) = 0 := by
      rw [paretoMeasure, withDensity_apply _ measurableSet_Iio]
      exact lintegral_paretoPDF_of_le le_rfl
    have h1 : paretoMeasure 1 r (Set.Iic 1) = 0 := by
      rw [← Set.Iio_union_right]
      exact le_antisymm ((measure_union_le _ _).trans (by
        rw [this, zero_add]; exact (withDensity_null 1).le)) bot_le
    rw [measureReal_def, measure_mono_null (Set.Iic_subset_Iic.2 h) h1, ENNReal.toReal_zero]
  · have hx : 1 < x := not_le.1 h
    have h0 : 0 < x := by linarith
    have e : (paretoMeasure 1 r).real (Set.Ioi x) = x ^ (-r) := by
      rw [measureReal_def, paretoMeasure, withDensity_apply _ measurableSet_Ioi]
      have e1 : ∫⁻ y in Set.Ioi x, paretoPDF 1 r y = ∫⁻ y in Set.Ioi x, ENNReal.ofReal (r * y ^ (-(r + 1))) := by
        refine setLIntegral_congr_fun measurableSet_Ioi fun y hy => ?_
        have hy : x < y := hy
        rw [paretoPDF_of_le (by linarith : (1 : ℝ) ≤ y)]
        simp
      rw [e1, ← integral_eq_lintegral_of_nonneg_ae]
      · rw [integral_const_mul, integral_Ioi_rpow_of_lt (by linarith) h0]
        rw [show -(r + 1) + 1 = -r by ring]
        field_simp
      · filter_upwards [ae_restrict_mem measurableSet_Ioi] with y hy
        have hy : x < y := hy
        have : 0 < y := by linarith
        positivity
      · fun_prop
    rw [← Set.compl_Ioi, probReal_compl_eq_one_sub measurableSet_Ioi, e]

theorem triangular_piece {l m r : ℝ} (h1 : l ≤ m) (h2 : m ≤ r) (h3 : l < r) {A : Set ℝ} (hA : MeasurableSet A) {a b : ℝ}
    (hab : a ≤ b) {g : ℝ → ℝ} (h : ∀ᵐ y, A.indicator (triangularPDF l m r) y = (Set.Ioc a b).indicator g y) :
    (triangularLaw l m r).real A = ∫ y in a..b, g y := by
  rw [measureReal_def, triangularLaw, withDensity_apply _ hA, ← integral_eq_lintegral_of_nonneg_ae
    (.of_forall fun x => triangularPDF_nonneg h1 h2 h3 x) (measurable_triangularPDF l m r).aestronglyMeasurable,
    ← integral_indicator hA, integral_congr_ae h, integral_indicator measurableSet_Ioc,
    intervalIntegral.integral_of_le hab]

theorem ae_ne (a : ℝ) : ∀ᵐ y : ℝ, y ≠ a := by
  rw [ae_iff]
  simp

theorem triangular_cdf {l m r : ℝ} (h1 : l ≤ m) (h2 : m ≤ r) (h3 : l < r) :
    CdfOf (triangularLaw l m r) (triangularBelow l m r) (triangularBelow l m r) := by
  have hp := triangularLaw_prob h1 h2 h3
  refine cdfOf_curve (μ := triangularLaw l m r) (fun x => withDensity_null x) fun x => ?_
  unfold triangularBelow
  split_ifs with c1 c2 c3
  · rw [triangular_piece h1 h2 h3 measurableSet_Iic (le_refl x) (g := fun _ => 0), intervalIntegral.integral_same]
    filter_upwards [ae_ne l] with y hy
    rw [Set.Ioc_self, Set.indicator_empty]
    by_cases hx : y ∈ Set.Iic x
    · rw [Set.indicator_of_mem hx, triangularPDF]
      have hx : y ≤ x := hx
      have : y < l := lt_of_le_of_ne (hx.trans c1) hy
      rw [if_neg (by rintro ⟨a, b⟩; linarith), if_neg (by rintro ⟨a, b⟩; linarith)]
    · rw [Set.indicator_of_notMem hx]
  · have c1 := not_le.1 c1
    rw [triangular_piece h1 h2 h3 measurableSet_Iic c1.le (g := fun y => 2 * (y - l) / ((r - l) * (m - l)))]
    · have hd : ∀ y ∈ Set.uIcc l x, HasDerivAt (fun y => (y - l) ^ 2 / ((r - l) * (m - l)))
          (2 * (y - l) / ((r - l) * (m - l))) y := by
        intro y _
        have := (((hasDerivAt_id y).sub_const l).pow 2).div_const ((r - l) * (m - l))
        simpa using this
      rw [intervalIntegral.integral_eq_sub_of_hasDerivAt hd (by
        apply Continuous.intervalIntegrable; fun_prop)]
      simp
    · filter_upwards [ae_ne l, ae_ne m] with y hl hm
      by_cases hx : y ≤ x
      · rw [Set.indicator_of_mem (by exact hx), triangularPDF]
        by_cases hy : l < y
        · rw [if_pos ⟨hy.le, lt_of_le_of_ne (hx.trans c2) hm⟩, Set.indicator_of_mem (by exact ⟨hy, hx⟩)]
        · rw [Set.indicator_of_notMem (by rintro ⟨a, b⟩; exact hy a), if_neg, if_neg]
          · rintro ⟨a, b⟩; exact hy (lt_of_le_of_ne (by linarith) hl.symm)
          · rintro ⟨a, b⟩; exact hy (lt_of_le_of_ne (by linarith) hl.symm)
      · rw [Set.indicator_of_notMem (by exact hx), Set.indicator_of_notMem (by rintro ⟨a, b⟩; exact hx b)]
  · have c2 := not_le.1 c2
    rw [← Set.compl_Ioi, probReal_compl_eq_one_sub measurableSet_Ioi]
    congr 1
    rw [triangular_piece h1 h2 h3 measurableSet_Ioi c3.le (g := fun y => 2 * (r - y) / ((r - l) * (r - m)))]
    · have hd : ∀ y ∈ Set.uIcc x r, HasDerivAt (fun y => -(r - y) ^ 2 / ((r - l) * (r - m)))
          (2 * (r - y) / ((r - l) * (r - m))) y := by
        intro y _
        have := ((((hasDerivAt_id y).const_sub r).pow 2).neg).div_const ((r - l) * (r - m))
        simpa using this
      rw [intervalIntegral.integral_eq_sub_of_hasDerivAt hd (by
        apply Continuous.intervalIntegrable; fun_prop)]
      simp [neg_div]
    · refine .of_forall fun y => ?_
      by_cases hx : x < y
      · rw [Set.indicator_of_mem (by exact hx), triangularPDF, if_neg (by rintro ⟨a, b⟩; linarith)]
        by_cases hy : y ≤ r
        · rw [if_pos ⟨by linarith, hy⟩, Set.indicator_of_mem (by exact ⟨hx, hy⟩)]
        · rw [if_neg (by rintro ⟨a, b⟩; exact hy b), Set.indicator_of_notMem (by rintro ⟨a, b⟩; exact hy b)]
      · rw [Set.indicator_of_notMem (by exact hx), Set.indicator_of_notMem (by rintro ⟨a, b⟩; exact hx a)]
  · have c2 := not_le.1 c2
    have c3 := not_lt.1 c3
    rw [← Set.compl_Ioi, probReal_compl_eq_one_sub measurableSet_Ioi]
    rw [triangular_piece h1 h2 h3 measurableSet_Ioi (le_refl x) (g := fun _ => 0), intervalIntegral.integral_same,
      sub_zero]
    refine .of_forall fun y => ?_
    rw [Set.Ioc_self, Set.indicator_empty]
    by_cases hx : y ∈ Set.Ioi x
    · rw [Set.indicator_of_mem hx, triangularPDF]
      have hx : x < y := hx
      rw [if_neg (by rintro ⟨a, b⟩; linarith), if_neg (by rintro ⟨a, b⟩; linarith)]
    · rw [Set.indicator_of_notMem hx]

theorem bernoulli_cdf {p : ℝ} (h0 : 0 ≤ p) (h1 : p ≤ 1) :
    CdfOf (unitLaw.map fun u : ℝ => if u < p then 1 else 0)
      (fun x => if x < 0 then 0 else if x < 1 then 1 - p else 1)
      (fun x => if x ≤ 0 then 0 else if x ≤ 1 then 1 - p else 1) := by
  have hm : Measurable fun u : ℝ => if u < p then (1 : ℝ) else 0 :=
    Measurable.ite measurableSet_Iio measurable_const measurable_const
  refine cdfOf_integral (fun x => ?_) fun x => ?_
  · rw [integral_map hm.aemeasurable
      (Measurable.ite measurableSet_Iic measurable_const measurable_const).aestronglyMeasurable,
      (bernoulli_integral h0 h1 fun y => if y ≤ x then 1 else 0).2]
    split_ifs <;> linarith
  · rw [integral_map hm.aemeasurable
      (Measurable.ite measurableSet_Iio measurable_const measurable_const).aestronglyMeasurable,
      (bernoulli_integral h0 h1 fun y => if y < x then 1 else 0).2]
    split_ifs <;> linarith

open Classical in
theorem die_cdf {s : ℤ} (hs : 1 ≤ s) :
    CdfOf (integersLaw 1 (s + 1)) (fun x => ((Finset.Icc 1 s).filter fun k : ℤ => (k : ℝ) ≤ x).card / s)
      (fun x => ((Finset.Icc 1 s).filter fun k : ℤ => (k : ℝ) < x).card / s) := by
  have e : Finset.Ico 1 (s + 1) = Finset.Icc 1 s := by
    ext k
    simp only [Finset.mem_Ico, Finset.mem_Icc]
    omega
  refine cdfOf_integral (fun x => ?_) fun x => ?_
  · rw [(integersLaw_integral (by omega) _).2, e, Finset.sum_boole]
    push_cast
    ring
  · rw [(integersLaw_integral (by omega) _).2, e, Finset.sum_boole]
    push_cast
    ring

/-- A law on the natural numbers. -/
theorem nat_cdf {μ : Measure ℕ} {g : ℕ → ℝ} {F G : ℝ → ℝ} (h : ∀ x, μ.real {k | g k ≤ x} = F x)
    (h' : ∀ x, μ.real {k | g k < x} = G x) : CdfOf (μ.map g) F G := by
  constructor
  · intro x
    rw [map_measureReal_apply (by fun_prop) measurableSet_Iic]
    exact h x
  · intro x
    rw [map_measureReal_apply (by fun_prop) measurableSet_Iio]
    exact h' x

theorem geometric_range {p : unitInterval} (hp : p ≠ 0) (n : ℕ) :
    (geometricMeasure p).real {k | k < n} = 1 - (1 - (p : ℝ)) ^ n := by
  have e : {k | k < n} = ((Finset.range n : Finset ℕ) : Set ℕ) := by
    ext k
    simp
  rw [e, ← sum_measureReal_singleton]
  simp only [geometricMeasure_real_singleton hp]
  rw [← Finset.sum_mul, ← mul_neg_geom_sum (1 - (p : ℝ)) n]
  ring

theorem geometric_cdf {p : unitInterval} (hp : p ≠ 0) :
    CdfOf ((geometricMeasure p).map fun k : ℕ => (k : ℝ) + 1) (fun x => 1 - (1 - (p : ℝ)) ^ ⌊x⌋₊)
      (fun x => 1 - (1 - (p : ℝ)) ^ (⌈x⌉₊ - 1)) := by
  refine nat_cdf (fun x => ?_) fun x => ?_
  · rw [← geometric_range hp]
    congr 1
    ext k
    simp only [Set.mem_ofPred_eq]
    rw [← Nat.succ_le_iff, Nat.le_floor_iff' (Nat.succ_ne_zero k)]
    push_cast
    rfl
  · rw [← geometric_range hp]
    congr 1
    ext k
    simp only [Set.mem_ofPred_eq]
    rw [Nat.lt_sub_iff_add_lt, Nat.lt_ceil]
    push_cast
    rfl

open Classical in
theorem binomial_cdf (n : ℕ) (p : unitInterval) :
    CdfOf ((binomial n p).map fun k : ℕ => (k : ℝ))
      (fun x => ∑ k ∈ (Finset.range (n + 1)).filter (fun k : ℕ => (k : ℝ) ≤ x), binomialChance n p k)
      (fun x => ∑ k ∈ (Finset.range (n + 1)).filter (fun k : ℕ => (k : ℝ) < x), binomialChance n p k) := by
  have key : ∀ A : Set ℕ, (binomial n p).real A
      = ∑ k ∈ (Finset.range (n + 1)).filter (fun k : ℕ => k ∈ A), binomialChance n p k := by
    intro A
    rw [← integral_indicator_one (MeasurableSet.of_discrete), binomial_sum, Finset.sum_filter]
    refine Finset.sum_congr rfl fun k _ => ?_
    by_cases h : k ∈ A
    · rw [Set.indicator_of_mem h, if_pos h]
      simp [bernsteinPolynomial, binomialChance]
    · rw [Set.indicator_of_notMem h, if_neg h, zero_mul]
  exact nat_cdf (fun x => key _) fun x => key _

theorem poisson_range {lam : ℝ} (h : 0 ≤ lam) (n : ℕ) :
    (poissonMeasure (.mk lam h)).real {k | k < n} = ∑ k ∈ Finset.range n, poissonChance lam k := by
  have e : {k | k < n} = ((Finset.range n : Finset ℕ) : Set ℕ) := by
    ext k
    simp
  rw [e, ← sum_measureReal_singleton]
  refine Finset.sum_congr rfl fun k _ => ?_
  rw [poissonMeasure_real_singleton]
  rfl

theorem poisson_cdf {lam : ℝ} (h : 0 ≤ lam) :
    CdfOf ((poissonMeasure (.mk lam h)).map fun k : ℕ => (k : ℝ))
      (fun x => if x < 0 then 0 else ∑ k ∈ Finset.range (⌊x⌋₊ + 1), poissonChance lam k)
      (fun x => ∑ k ∈ Finset.range ⌈x⌉₊, poissonChance lam k) := by
  refine nat_cdf (fun x => ?_) fun x => ?_
  · split_ifs with hx
    · have : {k : ℕ | (k : ℝ) ≤ x} = ∅ := by
        ext k
        simp only [Set.mem_ofPred_eq, Set.mem_empty_iff_false, iff_false, not_le]
        exact hx.trans_le (Nat.cast_nonneg k)
      rw [this, measureReal_empty]
    · rw [← poisson_range h]
      congr 1
      ext k
      simp only [Set.mem_ofPred_eq]
      rw [Nat.lt_succ_iff, Nat.le_floor_iff (not_lt.1 hx)]
  · rw [← poisson_range h]
    congr 1
    ext k
    simp only [Set.mem_ofPred_eq]
    rw [Nat.lt_ceil]

end Verif
