import Verif.Lemmas.LawChances
import Verif.Lemmas.LawMoments
import Verif.Lemmas.UniformLaw
import Verif.Lemmas.LawMomentsBounded
import Verif.Spec.NumpyLaws
import Mathlib.Probability.Moments.ComplexMGF
import Mathlib.MeasureTheory.Integral.Prod
import Mathlib.Analysis.SpecialFunctions.Gaussian.GaussianIntegral

/-!
# Laws of sums, scalings and minima within the standard families
-/

namespace Verif

open MeasureTheory ProbabilityTheory Spec

/-! ### A law is determined by its exponential moments near zero -/

/-- `f t` is the exponential moment of `μ` for every `|t| < ε`. -/
def ExpMoments (μ : Measure ℝ) (ε : ℝ) (f : ℝ → ℝ) : Prop :=
  ∀ t, |t| < ε → Integrable (fun x => Real.exp (t * x)) μ ∧ ∫ x, Real.exp (t * x) ∂μ = f t

theorem ExpMoments.eq {μ ν : Measure ℝ} [IsFiniteMeasure μ] [IsFiniteMeasure ν] {ε : ℝ} {f : ℝ → ℝ} (hε : 0 < ε)
    (hμ : ExpMoments μ ε f) (hν : ExpMoments ν ε f) : μ = ν := by
  have sub : ∀ ρ : Measure ℝ, ExpMoments ρ ε f → Set.Ioo (-ε) ε ⊆ interior (integrableExpSet id ρ) := fun ρ hρ =>
    interior_maximal (fun t ht => (hρ t (abs_lt.2 ht)).1) isOpen_Ioo
  have hon : Set.EqOn (complexMGF id μ) (complexMGF id ν) {z | z.re ∈ Set.Ioo (-ε) ε} := by
    refine AnalyticOnNhd.eqOn_of_preconnected_of_frequently_eq (z₀ := 0)
      (fun z hz => analyticAt_complexMGF (sub μ hμ hz)) (fun z hz => analyticAt_complexMGF (sub ν hν hz))
      (convex_Ioo (-ε) ε |>.linear_preimage Complex.reLm).isPreconnected
      (by simp [hε]) ?_
    have h1 : ∃ᶠ t : ℝ in nhdsWithin 0 {0}ᶜ, complexMGF id μ t = complexMGF id ν t := by
      refine Filter.Eventually.frequently ?_
      refine (eventually_nhdsWithin_of_eventually_nhds ?_)
      filter_upwards [Ioo_mem_nhds (neg_lt_zero.2 hε) hε] with t ht
      rw [complexMGF_ofReal, complexMGF_ofReal]
      congr 1
      exact (hμ t (abs_lt.2 ht)).2.trans (hν t (abs_lt.2 ht)).2.symm
    have h2 : Filter.Tendsto (fun t : ℝ => (t : ℂ)) (nhdsWithin 0 {0}ᶜ) (nhdsWithin 0 {0}ᶜ) := by
      refine tendsto_nhdsWithin_of_tendsto_nhds_of_eventually_within _ ?_ ?_
      · exact tendsto_nhdsWithin_of_tendsto_nhds (Complex.continuous_ofReal.tendsto' 0 0 (by simp))
      · filter_upwards [self_mem_nhdsWithin] with t ht
        simpa using ht
    exact h2.frequently h1
  refine Measure.ext_of_charFun ?_
  funext t
  rw [← complexMGF_id_mul_I, ← complexMGF_id_mul_I]
  exact hon (by simp [hε])

theorem ExpMoments.add {μ ν : Measure ℝ} [SFinite μ] [SFinite ν] {ε : ℝ} {f g : ℝ → ℝ}
    (hμ : ExpMoments μ ε f) (hν : ExpMoments ν ε g) :
    ExpMoments ((μ.prod ν).map fun p => p.1 + p.2) ε fun t => f t * g t := by
  intro t ht
  have e : (fun p : ℝ × ℝ => Real.exp (t * (p.1 + p.2))) = fun p => Real.exp (t * p.1) * Real.exp (t * p.2) := by
    funext p
    rw [mul_add, Real.exp_add]
  constructor
  · rw [integrable_map_measure (by fun_prop) (by fun_prop)]
    show Integrable (fun p : ℝ × ℝ => Real.exp (t * (p.1 + p.2))) _
    rw [e]
    exact (hμ t ht).1.mul_prod (hν t ht).1
  · rw [integral_map (by fun_prop) (by fun_prop), e,
      integral_prod_mul (fun x => Real.exp (t * x)) fun x => Real.exp (t * x), (hμ t ht).2, (hν t ht).2]

/-! ### Gamma -/

theorem exp_mul_gammaPDF {a r t : ℝ} (hr : 0 < r) (ht : t < r) (x : ℝ) :
    gammaPDF a r x * ENNReal.ofReal (Real.exp (t * x))
      = ENNReal.ofReal ((r / (r - t)) ^ a) * gammaPDF a (r - t) x := by
  rcases lt_or_ge x 0 with hx | hx
  · rw [gammaPDF_of_neg hx, gammaPDF_of_neg hx]; simp
  · have hrt : 0 < r - t := by linarith
    rw [gammaPDF_of_nonneg hx, gammaPDF_of_nonneg hx, ← ENNReal.ofReal_mul' (Real.exp_nonneg _),
      ← ENNReal.ofReal_mul (by positivity)]
    congr 1
    rw [Real.div_rpow hr.le hrt.le, show -((r - t) * x) = -(r * x) + t * x by ring, Real.exp_add]
    have := (Real.rpow_pos_of_pos hrt a).ne'
    field_simp

theorem gamma_expMoments {a r : ℝ} (ha : 0 < a) (hr : 0 < r) :
    ExpMoments (gammaMeasure a r) r fun t => (r / (r - t)) ^ a := by
  intro t ht
  have ht' : t < r := (le_abs_self t).trans_lt ht
  have hl : ∫⁻ x, ENNReal.ofReal (Real.exp (t * x)) ∂(gammaMeasure a r) = ENNReal.ofReal ((r / (r - t)) ^ a) := by
    rw [gammaMeasure, lintegral_withDensity_eq_lintegral_mul _ (measurable_gammaPDF a r) (by fun_prop)]
    simp only [Pi.mul_apply, exp_mul_gammaPDF hr ht']
    rw [lintegral_const_mul _ (measurable_gammaPDF a _), lintegral_gammaPDF_eq_one ha (by linarith), mul_one]
  have hrt : 0 < r - t := by linarith
  constructor
  · refine ⟨by fun_prop, ?_⟩
    rw [hasFiniteIntegral_iff_ofReal (.of_forall fun x => Real.exp_nonneg _), hl]
    exact ENNReal.ofReal_lt_top
  · rw [integral_eq_lintegral_of_nonneg_ae (.of_forall fun x => Real.exp_nonneg _) (by fun_prop), hl,
      ENNReal.toReal_ofReal (by positivity)]

/-- The sum of independent gamma numbers of the same rate. -/
theorem gamma_add {a b r : ℝ} (ha : 0 < a) (hb : 0 < b) (hr : 0 < r) :
    (((gammaMeasure a r).prod (gammaMeasure b r)).map fun p : ℝ × ℝ => p.1 + p.2) = gammaMeasure (a + b) r := by
  have := isProbabilityMeasure_gammaMeasure ha hr
  have := isProbabilityMeasure_gammaMeasure hb hr
  have := isProbabilityMeasure_gammaMeasure (add_pos ha hb) hr
  have := Measure.isProbabilityMeasure_map (μ := (gammaMeasure a r).prod (gammaMeasure b r))
    (f := fun p : ℝ × ℝ => p.1 + p.2) (by fun_prop)
  refine ExpMoments.eq hr ((gamma_expMoments ha hr).add (gamma_expMoments hb hr)) ?_
  intro t ht
  have ht' : 0 < r - t := by linarith [(le_abs_self t).trans_lt ht]
  obtain ⟨h1, h2⟩ := gamma_expMoments (add_pos ha hb) hr t ht
  exact ⟨h1, h2.trans (Real.rpow_add (by positivity) _ _)⟩

/-- Positive multiples of gamma numbers. -/
theorem gamma_scale {a r c : ℝ} (ha : 0 < a) (hr : 0 < r) (hc : 0 < c) :
    (gammaMeasure a r).map (fun x => c * x) = gammaMeasure a (r / c) := by
  have := isProbabilityMeasure_gammaMeasure ha hr
  have hrc : 0 < r / c := by positivity
  have := isProbabilityMeasure_gammaMeasure ha hrc
  have := Measure.isProbabilityMeasure_map (μ := gammaMeasure a r) (f := fun x => c * x) (by fun_prop)
  refine ExpMoments.eq hrc ?_ (gamma_expMoments ha hrc)
  intro t ht
  have hct : |t * c| < r := by
    rw [abs_mul, abs_of_pos hc]
    exact (lt_div_iff₀ hc).1 ht
  obtain ⟨h1, h2⟩ := gamma_expMoments ha hr _ hct
  constructor
  · rw [integrable_map_measure (by fun_prop) (by fun_prop)]
    simpa [Function.comp_def, mul_assoc] using h1
  · rw [integral_map (by fun_prop) (by fun_prop)]
    simp only [← mul_assoc]
    rw [h2]
    have : r - t * c ≠ 0 := by linarith [(le_abs_self (t * c)).trans_lt hct]
    have : r / c - t ≠ 0 := by
      intro h0
      apply this
      field_simp at h0
      linarith
    field_simp

/-- The square of a standard normal number. -/
theorem normal_sq : (normalLaw 0 1).map (fun x => x ^ 2) = chisquareLaw 1 := by
  have hp : IsProbabilityMeasure (chisquareLaw 1) :=
    isProbabilityMeasure_gammaMeasure (by norm_num) (by norm_num)
  have := Measure.isProbabilityMeasure_map (μ := normalLaw 0 1) (f := fun x => x ^ 2) (by fun_prop)
  refine ExpMoments.eq (ε := 1 / 2) (by norm_num) ?_ (gamma_expMoments (by norm_num) (by norm_num))
  intro t ht
  have ht' : 0 < 1 / 2 - t := by linarith [(le_abs_self t).trans_lt ht]
  have hd : ∀ x, gaussianPDFReal 0 1 x * Real.exp (t * x ^ 2)
      = (Real.sqrt (2 * Real.pi))⁻¹ * Real.exp (-(1 / 2 - t) * x ^ 2) := by
    intro x
    rw [gaussianPDFReal, mul_assoc, ← Real.exp_add]
    congr 2
    · simp
    · simp
      ring
  have hg : normalLaw 0 1 = gaussianReal 0 1 := by
    rw [normalLaw]
    congr 1
    ext
    simp
  have hi : Integrable (fun x => Real.exp (t * x ^ 2)) (gaussianReal 0 1) := by
    rw [gaussianReal_of_var_ne_zero _ one_ne_zero,
      integrable_withDensity_iff_integrable_smul' (measurable_gaussianPDF 0 1) (.of_forall fun _ => gaussianPDF_lt_top)]
    simp only [toReal_gaussianPDF, smul_eq_mul, hd]
    exact (integrable_exp_neg_mul_sq ht').const_mul _
  rw [hg]
  constructor
  · rw [integrable_map_measure (by fun_prop) (by fun_prop)]
    exact hi
  · rw [integral_map (by fun_prop) (by fun_prop), integral_gaussianReal_eq_integral_smul one_ne_zero]
    simp only [smul_eq_mul, hd]
    rw [integral_const_mul, integral_gaussian, ← Real.sqrt_inv, ← Real.sqrt_mul (by positivity), Real.sqrt_eq_rpow]
    congr 1
    have := Real.pi_pos.ne'
    field_simp

/-! ### Binomial and Poisson -/

theorem binomial_expMoments (n : ℕ) (p : unitInterval) (ε : ℝ) :
    ExpMoments ((binomial n p).map fun k : ℕ => (k : ℝ)) ε
      fun t => ((p : ℝ) * Real.exp t + (1 - p)) ^ n := by
  intro t _
  constructor
  · exact integrable_map_cast_binomial _
  · rw [integral_map_cast_binomial]
    show _ = ((p : ℝ) * Real.exp t + (1 - p)) ^ n
    rw [add_pow, Nat.range_succ_eq_Iic]
    refine Finset.sum_congr rfl fun k _ => ?_
    rw [smul_eq_mul, mul_pow, ← Real.exp_nat_mul, mul_comm t]
    ring

theorem binomial_add (n m : ℕ) (p : unitInterval) :
    ((((binomial n p).map fun k : ℕ => (k : ℝ)).prod ((binomial m p).map fun k : ℕ => (k : ℝ))).map
      fun q : ℝ × ℝ => q.1 + q.2) = (binomial (n + m) p).map fun k : ℕ => (k : ℝ) := by
  refine ExpMoments.eq one_pos ((binomial_expMoments n p 1).add (binomial_expMoments m p 1)) ?_
  intro t ht
  obtain ⟨h1, h2⟩ := binomial_expMoments (n + m) p 1 t ht
  exact ⟨h1, h2.trans (pow_add _ _ _)⟩

theorem poisson_add (a b : NNReal) :
    ((((poissonMeasure a).map fun k : ℕ => (k : ℝ)).prod ((poissonMeasure b).map fun k : ℕ => (k : ℝ))).map
      fun q : ℝ × ℝ => q.1 + q.2) = (poissonMeasure (a + b)).map fun k : ℕ => (k : ℝ) :=
  map_cast_poissonMeasure_conv a b

theorem bernoulli_binomial {p : ℝ} (h : 0 ≤ p ∧ p ≤ 1) :
    (unitLaw.map fun u : ℝ => if u < p then (1 : ℝ) else 0) = (binomial 1 ⟨p, h⟩).map fun k : ℕ => (k : ℝ) := by
  have hm : Measurable fun u : ℝ => if u < p then (1 : ℝ) else 0 :=
    Measurable.ite measurableSet_Iio measurable_const measurable_const
  have : IsProbabilityMeasure unitLaw := by rw [← uniformLaw_unit]; exact uniformLaw_prob one_pos
  have := Measure.isProbabilityMeasure_map (μ := unitLaw) hm.aemeasurable
  refine ExpMoments.eq one_pos ?_ (binomial_expMoments 1 ⟨p, h⟩ 1)
  intro t _
  obtain ⟨h1, h2⟩ := bernoulli_integral h.1 h.2 fun x => Real.exp (t * x)
  constructor
  · rw [integrable_map_measure (by fun_prop) hm.aemeasurable]
    exact h1
  · rw [integral_map hm.aemeasurable (by fun_prop), h2]
    simp

/-! ### Minima -/

theorem eq_of_tail {μ ν : Measure ℝ} [IsProbabilityMeasure μ] [IsProbabilityMeasure ν]
    (h : ∀ x, μ (Set.Ioi x) = ν (Set.Ioi x)) : μ = ν := by
  refine Measure.ext_of_Iic _ _ fun x => ?_
  rw [← Set.compl_Ioi, prob_compl_eq_one_sub measurableSet_Ioi, prob_compl_eq_one_sub measurableSet_Ioi, h]

theorem min_tail {μ ν : Measure ℝ} [SFinite μ] [SFinite ν] (x : ℝ) :
    ((μ.prod ν).map fun p : ℝ × ℝ => min p.1 p.2) (Set.Ioi x) = μ (Set.Ioi x) * ν (Set.Ioi x) := by
  rw [Measure.map_apply (by fun_prop) measurableSet_Ioi, ← Measure.prod_prod]
  congr 1
  ext p
  simp

theorem exp_tail {r : ℝ} (hr : 0 < r) (x : ℝ) :
    expMeasure r (Set.Ioi x) = ENNReal.ofReal (Real.exp (-(r * max x 0))) := by
  have := isProbabilityMeasure_expMeasure hr
  rw [← ofReal_measureReal, ← Set.compl_Iic, probReal_compl_eq_one_sub measurableSet_Iic, ← cdf_eq_real,
    cdf_expMeasure_eq hr]
  congr 1
  split_ifs with h
  · rw [max_eq_left h]; ring
  · rw [max_eq_right (not_le.1 h).le]; simp

/-- The smaller of two exponential numbers: the rates add up. -/
theorem exp_min {r s : ℝ} (hr : 0 < r) (hs : 0 < s) :
    (((expMeasure r).prod (expMeasure s)).map fun p : ℝ × ℝ => min p.1 p.2) = expMeasure (r + s) := by
  have := isProbabilityMeasure_expMeasure hr
  have := isProbabilityMeasure_expMeasure hs
  have := isProbabilityMeasure_expMeasure (add_pos hr hs)
  have := Measure.isProbabilityMeasure_map (μ := (expMeasure r).prod (expMeasure s))
    (f := fun p : ℝ × ℝ => min p.1 p.2) (by fun_prop)
  refine eq_of_tail fun x => ?_
  rw [min_tail, exp_tail hr, exp_tail hs, exp_tail (add_pos hr hs), ← ENNReal.ofReal_mul (Real.exp_nonneg _),
    ← Real.exp_add]
  congr 2
  ring

theorem geometric_tail {p : unitInterval} (hp : p ≠ 0) (x : ℝ) :
    ((geometricMeasure p).map fun k : ℕ => (k : ℝ) + 1) (Set.Ioi x) = ENNReal.ofReal ((1 - (p : ℝ)) ^ ⌊x⌋₊) := by
  have := Measure.isProbabilityMeasure_map (μ := geometricMeasure p) (f := fun k : ℕ => (k : ℝ) + 1) (by fun_prop)
  rw [← ofReal_measureReal]
  congr 1
  rw [(geometric_cdf hp).gt x, sub_sub_cancel]

/-- The smaller of two geometric numbers: the first trial on which either event happens. -/
theorem geometric_min {p q r : unitInterval} (hp : p ≠ 0) (hq : q ≠ 0) (hr : (r : ℝ) = p + q - p * q) :
    ((((geometricMeasure p).map fun k : ℕ => (k : ℝ) + 1).prod ((geometricMeasure q).map fun k : ℕ => (k : ℝ) + 1)).map
      fun z : ℝ × ℝ => min z.1 z.2) = (geometricMeasure r).map fun k : ℕ => (k : ℝ) + 1 := by
  have hr0 : r ≠ 0 := by
    intro h
    have h1 : (0 : ℝ) < p := lt_of_le_of_ne p.2.1 fun h => hp (Subtype.ext h.symm)
    have h2 : (0 : ℝ) < q := lt_of_le_of_ne q.2.1 fun h => hq (Subtype.ext h.symm)
    have h3 : (p : ℝ) ≤ 1 := p.2.2
    rw [h] at hr
    have : (0 : ℝ) = p + q * (1 - p) := by rw [← sub_eq_zero] at hr ⊢; simp at hr; linarith
    nlinarith
  have := Measure.isProbabilityMeasure_map (μ := geometricMeasure p) (f := fun k : ℕ => (k : ℝ) + 1) (by fun_prop)
  have := Measure.isProbabilityMeasure_map (μ := geometricMeasure q) (f := fun k : ℕ => (k : ℝ) + 1) (by fun_prop)
  have := Measure.isProbabilityMeasure_map (μ := geometricMeasure r) (f := fun k : ℕ => (k : ℝ) + 1) (by fun_prop)
  have := Measure.isProbabilityMeasure_map
    (μ := ((geometricMeasure p).map fun k : ℕ => (k : ℝ) + 1).prod ((geometricMeasure q).map fun k : ℕ => (k : ℝ) + 1))
    (f := fun z : ℝ × ℝ => min z.1 z.2) (by fun_prop)
  refine eq_of_tail fun x => ?_
  have h3 : (0 : ℝ) ≤ 1 - p := sub_nonneg.2 p.2.2
  rw [min_tail, geometric_tail hp, geometric_tail hq, geometric_tail hr0, ← ENNReal.ofReal_mul (by positivity),
    ← mul_pow, hr]
  congr 2
  ring

/-- Waiting times rounded up to whole units. -/
theorem exp_ceil {r : ℝ} (hr : 0 < r) {p : unitInterval} (hp : (p : ℝ) = 1 - Real.exp (-r)) :
    (expMeasure r).map (fun x => ((⌈x⌉ : ℤ) : ℝ)) = (geometricMeasure p).map fun k : ℕ => (k : ℝ) + 1 := by
  have hp0 : p ≠ 0 := by
    intro h
    rw [h] at hp
    have : Real.exp (-r) < 1 := by
      rw [← Real.exp_zero]; exact Real.exp_lt_exp.2 (by linarith)
    simp at hp
    linarith
  have := isProbabilityMeasure_expMeasure hr
  have hm : Measurable fun x : ℝ => ((⌈x⌉ : ℤ) : ℝ) := by fun_prop
  have := Measure.isProbabilityMeasure_map (μ := expMeasure r) hm.aemeasurable
  have := Measure.isProbabilityMeasure_map (μ := geometricMeasure p) (f := fun k : ℕ => (k : ℝ) + 1) (by fun_prop)
  refine eq_of_tail fun x => ?_
  have e : (fun x : ℝ => ((⌈x⌉ : ℤ) : ℝ)) ⁻¹' Set.Ioi x = Set.Ioi ((⌊x⌋ : ℤ) : ℝ) := by
    ext y
    rw [Set.mem_preimage, Set.mem_Ioi, Set.mem_Ioi, ← Int.floor_lt, Int.lt_ceil]
  rw [Measure.map_apply hm measurableSet_Ioi, e, exp_tail hr, geometric_tail hp0, hp, sub_sub_cancel, ← Real.exp_nat_mul]
  congr 2
  rcases le_total 0 x with hx | hx
  · have h1 : ((⌊x⌋₊ : ℕ) : ℝ) = ((⌊x⌋ : ℤ) : ℝ) := by
      exact_mod_cast congrArg (Int.cast : ℤ → ℝ) (Int.natCast_floor_eq_floor hx)
    rw [h1, max_eq_left (by exact_mod_cast Int.floor_nonneg.2 hx)]
    ring
  · have h2 : (⌊x⌋ : ℤ) ≤ 0 := by
      have := Int.floor_le_floor hx
      simpa using this
    rw [Nat.floor_of_nonpos hx, max_eq_right (by exact_mod_cast h2)]
    simp

/-! ### Beta -/

theorem beta_one_right {a : ℝ} (ha : 0 < a) : beta a 1 = 1 / a := by
  rw [beta, Real.Gamma_one, mul_one, Real.Gamma_add_one ha.ne']
  have := (Real.Gamma_pos_of_pos ha).ne'
  field_simp

theorem beta_one_one : betaMeasure 1 1 = uniformLaw 0 1 := by
  rw [uniformLaw_unit, unitLaw, ← Measure.restrict_congr_set Ioo_ae_eq_Ico, ← withDensity_indicator_one measurableSet_Ioo,
    betaMeasure]
  congr 1
  funext x
  rw [betaPDF_eq, beta_one_right one_pos]
  by_cases h : x ∈ Set.Ioo (0 : ℝ) 1
  · rw [if_pos (show 0 < x ∧ x < 1 from h), Set.indicator_of_mem h]
    simp
  · rw [if_neg (show ¬ (0 < x ∧ x < 1) from h), Set.indicator_of_notMem h]
    simp

/-- Counting from the other end. -/
theorem beta_reflect (a b : ℝ) : (betaMeasure a b).map (fun x => 1 - x) = betaMeasure b a := by
  ext B hB
  rw [Measure.map_apply (by fun_prop) hB, betaMeasure, betaMeasure,
    withDensity_apply _ (hB.preimage (by fun_prop)), withDensity_apply _ hB,
    ← lintegral_indicator (hB.preimage (by fun_prop)), ← lintegral_indicator hB,
    ← lintegral_sub_left_eq_self _ (1 : ℝ)]
  refine lintegral_congr fun x => ?_
  have e : betaPDF a b (1 - x) = betaPDF b a x := by
    rw [betaPDF_eq, betaPDF_eq]
    congr 1
    by_cases h : 0 < x ∧ x < 1
    · rw [if_pos h, if_pos ⟨by linarith [h.2], by linarith [h.1]⟩, sub_sub_cancel]
      have : beta a b = beta b a := by
        rw [beta, beta, mul_comm, add_comm a b]
      rw [this]
      ring
    · rw [if_neg h, if_neg fun h' => h ⟨by linarith [h'.2], by linarith [h'.1]⟩]
  by_cases h : x ∈ B
  · rw [Set.indicator_of_mem (show 1 - x ∈ (fun x => 1 - x) ⁻¹' B by simpa using h), Set.indicator_of_mem h, e]
  · rw [Set.indicator_of_notMem (show 1 - x ∉ (fun x => 1 - x) ⁻¹' B by simpa using h), Set.indicator_of_notMem h]

theorem beta_head {a : ℝ} (ha : 0 < a) (x : ℝ) :
    betaMeasure a 1 (Set.Iic x) = ENNReal.ofReal ((max 0 (min x 1)) ^ a) := by
  have hz : 0 ≤ max 0 (min x 1) := le_max_left _ _
  rw [betaMeasure, withDensity_apply _ measurableSet_Iic, ← lintegral_indicator measurableSet_Iic]
  have e : ∀ y, (Set.Iic x).indicator (betaPDF a 1) y
      = (Set.Ioo 0 1 ∩ Set.Iic x).indicator (fun y => ENNReal.ofReal (a * y ^ (a - 1))) y := by
    intro y
    by_cases h : y ∈ Set.Ioo 0 1 ∩ Set.Iic x
    · rw [Set.indicator_of_mem h.2, Set.indicator_of_mem h, betaPDF_eq,
        if_pos (show 0 < y ∧ y < 1 from h.1), beta_one_right ha]
      simp
    · rw [Set.indicator_of_notMem h]
      by_cases h2 : y ∈ Set.Iic x
      · rw [Set.indicator_of_mem h2, betaPDF_eq,
          if_neg fun h1 : 0 < y ∧ y < 1 => h ⟨h1, h2⟩]
        simp
      · rw [Set.indicator_of_notMem h2]
  simp only [e]
  have hs : (Set.Ioo 0 1 ∩ Set.Iic x : Set ℝ) =ᵐ[volume] Set.Ioc 0 (max 0 (min x 1)) := by
    refine (Ioo_ae_eq_Ioc.inter (ae_eq_refl (Set.Iic x))).trans (Filter.EventuallyEq.of_eq ?_)
    refine Set.ext fun y => ?_
    simp only [Set.mem_inter_iff, Set.mem_Ioc, Set.mem_Iic, le_max_iff, le_min_iff]
    constructor
    · rintro ⟨⟨h1, h2⟩, h3⟩
      exact ⟨h1, Or.inr ⟨h3, h2⟩⟩
    · rintro ⟨h1, h2 | ⟨h3, h2⟩⟩
      · exact absurd h1 (not_lt.2 h2)
      · exact ⟨⟨h1, h2⟩, h3⟩
  rw [lintegral_indicator (measurableSet_Ioo.inter measurableSet_Iic), setLIntegral_congr hs,
    ← ofReal_integral_eq_lintegral_ofReal]
  · congr 1
    rw [← intervalIntegral.integral_of_le hz, intervalIntegral.integral_const_mul,
      integral_rpow (Or.inl (by linarith)), sub_add_cancel, Real.zero_rpow ha.ne']
    field_simp
    ring
  · exact ((intervalIntegrable_iff_integrableOn_Ioc_of_le hz).1
      (intervalIntegral.intervalIntegrable_rpow' (by linarith))).const_mul _
  · filter_upwards [self_mem_ae_restrict measurableSet_Ioc] with y hy
    have := hy.1
    positivity

/-- The larger of two numbers of the laws `beta(a, 1)`. -/
theorem beta_max {a b : ℝ} (ha : 0 < a) (hb : 0 < b) :
    (((betaMeasure a 1).prod (betaMeasure b 1)).map fun p : ℝ × ℝ => max p.1 p.2) = betaMeasure (a + b) 1 := by
  have := isProbabilityMeasureBeta ha one_pos
  have := isProbabilityMeasureBeta hb one_pos
  have := isProbabilityMeasureBeta (add_pos ha hb) one_pos
  have := Measure.isProbabilityMeasure_map (μ := (betaMeasure a 1).prod (betaMeasure b 1))
    (f := fun p : ℝ × ℝ => max p.1 p.2) (by fun_prop)
  refine Measure.ext_of_Iic _ _ fun x => ?_
  have e : (fun p : ℝ × ℝ => max p.1 p.2) ⁻¹' Set.Iic x = Set.Iic x ×ˢ Set.Iic x := by
    ext p
    simp [Prod.le_def]
  have hz : 0 ≤ max 0 (min x 1) := le_max_left _ _
  rw [Measure.map_apply (by fun_prop) measurableSet_Iic, e, Measure.prod_prod, beta_head ha, beta_head hb,
    beta_head (add_pos ha hb), ← ENNReal.ofReal_mul (Real.rpow_nonneg hz _), Real.rpow_add_of_nonneg hz ha.le hb.le]

theorem beta_ae_pos (a b : ℝ) : ∀ᵐ x ∂(betaMeasure a b), 0 < x := by
  rw [betaMeasure, ae_withDensity_iff (measurable_betaPDF a b)]
  refine .of_forall fun x hx => ?_
  by_contra h
  exact hx (betaPDF_eq_zero_of_nonpos (not_lt.1 h))

/-- Powers of a number of the law `beta(a, 1)`. -/
theorem beta_pow {a c : ℝ} (ha : 0 < a) (hc : 0 < c) :
    (betaMeasure a 1).map (fun x => x ^ c) = betaMeasure (a / c) 1 := by
  have hac : 0 < a / c := by positivity
  have := isProbabilityMeasureBeta ha one_pos
  have := isProbabilityMeasureBeta hac one_pos
  have hm : Measurable fun x : ℝ => x ^ c := by fun_prop
  have := Measure.isProbabilityMeasure_map (μ := betaMeasure a 1) hm.aemeasurable
  refine Measure.ext_of_Iic _ _ fun x => ?_
  rw [Measure.map_apply hm measurableSet_Iic, beta_head hac]
  rcases lt_or_ge x 0 with hx | hx
  · have h0 : (betaMeasure a 1) ((fun x => x ^ c) ⁻¹' Set.Iic x) = 0 := by
      refine measure_eq_zero_iff_ae_notMem.2 ?_
      filter_upwards [beta_ae_pos a 1] with y hy
      have := Real.rpow_pos_of_pos hy c
      simp only [Set.mem_preimage, Set.mem_Iic, not_le]
      linarith
    rw [h0, max_eq_left ((min_le_left _ _).trans hx.le), Real.zero_rpow hac.ne', ENNReal.ofReal_zero]
  · have h1 : (betaMeasure a 1) ((fun x => x ^ c) ⁻¹' Set.Iic x) = betaMeasure a 1 (Set.Iic (x ^ (1 / c))) := by
      refine measure_congr ?_
      filter_upwards [beta_ae_pos a 1] with y hy
      refine propext ?_
      show y ^ c ≤ x ↔ y ≤ x ^ (1 / c)
      rw [one_div, Real.le_rpow_inv_iff_of_pos hy.le hx hc]
    rw [h1, beta_head ha]
    congr 1
    have hz : 0 ≤ x ^ (1 / c) := Real.rpow_nonneg hx _
    rw [max_eq_right (le_min hz zero_le_one), max_eq_right (le_min hx zero_le_one)]
    rcases le_total x 1 with h2 | h2
    · rw [min_eq_left h2, min_eq_left (Real.rpow_le_one hx h2 (by positivity)), ← Real.rpow_mul hx]
      congr 1
      ring
    · rw [min_eq_right h2, min_eq_right (Real.one_le_rpow h2 (by positivity)), Real.one_rpow, Real.one_rpow]

/-! ### Uniform -/

/-- The sum of two uniform numbers of the same width. -/
theorem uniform_add (a c : ℝ) {w : ℝ} (hw : 0 < w) :
    (((uniformLaw a (a + w)).prod (uniformLaw c (c + w))).map fun p : ℝ × ℝ => p.1 + p.2)
      = triangularLaw (a + c) (a + c + w) (a + c + 2 * w) := by
  have hu : ∀ a : ℝ, uniformLaw a (a + w)
      = volume.withDensity fun x => (Set.Ico a (a + w)).indicator (fun _ => ENNReal.ofReal (1 / w)) x := by
    intro a
    rw [uniformLaw, add_sub_cancel_left, withDensity_indicator measurableSet_Ico, withDensity_const,
      one_div, ENNReal.ofReal_inv_of_pos hw]
  have hm : ∀ a : ℝ, Measurable fun x => (Set.Ico a (a + w)).indicator (fun _ => ENNReal.ofReal (1 / w)) x := fun a =>
    measurable_const.indicator measurableSet_Ico
  rw [hu, hu]
  refine (conv_withDensity_eq_lconvolution (hm a) (hm c)).trans ?_
  rw [triangularLaw]
  congr 1
  funext x
  rw [lconvolution_def]
  have e : ∀ y, (Set.Ico a (a + w)).indicator (fun _ => ENNReal.ofReal (1 / w)) y *
        (Set.Ico c (c + w)).indicator (fun _ => ENNReal.ofReal (1 / w)) (-y + x)
      = (Set.Ico a (a + w) ∩ Set.Ioc (x - c - w) (x - c)).indicator
          (fun _ => ENNReal.ofReal (1 / w) * ENNReal.ofReal (1 / w)) y := by
    intro y
    have hiff : -y + x ∈ Set.Ico c (c + w) ↔ y ∈ Set.Ioc (x - c - w) (x - c) := by
      simp only [Set.mem_Ico, Set.mem_Ioc]
      constructor <;> rintro ⟨h1, h2⟩ <;> constructor <;> linarith
    simp only [Set.indicator_apply, Set.mem_inter_iff, hiff]
    by_cases h1 : y ∈ Set.Ico a (a + w) <;> by_cases h2 : y ∈ Set.Ioc (x - c - w) (x - c) <;> simp [h1, h2]
  simp only [e]
  rw [lintegral_indicator_const (measurableSet_Ico.inter measurableSet_Ioc),
    measure_congr (Ico_ae_eq_Icc.inter Ioc_ae_eq_Icc), Set.Icc_inter_Icc, Real.volume_Icc,
    ← ENNReal.ofReal_mul (by positivity), ← ENNReal.ofReal_mul (by positivity)]
  rw [triangularPDF]
  split_ifs with h1 h2
  · congr 1
    rw [min_eq_right (by linarith), max_eq_left (by linarith), add_sub_cancel_left, add_sub_cancel_left]
    field_simp
    ring
  · congr 1
    rw [min_eq_left (by linarith), max_eq_right (by linarith), add_sub_cancel_left,
      show a + c + 2 * w - (a + c + w) = w by ring]
    field_simp
    ring
  · rw [ENNReal.ofReal_zero, ENNReal.ofReal_eq_zero]
    refine mul_nonpos_of_nonneg_of_nonpos (by positivity) ?_
    rw [sub_nonpos]
    by_cases h3 : x < a + c
    · exact (min_le_right _ _).trans ((by linarith : x - c ≤ a).trans (le_max_left _ _))
    · refine (min_le_left _ _).trans (le_trans ?_ (le_max_right _ _))
      by_contra h4
      rw [not_le] at h4
      by_cases h5 : x < a + c + w
      · exact h1 ⟨not_lt.1 h3, h5⟩
      · exact h2 ⟨not_lt.1 h5, by linarith⟩

end Verif
