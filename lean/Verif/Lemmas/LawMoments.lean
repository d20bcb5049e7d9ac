import Verif.Spec.NumpyLaws
import Verif.Props.Pert
import Verif.Props.ParamsMoments

/-!
# Means and variances of numpy's laws: densities on the positive numbers
-/

namespace Verif

open MeasureTheory ProbabilityTheory Spec

/-- The law has a mean, and it is `m`. -/
def HasMean (μ : Measure ℝ) (m : ℝ) : Prop := Integrable (fun x => x) μ ∧ ∫ x, x ∂μ = m

/-- The law has a variance, and it is `v`. -/
def HasVar (μ : Measure ℝ) (v : ℝ) : Prop := MemLp id 2 μ ∧ Var[id; μ] = v

theorem integral_of_lintegral {μ : Measure ℝ} {f : ℝ → ℝ} (hf : Measurable f) (h0 : ∀ᵐ x ∂μ, 0 ≤ f x) {m : ℝ}
    (hm : 0 ≤ m) (h : ∫⁻ x, ENNReal.ofReal (f x) ∂μ = ENNReal.ofReal m) : Integrable f μ ∧ ∫ x, f x ∂μ = m := by
  constructor
  · refine ⟨hf.aestronglyMeasurable, ?_⟩
    rw [hasFiniteIntegral_iff_ofReal h0, h]
    exact ENNReal.ofReal_lt_top
  · rw [integral_eq_lintegral_of_nonneg_ae h0 hf.aestronglyMeasurable, h, ENNReal.toReal_ofReal hm]

theorem hasVar_of {μ : Measure ℝ} [IsProbabilityMeasure μ] {m q v : ℝ} (h : HasMean μ m)
    (hi : Integrable (fun x => x ^ 2) μ) (hq : ∫ x, x ^ 2 ∂μ = q) (hv : v = q - m ^ 2) : HasVar μ v := by
  have hmem : MemLp id 2 μ := (memLp_two_iff_integrable_sq (by fun_prop)).2 hi
  refine ⟨hmem, ?_⟩
  rw [variance_eq_sub hmem]
  have e1 : ∫ x, (id ^ 2 : ℝ → ℝ) x ∂μ = q := hq
  have e2 : ∫ x, id x ∂μ = m := h.2
  rw [e1, e2, hv]

theorem HasMean.affine {μ : Measure ℝ} [IsProbabilityMeasure μ] {m : ℝ} (h : HasMean μ m) (a b : ℝ) :
    HasMean (μ.map fun x => a + b * x) (a + b * m) := by
  have hi : Integrable (fun x => a + b * x) μ := (integrable_const a).add (h.1.const_mul b)
  refine ⟨(integrable_map_measure (by fun_prop) (by fun_prop)).2 hi, ?_⟩
  rw [integral_map (by fun_prop) (by fun_prop), integral_add (integrable_const a) (h.1.const_mul b),
    integral_const_mul, h.2]
  simp

theorem HasVar.affine {μ : Measure ℝ} [IsProbabilityMeasure μ] {v : ℝ} (h : HasVar μ v) (a b : ℝ) :
    HasVar (μ.map fun x => a + b * x) (b ^ 2 * v) := by
  have h1 : MemLp (fun x : ℝ => a + b * x) 2 μ := (memLp_const a).add (h.1.const_mul b)
  refine ⟨(memLp_map_measure_iff (by fun_prop) (by fun_prop)).2 h1, ?_⟩
  rw [variance_map (by fun_prop) (by fun_prop)]
  have e : (id ∘ fun x : ℝ => a + b * x) = fun x => a + b * x := rfl
  rw [e, variance_const_add (by fun_prop) a, ← h.2]
  exact variance_const_mul b id μ

/-- Multiplying the density by `x` gives another density, up to a factor. -/
theorem tilt {f g : ℝ → ENNReal} (hf : Measurable f) (hg : Measurable g) {c : ℝ}
    (h : ∀ x, f x * ENNReal.ofReal x = ENNReal.ofReal c * g x) {φ : ℝ → ENNReal} (hφ : Measurable φ) :
    ∫⁻ x, ENNReal.ofReal x * φ x ∂(volume.withDensity f)
      = ENNReal.ofReal c * ∫⁻ x, φ x ∂(volume.withDensity g) := by
  rw [lintegral_withDensity_eq_lintegral_mul _ hf (by fun_prop),
    lintegral_withDensity_eq_lintegral_mul _ hg hφ, ← lintegral_const_mul _ (by fun_prop)]
  refine lintegral_congr fun x => ?_
  simp only [Pi.mul_apply]
  rw [← mul_assoc, h, mul_assoc]

theorem tilt_mean {f g : ℝ → ENNReal} (hf : Measurable f) (hg : Measurable g) {c : ℝ} (hc : 0 ≤ c)
    (h : ∀ x, f x * ENNReal.ofReal x = ENNReal.ofReal c * g x) (h0 : ∀ x < 0, f x = 0)
    (hg1 : ∫⁻ x, g x = 1) : HasMean (volume.withDensity f) c := by
  have hae : ∀ᵐ x ∂(volume.withDensity f), 0 ≤ x := by
    rw [ae_withDensity_iff hf]
    exact Filter.Eventually.of_forall fun x hx => by
      by_contra hneg
      exact hx (h0 x (not_le.1 hneg))
  refine integral_of_lintegral measurable_id' hae hc ?_
  have := tilt hf hg h (φ := fun _ => 1) measurable_const
  simp only [mul_one] at this
  rw [this, lintegral_const, withDensity_apply _ MeasurableSet.univ]
  simp [hg1]

theorem tilt_var {f g k : ℝ → ENNReal} (hf : Measurable f) (hg : Measurable g) (hk : Measurable k) {c d : ℝ}
    (hc : 0 ≤ c) (hd : 0 ≤ d) (h : ∀ x, f x * ENNReal.ofReal x = ENNReal.ofReal c * g x)
    (h' : ∀ x, g x * ENNReal.ofReal x = ENNReal.ofReal d * k x) (h0 : ∀ x < 0, f x = 0)
    (hf1 : ∫⁻ x, f x = 1) (hg1 : ∫⁻ x, g x = 1) (hk1 : ∫⁻ x, k x = 1) :
    HasVar (volume.withDensity f) (c * d - c ^ 2) := by
  have : IsProbabilityMeasure (volume.withDensity f) := ⟨by
    rw [withDensity_apply _ MeasurableSet.univ]; simp [hf1]⟩
  have hae : ∀ᵐ x ∂(volume.withDensity f), 0 ≤ x := by
    rw [ae_withDensity_iff hf]
    exact Filter.Eventually.of_forall fun x hx => by
      by_contra hneg
      exact hx (h0 x (not_le.1 hneg))
  have hq := integral_of_lintegral (μ := volume.withDensity f) (f := fun x => x ^ 2) (by fun_prop)
    (Filter.Eventually.of_forall fun x => sq_nonneg x) (m := c * d) (mul_nonneg hc hd) ?_
  · exact hasVar_of (tilt_mean hf hg hc h h0 hg1) hq.1 hq.2 rfl
  have e1 := tilt hf hg h (φ := fun x => ENNReal.ofReal x) (by fun_prop)
  have e2 := tilt hg hk h' (φ := fun _ => 1) measurable_const
  simp only [mul_one] at e2
  rw [e2, lintegral_const, withDensity_apply _ MeasurableSet.univ] at e1
  have e3 : ∫⁻ x, ENNReal.ofReal (x ^ 2) ∂(volume.withDensity f)
      = ∫⁻ x, ENNReal.ofReal x * ENNReal.ofReal x ∂(volume.withDensity f) := by
    refine lintegral_congr_ae ?_
    filter_upwards [hae] with x hx
    rw [← ENNReal.ofReal_mul hx, sq]
  rw [e3, e1, ENNReal.ofReal_mul hc]
  simp [hk1]

/-! ## Beta -/

theorem measurable_betaPDF (a b : ℝ) : Measurable (betaPDF a b) := by unfold betaPDF; fun_prop

theorem beta_hasMean {a b : ℝ} (ha : 0 < a) (hb : 0 < b) : HasMean (betaMeasure a b) (a / (a + b)) :=
  ⟨beta_integrable ha hb, beta_mean ha hb⟩

theorem beta_hasVar {a b : ℝ} (ha : 0 < a) (hb : 0 < b) :
    HasVar (betaMeasure a b) (a * b / ((a + b) ^ 2 * (a + b + 1))) := by
  have h := tilt_var (measurable_betaPDF a b) (measurable_betaPDF (a + 1) b) (measurable_betaPDF (a + 1 + 1) b)
    (by positivity) (by positivity) (x_mul_betaPDF ha hb) (x_mul_betaPDF (by positivity : 0 < a + 1) hb)
    (fun x hx => betaPDF_eq_zero_of_nonpos hx.le) (lintegral_betaPDF_eq_one ha hb)
    (lintegral_betaPDF_eq_one (by positivity) hb) (lintegral_betaPDF_eq_one (by positivity) hb)
  have e : a * b / ((a + b) ^ 2 * (a + b + 1)) = a / (a + b) * ((a + 1) / (a + 1 + b)) - (a / (a + b)) ^ 2 := by
    have : a + 1 + b ≠ 0 := by positivity
    field_simp
    ring
  rw [e]
  exact h

/-! ## Gamma -/

theorem measurable_gammaPDF (a r : ℝ) : Measurable (gammaPDF a r) :=
  (measurable_gammaPDFReal a r).ennreal_ofReal

theorem x_mul_gammaPDF {a r : ℝ} (ha : 0 < a) (hr : 0 < r) (x : ℝ) :
    gammaPDF a r x * ENNReal.ofReal x = ENNReal.ofReal (a / r) * gammaPDF (a + 1) r x := by
  rcases lt_trichotomy x 0 with hx | rfl | hx
  · rw [gammaPDF_of_neg hx, gammaPDF_of_neg hx]; simp
  · rw [ENNReal.ofReal_zero, mul_zero, gammaPDF_of_nonneg le_rfl]
    simp [Real.zero_rpow ha.ne']
  · rw [gammaPDF_of_nonneg hx.le, gammaPDF_of_nonneg hx.le, ← ENNReal.ofReal_mul' hx.le,
      ← ENNReal.ofReal_mul (by positivity)]
    congr 1
    have hxa : x ^ (a + 1 - 1) = x ^ (a - 1) * x := by
      rw [show a + 1 - 1 = (a - 1) + 1 by ring, Real.rpow_add hx, Real.rpow_one]
    have hra : r ^ (a + 1) = r ^ a * r := by rw [Real.rpow_add hr, Real.rpow_one]
    have := (Real.Gamma_pos_of_pos ha).ne'
    rw [hxa, hra, Real.Gamma_add_one ha.ne']
    field_simp

theorem gamma_hasMean {a r : ℝ} (ha : 0 < a) (hr : 0 < r) : HasMean (gammaMeasure a r) (a / r) :=
  tilt_mean (measurable_gammaPDF a r) (measurable_gammaPDF (a + 1) r) (by positivity) (x_mul_gammaPDF ha hr)
    (fun _ hx => gammaPDF_of_neg hx) (lintegral_gammaPDF_eq_one (by positivity) hr)

theorem gamma_hasVar {a r : ℝ} (ha : 0 < a) (hr : 0 < r) : HasVar (gammaMeasure a r) (a / r ^ 2) := by
  have h := tilt_var (measurable_gammaPDF a r) (measurable_gammaPDF (a + 1) r) (measurable_gammaPDF (a + 1 + 1) r)
    (by positivity) (by positivity) (x_mul_gammaPDF ha hr) (x_mul_gammaPDF (by positivity : 0 < a + 1) hr)
    (fun x hx => gammaPDF_of_neg hx) (lintegral_gammaPDF_eq_one ha hr)
    (lintegral_gammaPDF_eq_one (by positivity) hr) (lintegral_gammaPDF_eq_one (by positivity) hr)
  have e : a / r ^ 2 = a / r * ((a + 1) / r) - (a / r) ^ 2 := by
    field_simp
    ring
  rw [e]
  exact h

/-! ## Pareto -/

theorem measurable_paretoPDF (t r : ℝ) : Measurable (paretoPDF t r) :=
  (measurable_paretoPDFReal t r).ennreal_ofReal

theorem x_mul_paretoPDF {r : ℝ} (hr : 1 < r) (x : ℝ) :
    paretoPDF 1 r x * ENNReal.ofReal x = ENNReal.ofReal (r / (r - 1)) * paretoPDF 1 (r - 1) x := by
  have h1 : 0 < r - 1 := by linarith
  rcases lt_or_ge x 1 with hx | hx
  · rw [paretoPDF_of_lt hx, paretoPDF_of_lt hx]; simp
  · have hx0 : 0 < x := by linarith
    rw [paretoPDF_of_le hx, paretoPDF_of_le hx, ← ENNReal.ofReal_mul' hx0.le,
      ← ENNReal.ofReal_mul (by positivity)]
    congr 1
    have hxa : x ^ (-(r - 1 + 1)) = x ^ (-(r + 1)) * x := by
      rw [show -(r - 1 + 1) = -(r + 1) + 1 by ring, Real.rpow_add hx0, Real.rpow_one]
    rw [hxa, Real.one_rpow, Real.one_rpow]
    field_simp

theorem pareto_hasMean {r : ℝ} (hr : 1 < r) : HasMean (paretoMeasure 1 r) (r / (r - 1)) :=
  tilt_mean (measurable_paretoPDF 1 r) (measurable_paretoPDF 1 (r - 1))
    (div_nonneg (by linarith) (by linarith)) (x_mul_paretoPDF hr)
    (fun _ hx => paretoPDF_of_lt (by linarith)) (lintegral_paretoPDF_eq_one one_pos (by linarith))

theorem pareto_hasVar {r : ℝ} (hr : 2 < r) :
    HasVar (paretoMeasure 1 r) (r / ((r - 1) ^ 2 * (r - 2))) := by
  have h1 : 0 < r - 1 := by linarith
  have h2 : 0 < r - 2 := by linarith
  have h3 : 0 < r - 1 - 1 := by linarith
  have h := tilt_var (measurable_paretoPDF 1 r) (measurable_paretoPDF 1 (r - 1))
    (measurable_paretoPDF 1 (r - 1 - 1)) (by positivity) (by positivity)
    (x_mul_paretoPDF (by linarith)) (x_mul_paretoPDF (by linarith : 1 < r - 1))
    (fun x hx => paretoPDF_of_lt (by linarith)) (lintegral_paretoPDF_eq_one one_pos (by linarith))
    (lintegral_paretoPDF_eq_one one_pos (by linarith)) (lintegral_paretoPDF_eq_one one_pos (by linarith))
  have e : r / ((r - 1) ^ 2 * (r - 2)) = r / (r - 1) * ((r - 1) / (r - 1 - 1)) - (r / (r - 1)) ^ 2 := by
    rw [show r - 1 - 1 = r - 2 by ring]
    field_simp
    ring
  rw [e]
  exact h

/-! ## Normal and lognormal -/

theorem normal_hasMean (m s : ℝ) : HasMean (normalLaw m s) m := by
  have h2 : MemLp id 2 (normalLaw m s) := memLp_id_gaussianReal 2
  exact ⟨h2.integrable (by norm_num), integral_id_gaussianReal⟩

theorem normal_hasVar (m s : ℝ) : HasVar (normalLaw m s) (s ^ 2) :=
  ⟨memLp_id_gaussianReal 2, by rw [normalLaw, variance_id_gaussianReal]; rfl⟩

theorem normal_neg (m s : ℝ) : (normalLaw m s).map (fun x => -x) = normalLaw (-m) s := by
  unfold normalLaw
  exact gaussianReal_map_neg

theorem invlognormal_eq (m s : ℝ) : invlognormalLaw m s = lognormalLaw (-m) s := by
  unfold invlognormalLaw lognormalLaw
  rw [← normal_neg, Measure.map_map (by fun_prop) (by fun_prop), Measure.map_map (by fun_prop) (by fun_prop)]
  congr 1
  funext x
  simp [Real.exp_neg]

theorem lognormal_hasVar (m s : ℝ) :
    HasVar (lognormalLaw m s) ((Real.exp (s ^ 2) - 1) * Real.exp (2 * m + s ^ 2)) := by
  refine ⟨?_, lognormal_variance m s⟩
  rw [memLp_two_iff_integrable_sq (by fun_prop)]
  unfold lognormalLaw
  rw [integrable_map_measure (by fun_prop) Real.measurable_exp.aemeasurable]
  refine (normal_exp_integrable m s 2).congr (Filter.Eventually.of_forall fun x => ?_)
  simp only [Function.comp, id]
  rw [← Real.exp_nat_mul]
  norm_num

theorem lognormal_hasMean (m s : ℝ) : HasMean (lognormalLaw m s) (Real.exp (m + s ^ 2 / 2)) :=
  ⟨(lognormal_hasVar m s).1.integrable (by norm_num), lognormal_mean m s⟩

end Verif
