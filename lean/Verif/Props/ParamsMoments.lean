import Verif.Props.Params
import Mathlib.Probability.Moments.Variance

/-!
# C40, C42: means and standard deviations of lognormal and inverse lognormal variables
-/

namespace Verif

open MeasureTheory ProbabilityTheory Set
open Spec

instance (m s : ℝ) : IsProbabilityMeasure (normalLaw m s) := by
  unfold normalLaw; infer_instance

instance (m s : ℝ) : IsProbabilityMeasure (lognormalLaw m s) :=
  Measure.isProbabilityMeasure_map Real.measurable_exp.aemeasurable

theorem normal_mgf (m s t : ℝ) :
    ∫ x, Real.exp (t * x) ∂normalLaw m s = Real.exp (m * t + s ^ 2 * t ^ 2 / 2) := by
  have h := congrFun (mgf_id_gaussianReal (μ := m) (v := .mk (s ^ 2) (sq_nonneg s))) t
  simpa [mgf, normalLaw] using h

theorem normal_exp_integrable (m s t : ℝ) :
    Integrable (fun x => Real.exp (t * x)) (normalLaw m s) := by
  have := integrable_exp_mul_gaussianReal (μ := m) (v := .mk (s ^ 2) (sq_nonneg s)) t
  exact this

/-- The mean of the lognormal law. -/
theorem lognormal_mean (m s : ℝ) :
    ∫ x, x ∂lognormalLaw m s = Real.exp (m + s ^ 2 / 2) := by
  unfold lognormalLaw
  rw [integral_map Real.measurable_exp.aemeasurable (by fun_prop)]
  have := normal_mgf m s 1
  simpa using this

/-- The variance of the lognormal law. -/
theorem lognormal_variance (m s : ℝ) :
    Var[fun x => x; lognormalLaw m s] = (Real.exp (s ^ 2) - 1) * Real.exp (2 * m + s ^ 2) := by
  have hsq : ∫ x, x ^ 2 ∂lognormalLaw m s = Real.exp (2 * m + 2 * s ^ 2) := by
    unfold lognormalLaw
    rw [integral_map Real.measurable_exp.aemeasurable (by fun_prop)]
    have := normal_mgf m s 2
    have e : ∀ x : ℝ, Real.exp x ^ 2 = Real.exp (2 * x) := by
      intro x
      rw [← Real.exp_nat_mul]
      norm_num
    simp only [e]
    rw [this]
    congr 1
    ring
  have hmem : MemLp (fun x : ℝ => x) 2 (lognormalLaw m s) := by
    rw [memLp_two_iff_integrable_sq (by fun_prop)]
    unfold lognormalLaw
    rw [integrable_map_measure (by fun_prop) Real.measurable_exp.aemeasurable]
    have := normal_exp_integrable m s 2
    refine this.congr (Filter.Eventually.of_forall fun x => ?_)
    simp only [Function.comp]
    rw [← Real.exp_nat_mul]
    norm_num
  rw [variance_eq_sub hmem]
  have h2 : (lognormalLaw m s)[(fun x : ℝ => x) ^ 2] = Real.exp (2 * m + 2 * s ^ 2) := hsq
  rw [h2, lognormal_mean, sub_mul, one_mul, ← Real.exp_add, ← Real.exp_nat_mul]
  congr 2 <;> push_cast <;> ring

/-- The mean of the inverse lognormal law. -/
theorem invlognormal_mean (m s : ℝ) :
    ∫ x, x ∂invlognormalLaw m s = Real.exp (-m + s ^ 2 / 2) := by
  unfold invlognormalLaw lognormalLaw
  rw [Measure.map_map (by fun_prop) Real.measurable_exp,
    integral_map ((by fun_prop : Measurable fun x : ℝ => 1 / x).comp
      Real.measurable_exp).aemeasurable (by fun_prop)]
  have := normal_mgf m s (-1)
  have e : ∀ x : ℝ, ((fun x : ℝ => 1 / x) ∘ Real.exp) x = Real.exp (-1 * x) := by
    intro x
    simp [Real.exp_neg]
  simp only [e]
  rw [this]
  congr 1
  ring

/-! ## C40 -/

theorem lognormInit_norm (ppf : ℝ → ℝ) (m s : ℝ) :
    lognormInit ppf { normMean := some m, normSd := some s } = .ok (logReport m s) := by
  simp only [lognormInit, logChecks, outOfOrder]
  rfl

theorem lognormInit_linear (ppf : ℝ → ℝ) {m : ℝ} (s : ℝ) (hm : m ≠ 0) :
    lognormInit ppf { lognormMean := some m, lognormSd := some s } =
      .ok ⟨some (Real.log (m ^ 2 / Real.sqrt (s ^ 2 + m ^ 2))),
        some (Real.sqrt (Real.log (1 + s ^ 2 / m ^ 2))), some m, some s⟩ := by
  have : ∀ α (a b : Except PyErr α), (if m = 0 then a else b) = b := fun _ _ _ => if_neg hm
  simp only [lognormInit, logChecks, outOfOrder]
  exact this _ _ _

/-- Converting mean and sd of a lognormal variable to log space. -/
theorem linear_to_log {m : ℝ} (s : ℝ) (hm : 0 < m) :
    Real.sqrt (Real.log (1 + s ^ 2 / m ^ 2)) ^ 2 = Real.log (1 + s ^ 2 / m ^ 2) ∧
    Real.log (m ^ 2 / Real.sqrt (s ^ 2 + m ^ 2)) + Real.log (1 + s ^ 2 / m ^ 2) / 2 = Real.log m ∧
    Real.exp (Real.log (1 + s ^ 2 / m ^ 2)) = 1 + s ^ 2 / m ^ 2 := by
  have h1 : 0 ≤ s ^ 2 / m ^ 2 := by positivity
  refine ⟨Real.sq_sqrt (Real.log_nonneg (by linarith)), ?_, Real.exp_log (by linarith)⟩
  have hsum : 0 < s ^ 2 + m ^ 2 := by positivity
  rw [Real.log_div (by positivity) (by positivity), Real.log_sqrt hsum.le]
  have : 1 + s ^ 2 / m ^ 2 = (s ^ 2 + m ^ 2) / m ^ 2 := by field_simp; ring
  rw [this, Real.log_div hsum.ne' (by positivity), Real.log_pow]
  push_cast
  ring

/-- **C40** (linear to log): `lognorm(lognorm_mean=m, lognorm_sd=s)` gets log-space parameters whose
lognormal law has mean `m` and standard deviation `s`. -/
theorem C40_linear (ppf : ℝ → ℝ) {m s : ℝ} (hm : 0 < m) (hs : 0 ≤ s) :
    ∃ f μ σ, lognormInit ppf { lognormMean := some m, lognormSd := some s } = .ok f ∧
      f.lognormMean = some m ∧ f.lognormSd = some s ∧ f.normMean = some μ ∧ f.normSd = some σ ∧
      0 ≤ σ ∧ ∫ x, x ∂lognormalLaw μ σ = m ∧ Real.sqrt Var[fun x => x; lognormalLaw μ σ] = s := by
  obtain ⟨hσ, hμ, he⟩ := linear_to_log s hm
  refine ⟨_, _, _, lognormInit_linear ppf s hm.ne', rfl, rfl, rfl, rfl, Real.sqrt_nonneg _, ?_, ?_⟩
  · rw [lognormal_mean, hσ, hμ, Real.exp_log hm]
  · rw [lognormal_variance, hσ, he]
    have e2 : 2 * Real.log (m ^ 2 / Real.sqrt (s ^ 2 + m ^ 2)) + Real.log (1 + s ^ 2 / m ^ 2) =
        2 * Real.log m := by linarith
    rw [e2]
    have e3 : Real.exp (2 * Real.log m) = m ^ 2 := by
      rw [← Real.exp_log (by positivity : 0 < m ^ 2), Real.log_pow]
      norm_num
    rw [e3]
    have e4 : (1 + s ^ 2 / m ^ 2 - 1) * m ^ 2 = s ^ 2 := by field_simp; ring
    rw [e4, Real.sqrt_sq hs]

/-- **C40** (log to linear): `lognorm(norm_mean=μ, norm_sd=σ)` reports the mean and the standard
deviation of its law. -/
theorem C40_log (ppf : ℝ → ℝ) (μ σ : ℝ) :
    ∃ f, lognormInit ppf { normMean := some μ, normSd := some σ } = .ok f ∧
      f.normMean = some μ ∧ f.normSd = some σ ∧
      f.lognormMean = some (∫ x, x ∂lognormalLaw μ σ) ∧
      f.lognormSd = some (Real.sqrt Var[fun x => x; lognormalLaw μ σ]) := by
  refine ⟨_, lognormInit_norm ppf μ σ, rfl, rfl, ?_, ?_⟩
  · rw [lognormal_mean]; rfl
  · rw [lognormal_variance, Real.sqrt_eq_rpow]
    norm_num [logReport]

/-- **C40** (interval): `lognorm(x, y)` also reports the mean and standard deviation of its law. -/
theorem C40_interval (ppf : ℝ → ℝ) {x y : ℝ} (cred : ℝ) (hx : 0 < x) (hxy : x ≤ y) :
    ∃ f μ σ, lognormInit ppf { x := some x, y := some y, cred := cred } = .ok f ∧
      f.normMean = some μ ∧ f.normSd = some σ ∧
      f.lognormMean = some (∫ x, x ∂lognormalLaw μ σ) ∧
      f.lognormSd = some (Real.sqrt Var[fun x => x; lognormalLaw μ σ]) := by
  refine ⟨_, _, _, lognormInit_xy ppf cred hx hxy, rfl, rfl, ?_, ?_⟩
  · rw [lognormal_mean]; rfl
  · rw [lognormal_variance, Real.sqrt_eq_rpow]
    norm_num [logReport]

/-- **C40** (back and forth): from linear space to log space and back gives the same numbers. -/
theorem C40_round_trip (ppf : ℝ → ℝ) {m s : ℝ} (hm : 0 < m) (hs : 0 ≤ s) :
    ∃ f g, lognormInit ppf { lognormMean := some m, lognormSd := some s } = .ok f ∧
      lognormInit ppf { normMean := f.normMean, normSd := f.normSd } = .ok g ∧
      g.lognormMean = some m ∧ g.lognormSd = some s := by
  obtain ⟨f, μ, σ, hf, -, -, hμ, hσ, -, h1, h2⟩ := C40_linear ppf hm hs
  obtain ⟨g, hg, -, -, h3, h4⟩ := C40_log ppf μ σ
  refine ⟨f, g, hf, by rw [hμ, hσ]; exact hg, ?_, ?_⟩
  · rw [h3, h1]
  · rw [h4, h2]

/-- **C40** (forth and back): from log space to linear space and back gives the same numbers. -/
theorem C40_round_trip' (ppf : ℝ → ℝ) {μ σ : ℝ} (hσ : 0 ≤ σ) :
    ∃ f g, lognormInit ppf { normMean := some μ, normSd := some σ } = .ok f ∧
      lognormInit ppf { lognormMean := f.lognormMean, lognormSd := f.lognormSd } = .ok g ∧
      g.normMean = some μ ∧ g.normSd = some σ := by
  obtain ⟨m, hm⟩ : ∃ m, m = Real.exp (μ + σ ^ 2 / 2) := ⟨_, rfl⟩
  obtain ⟨s, hs⟩ : ∃ s, s = ((Real.exp (σ ^ 2) - 1) * Real.exp (2 * μ + σ ^ 2)) ^ (0.5 : ℝ) :=
    ⟨_, rfl⟩
  have hmpos : 0 < m := by rw [hm]; exact Real.exp_pos _
  have hm2 : m ^ 2 = Real.exp (2 * μ + σ ^ 2) := by
    rw [hm, ← Real.exp_nat_mul]
    congr 1
    push_cast
    ring
  have hvar : 0 ≤ (Real.exp (σ ^ 2) - 1) * Real.exp (2 * μ + σ ^ 2) :=
    mul_nonneg (by linarith [Real.add_one_le_exp (σ ^ 2), sq_nonneg σ]) (Real.exp_pos _).le
  have hs2 : s ^ 2 = (Real.exp (σ ^ 2) - 1) * m ^ 2 := by
    have : s = Real.sqrt ((Real.exp (σ ^ 2) - 1) * Real.exp (2 * μ + σ ^ 2)) := by
      rw [hs, Real.sqrt_eq_rpow]
      norm_num
    rw [this, Real.sq_sqrt hvar, hm2]
  have hr : 1 + s ^ 2 / m ^ 2 = Real.exp (σ ^ 2) := by
    rw [hs2]
    field_simp
    ring
  have hrep : logReport μ σ = ⟨some μ, some σ, some m, some s⟩ := by rw [hm, hs]; rfl
  refine ⟨_, _, (lognormInit_norm ppf μ σ).trans (by rw [hrep]), lognormInit_linear ppf s hmpos.ne', ?_⟩
  · rw [hr, Real.log_exp, Real.sqrt_sq hσ]
    refine ⟨?_, rfl⟩
    congr 1
    have hsm : s ^ 2 + m ^ 2 = Real.exp (σ ^ 2) * m ^ 2 := by rw [hs2]; ring
    rw [hsm, Real.log_div (by positivity) (by positivity), Real.log_sqrt (by positivity),
      Real.log_mul (by positivity) (by positivity), Real.log_exp, hm2, Real.log_exp]
    ring

/-! ## C42 -/

theorem invlognormInit_norm (ppf : ℝ → ℝ) (m s : ℝ) :
    invlognormInit ppf { normMean := some m, normSd := some s } = .ok (invReport m s) := by
  simp only [invlognormInit, logChecks, outOfOrder]
  rfl

theorem invlognormInit_linear (ppf : ℝ → ℝ) {m : ℝ} (s : ℝ) (hm : 0 < m) :
    invlognormInit ppf { lognormMean := some m, lognormSd := some s } =
      .ok ⟨some (-Real.log m - Real.sqrt (Real.log (1 + s ^ 2 / m ^ 2)) ^ 2 / 2),
        some (Real.sqrt (Real.log (1 + s ^ 2 / m ^ 2))), some m, some s⟩ := by
  have h1 : ∀ α (a b : Except PyErr α), (if m = 0 then a else b) = b := fun _ _ _ => if_neg hm.ne'
  have h2 : ∀ α (a b : Except PyErr α), (if m < 0 then a else b) = b :=
    fun _ _ _ => if_neg (not_lt.2 hm.le)
  simp only [invlognormInit, logChecks, outOfOrder]
  exact (h1 _ _ _).trans (h2 _ _ _)

/-- **C42**, what really happens: the variable sampled for
`invlognorm(lognorm_mean=m, lognorm_sd=s)` has expectation `m + s²/m`. -/
theorem C42_actual_mean_partial (ppf : ℝ → ℝ) {m s : ℝ} (hm : 0 < m) :
    ∃ f μ σ, invlognormInit ppf { lognormMean := some m, lognormSd := some s } = .ok f ∧
      f.lognormMean = some m ∧ f.normMean = some μ ∧ f.normSd = some σ ∧
      ∫ x, x ∂invlognormalLaw μ σ = m + s ^ 2 / m := by
  obtain ⟨hσ, -, he⟩ := linear_to_log s hm
  refine ⟨_, _, _, invlognormInit_linear ppf s hm, rfl, rfl, rfl, ?_⟩
  rw [invlognormal_mean, hσ]
  have : -(-Real.log m - Real.log (1 + s ^ 2 / m ^ 2) / 2) + Real.log (1 + s ^ 2 / m ^ 2) / 2 =
      Real.log m + Real.log (1 + s ^ 2 / m ^ 2) := by ring
  rw [this, Real.exp_add, Real.exp_log hm, he]
  field_simp

/-- **C42 is false**: for every positive mean and non-zero standard deviation the expectation of the
sampled variable is larger than the requested mean. -/
theorem C42_mean_fails (ppf : ℝ → ℝ) {m s : ℝ} (hm : 0 < m) (hs : s ≠ 0) :
    ∃ f μ σ, invlognormInit ppf { lognormMean := some m, lognormSd := some s } = .ok f ∧
      f.lognormMean = some m ∧ f.normMean = some μ ∧ f.normSd = some σ ∧
      m < ∫ x, x ∂invlognormalLaw μ σ := by
  obtain ⟨f, μ, σ, hf, h1, h2, h3, h4⟩ := C42_actual_mean_partial ppf (s := s) hm
  refine ⟨f, μ, σ, hf, h1, h2, h3, ?_⟩
  rw [h4]
  have : 0 < s ^ 2 / m := by positivity
  linarith

/-- **C42**, the reported mean: `invlognorm(norm_mean=μ, norm_sd=σ)` reports `exp(-2μ-σ²/2)`, which is
the expectation of the sampled variable exactly if `μ = -σ²`. -/
theorem C42_reported_iff_partial (ppf : ℝ → ℝ) (μ σ : ℝ) :
    ∃ f r, invlognormInit ppf { normMean := some μ, normSd := some σ } = .ok f ∧
      f.lognormMean = some r ∧ r = Real.exp (-2 * μ - σ ^ 2 / 2) ∧
      (r = ∫ x, x ∂invlognormalLaw μ σ ↔ μ = -σ ^ 2) := by
  refine ⟨_, Real.exp (-2 * μ - σ ^ 2 / 2), invlognormInit_norm ppf μ σ, ?_, rfl, ?_⟩
  · simp only [invReport, Option.some.injEq]
    have e1 : (Real.exp (σ ^ 2) - 1) * Real.exp (2 * μ + σ ^ 2) + Real.exp (μ + σ ^ 2 / 2) ^ 2 =
        Real.exp (μ + σ ^ 2) ^ 2 := by
      rw [sub_mul, one_mul, ← Real.exp_add, ← Real.exp_nat_mul, ← Real.exp_nat_mul]
      push_cast
      have a1 : σ ^ 2 + (2 * μ + σ ^ 2) = 2 * (μ + σ ^ 2) := by ring
      have a2 : 2 * (μ + σ ^ 2 / 2) = 2 * μ + σ ^ 2 := by ring
      rw [a1, a2]
      ring
    rw [e1, Real.sqrt_sq (Real.exp_pos _).le, one_div, ← Real.exp_neg, ← Real.exp_add]
    congr 1
    ring
  · rw [invlognormal_mean, Real.exp_eq_exp]
    constructor <;> intro h <;> linarith

end Verif
