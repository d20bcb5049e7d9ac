import Verif.Model.Params
import Verif.Spec.Laws
import Mathlib.Probability.CDF
import Mathlib.Tactic.Linarith
import Mathlib.Tactic.FieldSimp

/-!
# C38-C44: parameters of the normal family
-/

namespace Verif

open MeasureTheory ProbabilityTheory Set
open Spec

/-! ## The standard normal law -/

theorem std_noAtom (x : ℝ) : gaussianReal 0 1 {x} = 0 := by
  have := nullSingletonClass_gaussianReal (μ := 0) (v := 1) one_ne_zero
  exact measure_singleton x

theorem std_pos_Ioo {a b : ℝ} (h : a < b) : 0 < gaussianReal 0 1 (Ioo a b) := by
  have hac := gaussianReal_absolutelyContinuous' 0 (v := 1) one_ne_zero
  rw [pos_iff_ne_zero]
  intro h0
  have := hac h0
  rw [Real.volume_Ioo] at this
  simp at this
  linarith

/-- A quantile function of the standard normal law exists. -/
theorem exists_ppf : ∃ ppf : ℝ → ℝ, IsPpf ppf := by
  have hcont : Continuous (cdf (gaussianReal 0 1)) := by
    rw [continuous_iff_continuousAt]
    intro x
    have h1 := (cdf (gaussianReal 0 1)).right_continuous x
    have hl : Function.leftLim (cdf (gaussianReal 0 1)) x = cdf (gaussianReal 0 1) x := by
      have hs := (cdf (gaussianReal 0 1)).measure_singleton x
      rw [measure_cdf, std_noAtom] at hs
      have h2 := (monotone_cdf (gaussianReal 0 1)).leftLim_le (le_refl x)
      have h3 : cdf (gaussianReal 0 1) x - Function.leftLim (cdf (gaussianReal 0 1)) x ≤ 0 :=
        ENNReal.ofReal_eq_zero.1 hs.symm
      linarith
    exact (monotone_cdf (gaussianReal 0 1)).continuousAt_iff_leftLim_eq_rightLim.2 (by
      rw [hl, (cdf (gaussianReal 0 1)).rightLim_eq])
  have hex : ∀ p, 0 < p → p < 1 → ∃ z, cdf (gaussianReal 0 1) z = p := by
    intro p h0 h1
    obtain ⟨a, ha⟩ := ((tendsto_cdf_atBot (gaussianReal 0 1)).eventually_lt_const h0).exists
    obtain ⟨b, hb⟩ := ((tendsto_cdf_atTop (gaussianReal 0 1)).eventually_const_lt h1).exists
    exact mem_range_of_exists_le_of_exists_ge hcont ⟨a, ha.le⟩ ⟨b, hb.le⟩
  classical
  refine ⟨fun p => if h : 0 < p ∧ p < 1 then (hex p h.1 h.2).choose else 0, ?_⟩
  intro p h0 h1
  simp only [h0, h1, and_self, dif_pos]
  rw [← ofReal_cdf, (hex p h0 h1).choose_spec]

theorem std_symm (z : ℝ) : gaussianReal 0 1 (Iio (-z)) = gaussianReal 0 1 (Ioi z) := by
  have h := gaussianReal_map_neg (μ := 0) (v := 1)
  rw [neg_zero] at h
  calc gaussianReal 0 1 (Iio (-z)) = ((gaussianReal 0 1).map fun x => -x) (Iio (-z)) := by rw [h]
    _ = gaussianReal 0 1 ((fun x => -x) ⁻¹' Iio (-z)) :=
        Measure.map_apply measurable_neg measurableSet_Iio
    _ = gaussianReal 0 1 (Ioi z) := by
        congr 1
        ext x
        simp

/-- The central interval of the standard normal law given by the quantile function. -/
theorem std_central {ppf : ℝ → ℝ} (hp : IsPpf ppf) {cred : ℝ} (h0 : 0 < cred) (h1 : cred < 100) :
    0 < normedSigma ppf cred ∧
    HasCI (gaussianReal 0 1) (-normedSigma ppf cred) (normedSigma ppf cred) cred := by
  obtain ⟨z, hz⟩ : ∃ z, z = normedSigma ppf cred := ⟨_, rfl⟩
  rw [← hz]
  have hq : gaussianReal 0 1 (Iic z) = ENNReal.ofReal (0.5 + 0.5 * (cred / 100)) := by
    rw [hz]
    exact hp _ (by linarith) (by linarith)
  have htop : gaussianReal 0 1 (Ioi z) = ENNReal.ofReal ((1 - cred / 100) / 2) := by
    rw [← compl_Iic, prob_compl_eq_one_sub measurableSet_Iic, hq, ← ENNReal.ofReal_one,
      ← ENNReal.ofReal_sub _ (by linarith)]
    congr 1
    ring
  have hbot : gaussianReal 0 1 (Iio (-z)) = ENNReal.ofReal ((1 - cred / 100) / 2) := by
    rw [std_symm, htop]
  have hzpos : 0 < z := by
    by_contra hneg
    push Not at hneg
    have hle : gaussianReal 0 1 (Iic z) ≤ gaussianReal 0 1 (Iic (-z)) :=
      measure_mono (Iic_subset_Iic.2 (by linarith))
    have he : gaussianReal 0 1 (Iic (-z)) = gaussianReal 0 1 (Iio (-z)) := by
      rw [← Iio_union_right]
      refine le_antisymm ((measure_union_le _ _).trans ?_) (measure_mono subset_union_left)
      rw [std_noAtom, add_zero]
    rw [he, hbot, hq, ENNReal.ofReal_le_ofReal_iff (by linarith)] at hle
    linarith
  refine ⟨hzpos, ?_, hbot, htop⟩
  have hu : (Icc (-z) z)ᶜ = Iio (-z) ∪ Ioi z := by
    ext x
    simp only [mem_compl_iff, mem_Icc, not_and_or, not_le, mem_union, mem_Iio, mem_Ioi]
  have hc : gaussianReal 0 1 (Icc (-z) z)ᶜ = ENNReal.ofReal (1 - cred / 100) := by
    rw [hu, measure_union _ measurableSet_Ioi, hbot, htop, ← ENNReal.ofReal_add (by linarith)
      (by linarith)]
    · congr 1; ring
    · rw [Set.disjoint_left]
      intro x hx hx'
      simp only [mem_Iio, mem_Ioi] at hx hx'
      linarith
  have := prob_compl_eq_one_sub (μ := gaussianReal 0 1) (measurableSet_Icc (a := -z) (b := z)).compl
  rw [compl_compl, hc, ← ENNReal.ofReal_one, ← ENNReal.ofReal_sub _ (by linarith)] at this
  rw [this]
  congr 1
  ring

/-- A normal law is the standard one moved and stretched. -/
theorem normalLaw_eq (m s : ℝ) : normalLaw m s = (gaussianReal 0 1).map fun z => m + s * z := by
  have h1 := gaussianReal_map_const_mul (μ := 0) (v := 1) s
  have h2 := gaussianReal_map_const_add (μ := s * 0) (v := .mk (s ^ 2) (sq_nonneg s) * 1) m
  have : (fun z : ℝ => m + s * z) = (fun z => m + z) ∘ fun z => s * z := rfl
  rw [this, ← Measure.map_map (by fun_prop) (by fun_prop), h1, h2]
  simp [normalLaw]

/-- A central interval is carried over by an increasing bijection (given by its preimages). -/
theorem Spec.HasCI.map {μ : Measure ℝ} {f : ℝ → ℝ} (hf : Measurable f) {a b x y cred : ℝ}
    (h : HasCI μ a b cred) (hx : ∀ z, f z < x ↔ z < a) (hy : ∀ z, y < f z ↔ b < z) :
    HasCI (μ.map f) x y cred := by
  have e1 : f ⁻¹' Icc x y = Icc a b := by
    ext z
    simp only [mem_preimage, mem_Icc, ← not_lt, hx, hy]
  have e2 : f ⁻¹' Iio x = Iio a := by
    ext z
    simp only [mem_preimage, mem_Iio, hx]
  have e3 : f ⁻¹' Ioi y = Ioi b := by
    ext z
    simp only [mem_preimage, mem_Ioi, hy]
  refine ⟨?_, ?_, ?_⟩
  · rw [Measure.map_apply hf measurableSet_Icc, e1, h.inside]
  · rw [Measure.map_apply hf measurableSet_Iio, e2, h.below]
  · rw [Measure.map_apply hf measurableSet_Ioi, e3, h.above]

theorem normal_CI {ppf : ℝ → ℝ} (hp : IsPpf ppf) {cred : ℝ} (h0 : 0 < cred) (h1 : cred < 100)
    {x y : ℝ} (hxy : x < y) :
    0 < (y - (x + y) / 2) / normedSigma ppf cred ∧
    HasCI (normalLaw ((x + y) / 2) ((y - (x + y) / 2) / normedSigma ppf cred)) x y cred := by
  obtain ⟨hz, hci⟩ := std_central hp h0 h1
  obtain ⟨z0, hz0⟩ : ∃ z, z = normedSigma ppf cred := ⟨_, rfl⟩
  rw [← hz0] at hz hci ⊢
  have hs : 0 < (y - (x + y) / 2) / z0 := div_pos (by linarith) hz
  obtain ⟨s, hse⟩ : ∃ s, s = (y - (x + y) / 2) / z0 := ⟨_, rfl⟩
  rw [← hse] at hs ⊢
  have hsz : s * z0 = (y - x) / 2 := by rw [hse]; field_simp; ring
  refine ⟨hs, ?_⟩
  rw [normalLaw_eq]
  refine hci.map (by fun_prop) ?_ ?_
  · intro z
    constructor
    · intro h
      by_contra hn
      push Not at hn
      nlinarith
    · intro h
      nlinarith
  · intro z
    constructor
    · intro h
      by_contra hn
      push Not at hn
      nlinarith
    · intro h
      nlinarith

/-! ## C38 -/

/-- **C38**: `norm(x, y, credibility)` is the normal distribution centred between `x` and `y` whose
central credible interval is `[x, y]`. -/
theorem C38_norm_interval {ppf : ℝ → ℝ} (hp : IsPpf ppf) {x y cred : ℝ} (hxy : x < y)
    (h0 : 0 < cred) (h1 : cred < 100) :
    ∃ m s, normalInit ppf (some x) (some y) none none cred = .ok ⟨some m, some s⟩ ∧
      m = (x + y) / 2 ∧ 0 < s ∧ HasCI (normalLaw m s) x y cred := by
  refine ⟨(x + y) / 2, (y - (x + y) / 2) / normedSigma ppf cred, ?_, rfl, normal_CI hp h0 h1 hxy⟩
  simp [normalInit, outOfOrder, not_lt.2 hxy.le]

example : ∃ ppf m s, IsPpf ppf ∧
    normalInit ppf (some (-1)) (some 3) none none 90 = .ok ⟨some m, some s⟩ ∧ m = 1 ∧
    HasCI (normalLaw m s) (-1) 3 90 := by
  obtain ⟨ppf, hp⟩ := exists_ppf
  obtain ⟨m, s, h, hm, -, hc⟩ := C38_norm_interval hp (x := -1) (y := 3) (cred := 90) (by norm_num)
    (by norm_num) (by norm_num)
  exact ⟨ppf, m, s, hp, h, by rw [hm]; norm_num, hc⟩

/-! ## C39, C41 -/

/-- Linear-space fields a lognormal distribution reports. -/
noncomputable def logReport (m s : ℝ) : LogFields :=
  ⟨some m, some s, some (Real.exp (m + s ^ 2 / 2)),
    some (((Real.exp (s ^ 2) - 1) * Real.exp (2 * m + s ^ 2)) ^ (0.5 : ℝ))⟩

theorem lognormInit_xy (ppf : ℝ → ℝ) {x y : ℝ} (cred : ℝ) (hx : 0 < x) (hxy : x ≤ y) :
    lognormInit ppf { x := some x, y := some y, cred := cred } =
      .ok (logReport ((Real.log x + Real.log y) / 2)
        ((Real.log y - (Real.log x + Real.log y) / 2) / normedSigma ppf cred)) := by
  simp only [lognormInit, logChecks, outOfOrder, gt_iff_lt, not_lt.2 hxy, not_le.2 hx]
  rfl

/-- Linear-space fields an inverse lognormal distribution reports. -/
noncomputable def invReport (m s : ℝ) : LogFields :=
  let lm := 1 / Real.sqrt ((Real.exp (s ^ 2) - 1) * Real.exp (2 * m + s ^ 2) +
    Real.exp (m + s ^ 2 / 2) ^ 2) * Real.exp (-m + s ^ 2 / 2)
  ⟨some m, some s, some lm, some (lm * Real.sqrt (Real.exp (s ^ 2) - 1))⟩

theorem invlognormInit_xy (ppf : ℝ → ℝ) {x y : ℝ} (cred : ℝ) (hx : 0 < x) (hxy : x ≤ y) :
    invlognormInit ppf { x := some x, y := some y, cred := cred } =
      .ok (invReport ((Real.log (1 / y) + Real.log (1 / x)) / 2)
        ((Real.log (1 / x) - (Real.log (1 / y) + Real.log (1 / x)) / 2) / normedSigma ppf cred)) := by
  simp only [invlognormInit, logChecks, outOfOrder, gt_iff_lt, not_lt.2 hxy, not_le.2 hx]
  rfl

/-- **C39**: `lognorm(x, y, credibility)`: the sampled variable has central credible interval
`[x, y]`. -/
theorem C39_lognorm_interval {ppf : ℝ → ℝ} (hp : IsPpf ppf) {x y cred : ℝ} (hx : 0 < x) (hxy : x < y)
    (h0 : 0 < cred) (h1 : cred < 100) :
    ∃ f m s, lognormInit ppf { x := some x, y := some y, cred := cred } = .ok f ∧
      f.normMean = some m ∧ f.normSd = some s ∧ 0 < s ∧
      HasCI (lognormalLaw m s) x y cred := by
  obtain ⟨hs, hci⟩ := normal_CI hp h0 h1 (Real.log_lt_log hx hxy)
  have hy : 0 < y := hx.trans hxy
  refine ⟨_, _, _, lognormInit_xy ppf cred hx hxy.le, rfl, rfl, hs, ?_⟩
  · refine hci.map Real.measurable_exp ?_ ?_
    · intro z
      exact (Real.lt_log_iff_exp_lt hx).symm
    · intro z
      exact (Real.log_lt_iff_lt_exp hy).symm

/-- **C41**: `invlognorm(x, y, credibility)`: the sampled variable, the reciprocal of a lognormal one,
has central credible interval `[x, y]`. -/
theorem C41_invlognorm_interval {ppf : ℝ → ℝ} (hp : IsPpf ppf) {x y cred : ℝ} (hx : 0 < x)
    (hxy : x < y) (h0 : 0 < cred) (h1 : cred < 100) :
    ∃ f m s, invlognormInit ppf { x := some x, y := some y, cred := cred } = .ok f ∧
      f.normMean = some m ∧ f.normSd = some s ∧ 0 < s ∧
      HasCI (invlognormalLaw m s) x y cred := by
  have hy : 0 < y := hx.trans hxy
  have hl : Real.log (1 / y) < Real.log (1 / x) :=
    Real.log_lt_log (by positivity) (one_div_lt_one_div_of_lt hx hxy)
  obtain ⟨hs, hci⟩ := normal_CI hp h0 h1 hl
  refine ⟨_, _, _, invlognormInit_xy ppf cred hx hxy.le, rfl, rfl, hs, ?_⟩
  · unfold invlognormalLaw lognormalLaw
    rw [Measure.map_map (by fun_prop) Real.measurable_exp]
    obtain ⟨μ, hμ⟩ : ∃ μ, μ = normalLaw ((Real.log (1 / y) + Real.log (1 / x)) / 2)
      ((Real.log (1 / x) - (Real.log (1 / y) + Real.log (1 / x)) / 2) / normedSigma ppf cred) :=
      ⟨_, rfl⟩
    rw [← hμ] at hci ⊢
    have hf : Measurable ((fun x : ℝ => 1 / x) ∘ Real.exp) :=
      (by fun_prop : Measurable fun x : ℝ => 1 / x).comp Real.measurable_exp
    have hlo : ∀ z, 1 / Real.exp z < x ↔ Real.log (1 / x) < z := by
      intro z
      rw [Real.log_lt_iff_lt_exp (by positivity)]
      exact one_div_lt (Real.exp_pos z) hx
    have hhi : ∀ z, y < 1 / Real.exp z ↔ z < Real.log (1 / y) := by
      intro z
      rw [Real.lt_log_iff_exp_lt (by positivity)]
      exact lt_one_div hy (Real.exp_pos z)
    refine ⟨?_, ?_, ?_⟩
    · rw [Measure.map_apply hf measurableSet_Icc, ← hci.inside]
      congr 1
      ext z
      simp only [mem_preimage, Function.comp, mem_Icc, ← not_lt, hlo, hhi]
      tauto
    · rw [Measure.map_apply hf measurableSet_Iio, ← hci.above]
      congr 1
      ext z
      simp only [mem_preimage, Function.comp, mem_Iio, mem_Ioi, hlo]
    · rw [Measure.map_apply hf measurableSet_Ioi, ← hci.below]
      congr 1
      ext z
      simp only [mem_preimage, Function.comp, mem_Iio, mem_Ioi, hhi]

end Verif
