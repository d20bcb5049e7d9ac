import Verif.Spec.Posterior
import Verif.Spec.Update
import Verif.Props.Update
import Verif.Props.Forecast
import Verif.Lemmas.LawMoments
import Verif.Lemmas.FamilyLaws

/-!
# Updating and `laplace` as Bayes' theorem (C143)
-/

namespace Verif

open MeasureTheory ProbabilityTheory Spec

/-! ### Posteriors of laws with densities -/

theorem posterior_density {f g L : ℝ → ENNReal} (hf : Measurable f) (hg : Measurable g) (hL : Measurable L)
    {c : ENNReal} (hc0 : c ≠ 0) (hc : c ≠ ⊤) (h : ∀ᵐ x, f x * L x = c * g x) (hg1 : ∫⁻ x, g x = 1) :
    posterior (volume.withDensity f) L = volume.withDensity g ∧ ∫⁻ x, L x ∂(volume.withDensity f) = c := by
  have e1 : ∫⁻ x, L x ∂(volume.withDensity f) = c := by
    rw [lintegral_withDensity_eq_lintegral_mul _ hf hL]
    have : ∫⁻ x, (f * L) x = ∫⁻ x, c * g x := lintegral_congr_ae (by filter_upwards [h] with x hx; exact hx)
    rw [this, lintegral_const_mul _ hg, hg1, mul_one]
  refine ⟨?_, e1⟩
  unfold posterior
  rw [e1, ← withDensity_mul _ hf hL]
  have : volume.withDensity (f * L) = volume.withDensity (c • g) :=
    withDensity_congr_ae (by filter_upwards [h] with x hx; exact hx)
  rw [this, withDensity_smul _ hg, smul_smul, ENNReal.inv_mul_cancel hc0 hc, one_smul]

theorem predictive_posterior (μ : Measure ℝ) {L q : ℝ → ENNReal} (hL : Measurable L) (hq : Measurable q) :
    predictive μ L q = ∫⁻ θ, q θ ∂(posterior μ L) := by
  unfold predictive posterior
  rw [lintegral_smul_measure, lintegral_withDensity_eq_lintegral_mul _ hL hq, smul_eq_mul, ENNReal.div_eq_inv_mul]
  rfl

theorem posterior_map {μ : Measure ℝ} {f : ℝ → ℝ} (hf : Measurable f) {L : ℝ → ENNReal} (hL : Measurable L) :
    posterior (μ.map f) L = (posterior μ (L ∘ f)).map f := by
  unfold posterior
  rw [lintegral_map hL hf, Measure.map_smul]
  congr 1
  ext s hs
  rw [withDensity_apply _ hs, Measure.map_apply hf hs, withDensity_apply _ (hf hs),
    setLIntegral_map hs hL hf]
  rfl

theorem measurable_trialsLikelihood (s f : ℝ) : Measurable (trialsLikelihood s f) := by
  unfold trialsLikelihood; fun_prop

theorem measurable_eventsLikelihood (s t : ℝ) : Measurable (eventsLikelihood s t) := by
  unfold eventsLikelihood; fun_prop

/-! ### Beta distributions: successes and failures -/

theorem betaPDF_mul_trials {a b s f : ℝ} (ha : 0 < a) (hb : 0 < b) (hs : 0 ≤ s) (hf : 0 ≤ f) (x : ℝ) :
    betaPDF a b x * trialsLikelihood s f x =
      ENNReal.ofReal (ProbabilityTheory.beta (a + s) (b + f) / ProbabilityTheory.beta a b) * betaPDF (a + s) (b + f) x := by
  rcases le_or_gt x 0 with h | h0
  · rw [betaPDF_eq_zero_of_nonpos h, betaPDF_eq_zero_of_nonpos h]; simp
  rcases le_or_gt 1 x with h | h1
  · rw [betaPDF_eq_zero_of_one_le h, betaPDF_eq_zero_of_one_le h]; simp
  have hB := beta_pos ha hb
  have hB' := beta_pos (by linarith : 0 < a + s) (by linarith : 0 < b + f)
  have h1' : 0 < 1 - x := by linarith
  rw [betaPDF_of_pos_lt_one h0 h1, betaPDF_of_pos_lt_one h0 h1, trialsLikelihood,
    ← ENNReal.ofReal_mul' (by positivity), ← ENNReal.ofReal_mul (by positivity)]
  congr 1
  rw [show a + s - 1 = (a - 1) + s by ring, show b + f - 1 = (b - 1) + f by ring, Real.rpow_add h0, Real.rpow_add h1']
  field_simp

theorem beta_posterior {a b s f : ℝ} (ha : 0 < a) (hb : 0 < b) (hs : 0 ≤ s) (hf : 0 ≤ f) :
    posterior (betaMeasure a b) (trialsLikelihood s f) = betaMeasure (a + s) (b + f) := by
  have hB := beta_pos ha hb
  have hB' := beta_pos (by linarith : 0 < a + s) (by linarith : 0 < b + f)
  refine (posterior_density (measurable_betaPDF a b) (measurable_betaPDF _ _) (measurable_trialsLikelihood s f)
    (c := ENNReal.ofReal (ProbabilityTheory.beta (a + s) (b + f) / ProbabilityTheory.beta a b)) ?_ ENNReal.ofReal_ne_top
    (Filter.Eventually.of_forall (betaPDF_mul_trials ha hb hs hf))
    (lintegral_betaPDF_eq_one (by linarith) (by linarith))).1
  rw [Ne, ENNReal.ofReal_eq_zero, not_le]
  positivity

/-- **C143**, beta distributions: `update(beta(a, b), beta(s, f))` is the posterior, by Bayes' theorem, of a success
probability with prior `beta(a, b)` after `s` successes and `f` failures. -/
theorem C143_beta (ppf : ℝ → ℝ) {a b s f : ℝ} (ha : 0 < a) (hb : 0 < b) (hs : 0 ≤ s) (hf : 0 ≤ f) (w : ℝ) :
    ∃ A B, update ppf (.beta a b) (.beta s f) w = .ok (.beta A B) ∧ 0 < A ∧ 0 < B ∧
      betaMeasure A B = posterior (betaMeasure a b) (trialsLikelihood s f) :=
  ⟨a + s, b + f, rfl, by linarith, by linarith, (beta_posterior ha hb hs hf).symm⟩

/-- **C143**, `laplace(s, n)`: the probability that the next trial is a success, given `s` successes in `n` trials, if
before any trial all success probabilities are equally likely; it is also the mean of
`update(beta(1, 1), beta(s, n - s))`. -/
theorem C143_laplace {s n : ℝ} (hs : 0 ≤ s) (hn : s ≤ n) (fixed : Bool) (ppf : ℝ → ℝ) (w : ℝ) :
    ∃ p A B, laplace s (some n) none none fixed = .ok p ∧
      ENNReal.ofReal p = predictive (uniformLaw 0 1) (trialsLikelihood s (n - s)) (fun q => ENNReal.ofReal q) ∧
      update ppf (.beta 1 1) (.beta s (n - s)) w = .ok (.beta A B) ∧ HasMean (betaMeasure A B) p := by
  obtain ⟨p, hp, hpe, hp0, -⟩ := (C58_trials s n hs fixed).1 hn
  have hf : 0 ≤ n - s := by linarith
  have hmean := beta_hasMean (a := 1 + s) (b := 1 + (n - s)) (by linarith) (by linarith)
  have e : (1 + s) / (1 + s + (1 + (n - s))) = p := by rw [hpe]; congr 1 <;> ring
  rw [e] at hmean
  refine ⟨p, 1 + s, 1 + (n - s), hp, ?_, rfl, hmean⟩
  rw [← beta_one_one, predictive_posterior _ (measurable_trialsLikelihood _ _) (by fun_prop),
    beta_posterior one_pos one_pos hs hf]
  have hae : ∀ᵐ x ∂(betaMeasure (1 + s) (1 + (n - s))), 0 ≤ x := by
    unfold betaMeasure
    rw [ae_withDensity_iff (measurable_betaPDF _ _)]
    exact Filter.Eventually.of_forall fun x hx => by
      by_contra hneg
      exact hx (betaPDF_eq_zero_of_nonpos (not_le.1 hneg).le)
  rw [← ofReal_integral_eq_lintegral_ofReal hmean.1 hae, hmean.2]

/-! ### Normal and lognormal distributions: measurements -/

theorem normalLaw_density (m : ℝ) {s : ℝ} (hs : 0 < s) :
    normalLaw m s = volume.withDensity fun x => ENNReal.ofReal (gaussianPDFReal m (s ^ 2).toNNReal x) := by
  unfold normalLaw
  have e : (⟨s ^ 2, sq_nonneg s⟩ : NNReal) = (s ^ 2).toNNReal := (Real.toNNReal_of_nonneg (sq_nonneg s)).symm
  have h0 : (s ^ 2).toNNReal ≠ 0 := by
    rw [Ne, Real.toNNReal_eq_zero, not_le]; positivity
  have e' : (NNReal.mk (s ^ 2) (sq_nonneg s)) = (s ^ 2).toNNReal := e
  rw [e', gaussianReal_of_var_ne_zero _ h0]
  rfl

theorem measurable_measuredLikelihood (x sd w : ℝ) : Measurable (measuredLikelihood x sd w) := by
  unfold measuredLikelihood gaussianPDFReal
  fun_prop

/-- **C143**, normal distributions: `update(norm(mean=m, sd=s), norm(mean=x, sd=sd), evidence_weight=w)` is the posterior
of a number with prior `norm(mean=m, sd=s)` after `w` measurements of `x` with error `sd`. -/
theorem C143_normal (ppf : ℝ → ℝ) {d e : PDist} {m s x sd w : ℝ} (hd : IsNormal d m s) (hs : 0 < s)
    (he : IsNormal e x sd) (hsd : 0 < sd) (hw : 0 ≤ w) :
    ∃ M S, update ppf d e w = .ok (.norm ⟨some M, some S⟩ none none) ∧ 0 < S ∧
      normalLaw M S = posterior (normalLaw m s) (measuredLikelihood x sd w) := by
  obtain ⟨M, S, h1, h2, c, hc, h3⟩ := C52_bayes ppf d m s hd hs e x sd w he hsd hw
  refine ⟨M, S, h1, h2, ?_⟩
  rw [normalLaw_density m hs]
  have hS0 : (S ^ 2).toNNReal ≠ 0 := by
    rw [Ne, Real.toNNReal_eq_zero, not_le]; positivity
  have := (posterior_density (f := fun y => ENNReal.ofReal (gaussianPDFReal m (s ^ 2).toNNReal y))
    (g := fun y => ENNReal.ofReal (gaussianPDFReal M (S ^ 2).toNNReal y)) (by unfold gaussianPDFReal; fun_prop)
    (by unfold gaussianPDFReal; fun_prop)
    (measurable_measuredLikelihood x sd w) (c := ENNReal.ofReal c) (by rw [Ne, ENNReal.ofReal_eq_zero, not_le]; exact hc)
    ENNReal.ofReal_ne_top (Filter.Eventually.of_forall fun θ => by
      rw [measuredLikelihood, ← ENNReal.ofReal_mul (gaussianPDFReal_nonneg _ _ _), ← ENNReal.ofReal_mul hc.le, ← h3 θ]
      congr 2
      simp only [gaussianPDFReal]
      rw [← neg_sub x θ, neg_sq])
    (lintegral_gaussianPDFReal_eq_one M hS0)).1
  rw [this, normalLaw_density M h2]

/-- **C143**, lognormal distributions: the posterior of a positive number with a lognormal prior after `w` measurements
of its logarithm. -/
theorem C143_lognormal (ppf : ℝ → ℝ) {d e : PDist} {m s x sd w : ℝ} (hd : IsLognormal d m s) (hs : 0 < s)
    (he : IsLognormal e x sd) (hsd : 0 < sd) (hw : 0 ≤ w) :
    ∃ post M S, update ppf d e w = .ok post ∧ IsLognormal post M S ∧ 0 < S ∧
      lognormalLaw M S = posterior (lognormalLaw m s) (fun θ => measuredLikelihood x sd w (Real.log θ)) := by
  obtain ⟨M, S, h1, h2, h3⟩ := C143_normal ppf (d := .norm ⟨some m, some s⟩ none none)
    (e := .norm ⟨some x, some sd⟩ none none) ⟨_, _, rfl⟩ hs ⟨_, _, rfl⟩ hsd hw
  obtain ⟨M', S', lpost, h4, h5, h6⟩ := (C53_lognormal ppf d e _ _ m s x sd w hd he ⟨none, none, rfl⟩
    ⟨none, none, rfl⟩).2 _ h1
  obtain ⟨lc, rc, h4⟩ := h4
  cases h4
  refine ⟨lpost, M, S, h5, h6, h2, ?_⟩
  unfold lognormalLaw
  have := posterior_map (μ := normalLaw m s) Real.measurable_exp
    (L := fun θ => measuredLikelihood x sd w (Real.log θ)) ((measurable_measuredLikelihood x sd w).comp Real.measurable_log)
  rw [this, h3]
  congr 2
  funext y
  simp

/-! ### Gamma distributions: events in time -/

theorem gammaPDF_mul_events {a r s t : ℝ} (ha : 0 < a) (hr : 0 < r) (hs : 0 ≤ s) (ht : 0 ≤ t) {x : ℝ} (hx : x ≠ 0) :
    gammaPDF a r x * eventsLikelihood s t x =
      ENNReal.ofReal (r ^ a / Real.Gamma a * (Real.Gamma (a + s) / (r + t) ^ (a + s))) * gammaPDF (a + s) (r + t) x := by
  rcases lt_or_gt_of_ne hx with h | h0
  · rw [gammaPDF_of_neg h, gammaPDF_of_neg h]; simp
  have hG := Real.Gamma_pos_of_pos ha
  have hG' := Real.Gamma_pos_of_pos (by linarith : 0 < a + s)
  have hrt : 0 < r + t := by linarith
  rw [gammaPDF_of_nonneg h0.le, gammaPDF_of_nonneg h0.le, eventsLikelihood, ← ENNReal.ofReal_mul' (by positivity),
    ← ENNReal.ofReal_mul (by positivity)]
  congr 1
  have hp : (r + t) ^ (a + s) ≠ 0 := by positivity
  rw [show a + s - 1 = (a - 1) + s by ring, Real.rpow_add h0, show -((r + t) * x) = -(r * x) + -(t * x) by ring,
    Real.exp_add]
  field_simp

theorem gamma_posterior {a r s t : ℝ} (ha : 0 < a) (hr : 0 < r) (hs : 0 ≤ s) (ht : 0 ≤ t) :
    posterior (gammaMeasure a r) (eventsLikelihood s t) = gammaMeasure (a + s) (r + t) := by
  have hG := Real.Gamma_pos_of_pos ha
  have hG' := Real.Gamma_pos_of_pos (by linarith : 0 < a + s)
  have hrt : 0 < r + t := by linarith
  refine (posterior_density (measurable_gammaPDF a r) (measurable_gammaPDF _ _) (measurable_eventsLikelihood s t)
    (c := ENNReal.ofReal (r ^ a / Real.Gamma a * (Real.Gamma (a + s) / (r + t) ^ (a + s)))) ?_ ENNReal.ofReal_ne_top ?_
    (lintegral_gammaPDF_eq_one (by linarith) hrt)).1
  · rw [Ne, ENNReal.ofReal_eq_zero, not_le]
    positivity
  · filter_upwards [compl_mem_ae_iff.2 (measure_singleton (0 : ℝ))] with x hx
    exact gammaPDF_mul_events ha hr hs ht hx

/-- **C143** fails for gamma distributions: `update(gamma(a, c), gamma(a', c'))` is never the posterior of a rate with
prior `gamma(a, c)` after `a'` events in the time `1 / c'`; its mean is always larger.  (The rates are averaged where they
should be added.) -/
theorem C143_gamma_fails (ppf : ℝ → ℝ) {a c a' c' : ℝ} (ha : 0 < a) (hc : 0 < c) (ha' : 0 < a') (hc' : 0 < c') :
    ∃ A C m, update ppf (.gamma a c none none) (.gamma a' c' none none) 1 = .ok (.gamma A C none none) ∧ 0 < A ∧ 0 < C ∧
      HasMean (posterior (gammaMeasure a (1 / c)) (eventsLikelihood a' (1 / c'))) m ∧
      HasMean (gammaMeasure A (1 / C)) (A * C) ∧ m < A * C ∧
      gammaMeasure A (1 / C) ≠ posterior (gammaMeasure a (1 / c)) (eventsLikelihood a' (1 / c')) := by
  obtain ⟨post, A, C, h1, -, h3, h4, h5, h6, h7⟩ := C53_gamma ppf [(.gamma a' c' none none, ⟨a', c', 1⟩)]
    (.gamma a c none none) a c ⟨_, _, rfl⟩ ha hc (by
      intro x hx
      rw [List.mem_singleton.1 hx]
      exact ⟨⟨none, none, rfl⟩, by simp only [GEvidence.Valid]; exact ⟨ha', hc', zero_le_one⟩⟩)
  rw [h3 (by simp)] at h1
  simp only [List.map_cons, List.map_nil, List.sum_cons, List.sum_nil, add_zero, mul_one] at h1 h6 h7
  have hup : update ppf (.gamma a c none none) (.gamma a' c' none none) 1 = .ok (.gamma A C none none) := by
    simp only [updateAll] at h1
    rcases h : update ppf (.gamma a c none none) (.gamma a' c' none none) 1 with er | p
    · rw [h] at h1; cases h1
    · rw [h] at h1; exact h1
  have hm := gamma_hasMean (a := a + a') (r := 1 / c + 1 / c') (by linarith) (by positivity)
  have hm' := gamma_hasMean (a := A) (r := 1 / C) h4 (by positivity)
  rw [show A / (1 / C) = A * C by field_simp] at hm'
  have hlt : (a + a') / (1 / c + 1 / c') < A * C := by
    have hr : 1 / C < 1 / c + 1 / c' := by
      have : (a + a') * (1 / C) < (a + a') * (1 / c + 1 / c') := by
        rw [← h6, h7, h6]
        have := mul_pos ha (one_div_pos.2 hc')
        have := mul_pos ha' (one_div_pos.2 hc)
        linarith
      exact lt_of_mul_lt_mul_left this (by linarith)
    rw [div_lt_iff₀ (by positivity), h6]
    have hone : C * (1 / C) = 1 := by field_simp
    have : (a + a') * C * (1 / C) < (a + a') * C * (1 / c + 1 / c') :=
      mul_lt_mul_of_pos_left hr (by positivity)
    calc a + a' = (a + a') * C * (1 / C) := by rw [mul_assoc, hone, mul_one]
      _ < _ := this
  rw [gamma_posterior ha (by positivity) ha'.le (by positivity)]
  refine ⟨A, C, _, hup, h4, h5, hm, hm', hlt, fun h => ?_⟩
  rw [h] at hm'
  exact absurd (hm.2.symm.trans hm'.2) hlt.ne

/-! ### The time-invariant rule -/

theorem flatRate_density : flatRate = volume.withDensity (Set.indicator (Set.Ioi 0) 1) := by
  rw [withDensity_indicator_one measurableSet_Ioi]
  rfl

theorem events_mul {s t x : ℝ} (j : ℝ) (hs : 0 < s + j) (ht : 0 < t) (hx : x ≠ 0) :
    Set.indicator (Set.Ioi (0 : ℝ)) (fun y => ENNReal.ofReal (y ^ (j - 1))) x * eventsLikelihood s t x =
      ENNReal.ofReal (Real.Gamma (s + j) / t ^ (s + j)) * gammaPDF (s + j) t x := by
  rcases lt_or_gt_of_ne hx with h | h0
  · rw [gammaPDF_of_neg h, Set.indicator_of_notMem (by simpa using h.le)]; simp
  have hG' := Real.Gamma_pos_of_pos hs
  have hp : t ^ (s + j) ≠ 0 := by positivity
  rw [Set.indicator_of_mem (by simpa using h0), gammaPDF_of_nonneg h0.le, eventsLikelihood,
    ← ENNReal.ofReal_mul' (by positivity), ← ENNReal.ofReal_mul (by positivity)]
  congr 1
  rw [show s + j - 1 = (j - 1) + s by ring, Real.rpow_add h0]
  field_simp

theorem rate_posterior {s t : ℝ} (j : ℝ) (hs : 0 < s + j) (ht : 0 < t) :
    posterior (volume.withDensity (Set.indicator (Set.Ioi (0 : ℝ)) fun y => ENNReal.ofReal (y ^ (j - 1))))
      (eventsLikelihood s t) = gammaMeasure (s + j) t := by
  have hG' := Real.Gamma_pos_of_pos hs
  refine (posterior_density (Measurable.indicator (by fun_prop) measurableSet_Ioi) (measurable_gammaPDF _ _)
    (measurable_eventsLikelihood s t)
    (c := ENNReal.ofReal (Real.Gamma (s + j) / t ^ (s + j))) ?_ ENNReal.ofReal_ne_top ?_
    (lintegral_gammaPDF_eq_one hs ht)).1
  · rw [Ne, ENNReal.ofReal_eq_zero, not_le]
    positivity
  · filter_upwards [compl_mem_ae_iff.2 (measure_singleton (0 : ℝ))] with x hx
    exact events_mul j hs ht hx

theorem flatRate_posterior {s t : ℝ} (hs : 0 ≤ s) (ht : 0 < t) :
    posterior flatRate (eventsLikelihood s t) = gammaMeasure (s + 1) t := by
  rw [← rate_posterior 1 (by linarith) ht, flatRate_density]
  congr 2
  funext x
  by_cases h : x ∈ Set.Ioi (0 : ℝ)
  · rw [Set.indicator_of_mem h, Set.indicator_of_mem h]; simp
  · rw [Set.indicator_of_notMem h, Set.indicator_of_notMem h]

theorem scaleFreeRate_posterior {s t : ℝ} (hs : 0 < s) (ht : 0 < t) :
    posterior scaleFreeRate (eventsLikelihood s t) = gammaMeasure s t := by
  have := rate_posterior (s := s) (t := t) 0 (by linarith) ht
  rw [add_zero] at this
  rw [← this]
  congr 1
  unfold scaleFreeRate
  rw [flatRate_density, ← withDensity_mul _ (measurable_one.indicator measurableSet_Ioi) (by fun_prop)]
  refine withDensity_congr_ae (Filter.Eventually.of_forall fun x => ?_)
  by_cases h : x ∈ Set.Ioi (0 : ℝ)
  · rw [Pi.mul_apply, Set.indicator_of_mem h, Set.indicator_of_mem h, zero_sub, Real.rpow_neg_one]; simp
  · rw [Pi.mul_apply, Set.indicator_of_notMem h, Set.indicator_of_notMem h]; simp

/-- Waiting with a gamma distributed rate. -/
theorem gamma_someEvent {k t r : ℝ} (hk : 0 < k) (ht : 0 < t) (hr : 0 < r) :
    ∫⁻ lam, someEvent r lam ∂(gammaMeasure k t) = ENNReal.ofReal (1 - (1 + r / t) ^ (-k)) := by
  have hG := Real.Gamma_pos_of_pos hk
  have hpr := isProbabilityMeasure_gammaMeasure hk ht
  have hae : ∀ᵐ x ∂(gammaMeasure k t), 0 ≤ x := by
    unfold gammaMeasure
    rw [ae_withDensity_iff (measurable_gammaPDF _ _)]
    exact Filter.Eventually.of_forall fun x hx => by
      by_contra hneg
      exact hx (gammaPDF_of_neg (not_le.1 hneg))
  have hexp : ∫⁻ lam, ENNReal.ofReal (Real.exp (-(r * lam))) ∂(gammaMeasure k t) =
      ENNReal.ofReal ((1 + r / t) ^ (-k)) := by
    have h := (posterior_density (measurable_gammaPDF k t) (measurable_gammaPDF (k + 0) (t + r))
      (measurable_eventsLikelihood 0 r)
      (c := ENNReal.ofReal (t ^ k / Real.Gamma k * (Real.Gamma (k + 0) / (t + r) ^ (k + 0)))) (by
        rw [Ne, ENNReal.ofReal_eq_zero, not_le, add_zero]; positivity) ENNReal.ofReal_ne_top (by
        filter_upwards [compl_mem_ae_iff.2 (measure_singleton (0 : ℝ))] with x hx
        exact gammaPDF_mul_events hk ht le_rfl hr.le hx)
      (lintegral_gammaPDF_eq_one (by linarith) (by linarith))).2
    have e : t ^ k / Real.Gamma k * (Real.Gamma (k + 0) / (t + r) ^ (k + 0)) = (1 + r / t) ^ (-k) := by
      have h1 : 1 + r / t = (t + r) / t := by field_simp
      have : (t + r) ^ k ≠ 0 := by positivity
      rw [add_zero, h1, Real.rpow_neg (by positivity), Real.div_rpow (by positivity) ht.le]
      field_simp
    rw [e] at h
    rw [← h]
    unfold gammaMeasure eventsLikelihood
    simp only [Real.rpow_zero, one_mul]
  have hsum : ∫⁻ lam, someEvent r lam ∂(gammaMeasure k t) + ENNReal.ofReal ((1 + r / t) ^ (-k)) = 1 := by
    rw [← hexp, ← lintegral_add_right _ (by fun_prop)]
    have : ∫⁻ lam, (someEvent r lam + ENNReal.ofReal (Real.exp (-(r * lam)))) ∂(gammaMeasure k t) =
        ∫⁻ _, 1 ∂(gammaMeasure k t) := by
      refine lintegral_congr_ae ?_
      filter_upwards [hae] with x hx
      have h1 : Real.exp (-(r * x)) ≤ 1 := Real.exp_le_one_iff.2 (by have := mul_nonneg hr.le hx; linarith)
      rw [someEvent, ← ENNReal.ofReal_add (by linarith) (Real.exp_pos _).le]
      simp
    rw [this]
    simp
  have hle : (1 + r / t) ^ (-k) ≤ 1 := Real.rpow_le_one_of_one_le_of_nonpos
    (by have := div_pos hr ht; linarith) (by linarith)
  rw [ENNReal.ofReal_sub _ (by positivity), ENNReal.ofReal_one]
  exact ENNReal.eq_sub_of_add_eq ENNReal.ofReal_ne_top hsum

/-- **C143**, the time-invariant rule: `laplace(s, time_passed=t, time_remaining=r)` is the probability of an event
within the time `r` given `s` events within the time `t`, for events that happen at an unknown rate: with every positive
rate equally likely beforehand if the time is fixed or nothing has happened, and with every order of magnitude of the
rate equally likely if the time ends with the last event. -/
theorem C143_laplace_time {s : ℕ} {t r : ℝ} (ht : 0 < t) (hr : 0 < r) (fixed : Bool) :
    ∃ p, laplace s none (some t) (some r) fixed = .ok p ∧
      ENNReal.ofReal p = predictive (if s = 0 ∨ fixed = true then flatRate else scaleFreeRate)
        (eventsLikelihood s t) (someEvent r) := by
  obtain ⟨⟨p, hp, hpe, -⟩, -⟩ := C58_time s t r ht hr fixed
  refine ⟨p, hp, ?_⟩
  have hq : Measurable (someEvent r) := by unfold someEvent; fun_prop
  rw [predictive_posterior _ (measurable_eventsLikelihood _ _) hq, hpe]
  by_cases h : s = 0 ∨ fixed = true
  · rw [if_pos h, flatRate_posterior (Nat.cast_nonneg s) ht, gamma_someEvent (by positivity) ht hr]
    congr 4
    unfold timeExponent
    by_cases h0 : s = 0
    · rw [if_pos h0, h0]; simp
    · rw [if_neg h0, if_pos (h.resolve_left h0)]
  · rw [if_neg h]
    have hs : 0 < s := Nat.pos_of_ne_zero fun h0 => h (Or.inl h0)
    rw [scaleFreeRate_posterior (by exact_mod_cast hs) ht, gamma_someEvent (by exact_mod_cast hs) ht hr]
    congr 4
    unfold timeExponent
    rw [if_neg fun h0 => h (Or.inl h0), if_neg fun h0 => h (Or.inr h0)]

/-! ### The specification is conditional probability -/

/-- `posterior` is conditional probability: draw the unknown from the prior, let the observation happen with the
probability the likelihood gives it, and look at the unknown in the cases where it happened. -/
theorem posterior_is_conditional (prior : Measure ℝ) [IsProbabilityMeasure prior] {L : ℝ → ENNReal}
    (hL : Measurable L) (h1 : ∀ x, L x ≤ 1) :
    posterior prior L =
      ((prior.prod (volume.restrict (Set.Icc 0 1)))[|{z : ℝ × ℝ | ENNReal.ofReal z.2 ≤ L z.1}]).map Prod.fst := by
  have hE : MeasurableSet {z : ℝ × ℝ | ENNReal.ofReal z.2 ≤ L z.1} :=
    measurableSet_le (by fun_prop) (hL.comp measurable_fst)
  have hsl : ∀ x, (volume.restrict (Set.Icc (0 : ℝ) 1)) {u | ENNReal.ofReal u ≤ L x} = L x := by
    intro x
    have hx : L x ≠ ⊤ := ne_top_of_le_ne_top ENNReal.one_ne_top (h1 x)
    have hm : MeasurableSet {u : ℝ | ENNReal.ofReal u ≤ L x} := measurableSet_le (by fun_prop) measurable_const
    rw [Measure.restrict_apply hm]
    have hr : (L x).toReal ≤ 1 := by
      have := ENNReal.toReal_mono ENNReal.one_ne_top (h1 x)
      simpa using this
    have : {u : ℝ | ENNReal.ofReal u ≤ L x} ∩ Set.Icc 0 1 = Set.Icc 0 (L x).toReal := by
      ext u
      simp only [Set.mem_inter_iff, Set.mem_setOf_eq, Set.mem_Icc, ENNReal.ofReal_le_iff_le_toReal hx]
      constructor
      · rintro ⟨a, b, c⟩; exact ⟨b, a⟩
      · rintro ⟨a, b⟩; exact ⟨b, a, b.trans hr⟩
    rw [this, Real.volume_Icc, sub_zero, ENNReal.ofReal_toReal hx]
  ext A hA
  rw [Measure.map_apply measurable_fst hA, cond_apply hE, Measure.prod_apply hE,
    Measure.prod_apply (hE.inter (measurable_fst hA)), posterior, Measure.smul_apply, withDensity_apply _ hA, smul_eq_mul]
  congr 1
  · congr 1
    exact lintegral_congr fun x => (hsl x).symm
  · rw [← lintegral_indicator hA]
    refine lintegral_congr fun x => ?_
    by_cases hx : x ∈ A
    · rw [Set.indicator_of_mem hx, ← hsl x]
      congr 1
      ext u
      simp [hx]
    · rw [Set.indicator_of_notMem hx]
      have : Prod.mk x ⁻¹' ({z : ℝ × ℝ | ENNReal.ofReal z.2 ≤ L z.1} ∩ Prod.fst ⁻¹' A) = ∅ := by
        ext u
        simp [hx]
      rw [this, measure_empty]

end Verif
