import Verif.Spec.Experiment
import Verif.Props.EventLaw
import Verif.Props.ConditionalMean
import Verif.Props.PosteriorSample

/-!
# Simulating an experiment with `bayesnet` agrees with `update` and `laplace` (C144)
-/

namespace Verif

open MeasureTheory ProbabilityTheory Spec

/-! ### The law of an experiment -/

/-- The law of what is still to come. -/
noncomputable def trialsLaw (x q : ℝ) : ℕ → ℕ → Measure (ℝ × ℕ × Bool)
  | 0, c => ENNReal.ofReal q • Measure.dirac (x, c, true) + ENNReal.ofReal (1 - q) • Measure.dirac (x, c, false)
  | N + 1, c => ENNReal.ofReal q • trialsLaw x q N (c + 1) + ENNReal.ofReal (1 - q) • trialsLaw x q N c

theorem trials_law {T : Type} (L : Prim ℝ → Option (Measure ℝ)) (N : ℕ) : ∀ {Γ : Type} [MeasurableSpace Γ] (p : Γ → ℝ)
    (hp : Measurable p) (c : Γ → ℕ) (hc : Measurable c),
    EventLaw L (trials T N p hp c hc) fun γ => trialsLaw (p γ) (eventChance (p γ)) N (c γ) := by
  induction N with
  | zero =>
    intro Γ _ p hp c hc
    have h := EventLaw.event (S := T) (L := L) hp (EventLaw.ret (g := fun γ : Γ × Bool => (p γ.1, c γ.1, γ.2)) (by fun_prop))
    rw [trials]
    simp only [trialsLaw]
    exact h
  | succ N ih =>
    intro Γ _ p hp c hc
    have h := EventLaw.event (S := T) (L := L) hp (ih (Γ := Γ × Bool) (fun γ => p γ.1) (by fun_prop)
      (fun γ => if γ.2 then c γ.1 + 1 else c γ.1)
      (Measurable.ite (measurable_snd (measurableSet_singleton true)) (by fun_prop) (by fun_prop)))
    rw [trials]
    simp only [if_true, Bool.false_eq_true, if_false] at h
    simp only [trialsLaw]
    exact h

/-- The law of an experiment. -/
theorem experiment_law {T : Type} {L : Prim ℝ → Option (Measure ℝ)} {prior : Obj T ℝ} {μ : Measure ℝ}
    (hd : Denotes L prior μ) (N : ℕ) :
    EventLaw L (experiment prior N) fun _ => μ.bind fun x => trialsLaw x (eventChance x) N 0 := by
  have h := EventLaw.draw (Γ := Unit) hd (trials_law (T := T) L N (Γ := Unit × ℝ) (fun γ => γ.2) (by fun_prop) (fun _ => 0)
    measurable_const)
  rw [experiment]
  exact h

section

variable {Ω : Type} [MeasurableSpace Ω] (S : IdealSource Ω)
  {left : ℕ → ℕ → Option (List (Scalar ℝ))} {E : Env (ℕ → Ω) ℝ} (hE : S.Drives E)
  (hU : S.primLaw (.uniform 0 1) = some unitLaw)

include hE hU in
theorem experiment_draws {prior : Obj (St (ℕ → Ω) ℝ) ℝ} {μ : Measure ℝ} (hd : Denotes S.primLaw prior μ) (N : ℕ) :
    (Measurable fun x => trialsLaw x (eventChance x) N 0) ∧
      DrawsFrom S.law left ((experiment prior N).run E)
      fun _ => μ.bind fun x => trialsLaw x (eventChance x) N 0 :=
  ⟨(eventLaw_draws S (left := left) hE hU (trials_law S.primLaw N (Γ := Unit × ℝ) (fun γ => γ.2) (by fun_prop) (fun _ => 0)
    measurable_const)).1.comp (measurable_prodMk_left (x := ())), eventLaw_draws S hE hU (experiment_law hd N)⟩

end

/-- The chance of `s` further successes in the trials. -/
theorem trialsLaw_mass (x : ℝ) {q : ℝ} (h0 : 0 ≤ q) (h1 : q ≤ 1) (A : Set ℝ) (hA : MeasurableSet A) (V : Set Bool) (N : ℕ) :
    ∀ c t, trialsLaw x q N c {e | e.1 ∈ A ∧ e.2.1 = t ∧ e.2.2 ∈ V} =
      A.indicator 1 x * (if c ≤ t then ENNReal.ofReal (N.choose (t - c) * (q ^ (t - c) * (1 - q) ^ (N - (t - c)))) else 0) *
        (V.indicator 1 true * ENNReal.ofReal q + V.indicator 1 false * ENNReal.ofReal (1 - q)) := by
  have hT : ∀ t, MeasurableSet {e : ℝ × ℕ × Bool | e.1 ∈ A ∧ e.2.1 = t ∧ e.2.2 ∈ V} := fun t =>
    (measurable_fst hA).inter (((measurable_fst.comp measurable_snd) (measurableSet_singleton t)).inter
      ((measurable_snd.comp measurable_snd) (Set.toFinite V).measurableSet))
  have hq : 0 ≤ 1 - q := by linarith
  induction N with
  | zero =>
    intro c t
    rw [trialsLaw, Measure.add_apply, Measure.smul_apply, Measure.smul_apply, Measure.dirac_apply' _ (hT t),
      Measure.dirac_apply' _ (hT t)]
    by_cases hx : x ∈ A
    · by_cases hc : c = t
      · subst hc
        by_cases ht : true ∈ V <;> by_cases hf : false ∈ V <;> simp [hx, ht, hf]
      · have : (if c ≤ t then ENNReal.ofReal ((Nat.choose 0 (t - c) : ℕ) * (q ^ (t - c) * (1 - q) ^ (0 - (t - c)))) else 0) =
            (0 : ENNReal) := by
          by_cases h : c ≤ t
          · rw [if_pos h, Nat.choose_eq_zero_of_lt (by omega)]; simp
          · rw [if_neg h]
        rw [this]
        simp [hc]
    · simp [hx]
  | succ N ih =>
    intro c t
    rw [trialsLaw, Measure.add_apply, Measure.smul_apply, Measure.smul_apply, ih (c + 1) t, ih c t]
    set Z := V.indicator 1 true * ENNReal.ofReal q + V.indicator 1 false * ENNReal.ofReal (1 - q)
    set a : ENNReal := A.indicator 1 x
    have key : ENNReal.ofReal q * (if c + 1 ≤ t then
          ENNReal.ofReal (N.choose (t - (c + 1)) * (q ^ (t - (c + 1)) * (1 - q) ^ (N - (t - (c + 1))))) else 0) +
        ENNReal.ofReal (1 - q) * (if c ≤ t then
          ENNReal.ofReal (N.choose (t - c) * (q ^ (t - c) * (1 - q) ^ (N - (t - c)))) else 0) =
        if c ≤ t then ENNReal.ofReal ((N + 1).choose (t - c) * (q ^ (t - c) * (1 - q) ^ (N + 1 - (t - c)))) else 0 := by
      rcases lt_trichotomy t c with h | h | h
      · rw [if_neg (by omega), if_neg (by omega), if_neg (by omega)]; simp
      · subst h
        rw [if_neg (by omega), if_pos le_rfl, if_pos le_rfl, mul_zero, zero_add, ← ENNReal.ofReal_mul hq]
        congr 1
        simp [pow_succ]
        ring
      · obtain ⟨r, rfl⟩ : ∃ r, t = c + (r + 1) := ⟨t - c - 1, by omega⟩
        rw [if_pos (by omega), if_pos (by omega), if_pos (by omega), show c + (r + 1) - (c + 1) = r by omega,
          show c + (r + 1) - c = r + 1 by omega, ← ENNReal.ofReal_mul h0, ← ENNReal.ofReal_mul hq,
          ← ENNReal.ofReal_add (by positivity) (by positivity), show N + 1 - (r + 1) = N - r by omega,
          Nat.choose_succ_succ]
        congr 1
        by_cases hr : r + 1 ≤ N
        · rw [show N - r = (N - (r + 1)) + 1 by omega]
          push_cast
          ring
        · rw [Nat.choose_eq_zero_of_lt (show N < r + 1 by omega)]
          push_cast
          ring
    rw [← key, smul_eq_mul, smul_eq_mul]
    ring

/-! ### Conditional laws of an experiment -/

section

variable {μ : Measure ℝ} (hμ : ∀ᵐ x ∂μ, 0 ≤ x ∧ x ≤ 1) {N : ℕ}
  (hm : Measurable fun x => trialsLaw x (eventChance x) N 0)

include hμ hm

theorem experiment_mass (A : Set ℝ) (hA : MeasurableSet A) (V : Set Bool) (s : ℕ) :
    (μ.bind fun x => trialsLaw x (eventChance x) N 0) {e | e.1 ∈ A ∧ e.2.1 = s ∧ e.2.2 ∈ V} =
      (N.choose s : ℕ) * ∫⁻ x in A, trialsLikelihood s ((N - s : ℕ) : ℝ) x *
        (V.indicator 1 true * ENNReal.ofReal x + V.indicator 1 false * ENNReal.ofReal (1 - x)) ∂μ := by
  have hT : MeasurableSet {e : ℝ × ℕ × Bool | e.1 ∈ A ∧ e.2.1 = s ∧ e.2.2 ∈ V} :=
    (measurable_fst hA).inter (((measurable_fst.comp measurable_snd) (measurableSet_singleton s)).inter
      ((measurable_snd.comp measurable_snd) (Set.toFinite V).measurableSet))
  rw [Measure.bind_apply hT hm.aemeasurable, ← lintegral_indicator hA, ← lintegral_const_mul _ (by
    refine Measurable.indicator ?_ hA
    exact (measurable_trialsLikelihood _ _).mul (by fun_prop))]
  refine lintegral_congr_ae ?_
  filter_upwards [hμ] with x hx
  rw [eventChance_of hx.1 hx.2, trialsLaw_mass x hx.1 hx.2 A hA V N 0 s, if_pos (Nat.zero_le s), Nat.sub_zero,
    ENNReal.ofReal_mul (Nat.cast_nonneg _), ENNReal.ofReal_natCast]
  by_cases h : x ∈ A
  · rw [Set.indicator_of_mem h, Set.indicator_of_mem h, Pi.one_apply, one_mul]
    simp only [trialsLikelihood]
    rw [Real.rpow_natCast, Real.rpow_natCast, mul_assoc]
  · rw [Set.indicator_of_notMem h, Set.indicator_of_notMem h]; simp

theorem experiment_given (s : ℕ) :
    (μ.bind fun x => trialsLaw x (eventChance x) N 0) {e | e.2.1 = s} =
      (N.choose s : ℕ) * ∫⁻ x, trialsLikelihood s ((N - s : ℕ) : ℝ) x ∂μ := by
  have := experiment_mass hμ hm Set.univ MeasurableSet.univ Set.univ s
  simp only [Set.mem_univ, true_and, and_true, Set.indicator_univ, Pi.one_apply, one_mul, Measure.restrict_univ] at this
  rw [this]
  congr 1
  refine lintegral_congr_ae ?_
  filter_upwards [hμ] with x hx
  rw [← ENNReal.ofReal_add hx.1 (by linarith [hx.2])]
  simp

/-- Given the number of successes, `p` has the posterior law. -/
theorem experiment_posterior {s : ℕ} (hs : s ≤ N) :
    ((μ.bind fun x => trialsLaw x (eventChance x) N 0)[|{e | e.2.1 = s}]).map Prod.fst =
      posterior μ (trialsLikelihood s ((N - s : ℕ) : ℝ)) := by
  have hE : MeasurableSet {e : ℝ × ℕ × Bool | e.2.1 = s} :=
    (measurable_fst.comp measurable_snd) (measurableSet_singleton s)
  have hc : ((N.choose s : ℕ) : ENNReal) ≠ 0 := by exact_mod_cast (Nat.choose_pos hs).ne'
  ext A hA
  rw [Measure.map_apply measurable_fst hA, cond_apply hE, experiment_given hμ hm, posterior, Measure.smul_apply,
    withDensity_apply _ hA, smul_eq_mul]
  have := experiment_mass hμ hm A hA Set.univ s
  simp only [Set.mem_univ, and_true, Set.indicator_univ, Pi.one_apply, one_mul] at this
  have hset : {e : ℝ × ℕ × Bool | e.2.1 = s} ∩ Prod.fst ⁻¹' A = {e | e.1 ∈ A ∧ e.2.1 = s} := by
    ext e; simp [and_comm]
  rw [hset, this]
  have h2 : ∫⁻ x in A, trialsLikelihood s ((N - s : ℕ) : ℝ) x * (ENNReal.ofReal x + ENNReal.ofReal (1 - x)) ∂μ =
      ∫⁻ x in A, trialsLikelihood s ((N - s : ℕ) : ℝ) x ∂μ := by
    refine lintegral_congr_ae ?_
    filter_upwards [ae_restrict_of_ae hμ] with x hx
    rw [← ENNReal.ofReal_add hx.1 (by linarith [hx.2])]
    simp
  rw [h2, ENNReal.mul_inv (Or.inl hc) (Or.inl (ENNReal.natCast_ne_top _)), mul_assoc, mul_left_comm _ _ (∫⁻ x in A, _ ∂μ),
    ← mul_assoc, ← mul_assoc, ENNReal.inv_mul_cancel hc (ENNReal.natCast_ne_top _), one_mul]

/-- Given the number of successes, the next trial succeeds with the predictive probability. -/
theorem experiment_next {s : ℕ} (hs : s ≤ N) :
    ((μ.bind fun x => trialsLaw x (eventChance x) N 0)[|{e | e.2.1 = s}]) {e | e.2.2 = true} =
      predictive μ (trialsLikelihood s ((N - s : ℕ) : ℝ)) (fun q => ENNReal.ofReal q) := by
  have hE : MeasurableSet {e : ℝ × ℕ × Bool | e.2.1 = s} :=
    (measurable_fst.comp measurable_snd) (measurableSet_singleton s)
  have hc : ((N.choose s : ℕ) : ENNReal) ≠ 0 := by exact_mod_cast (Nat.choose_pos hs).ne'
  rw [cond_apply hE, experiment_given hμ hm, predictive]
  have := experiment_mass hμ hm Set.univ MeasurableSet.univ {true} s
  simp only [Set.mem_univ, true_and, Measure.restrict_univ, Set.mem_singleton_iff] at this
  have hset : {e : ℝ × ℕ × Bool | e.2.1 = s} ∩ {e | e.2.2 = true} = {e | e.2.1 = s ∧ e.2.2 = true} := rfl
  rw [hset, this]
  simp only [Set.indicator_of_mem (Set.mem_singleton true), Set.indicator_of_notMem
    (show false ∉ ({true} : Set Bool) by simp), Pi.one_apply, one_mul, zero_mul, add_zero]
  rw [ENNReal.mul_inv (Or.inl hc) (Or.inl (ENNReal.natCast_ne_top _)), ENNReal.div_eq_inv_mul, mul_assoc,
    mul_left_comm _ _ (∫⁻ x, _ ∂μ), ← mul_assoc, ← mul_assoc, ENNReal.inv_mul_cancel hc (ENNReal.natCast_ne_top _), one_mul]

end

theorem beta_evidence {a b s f : ℝ} (ha : 0 < a) (hb : 0 < b) (hs : 0 ≤ s) (hf : 0 ≤ f) :
    ∫⁻ x, trialsLikelihood s f x ∂(betaMeasure a b) =
      ENNReal.ofReal (ProbabilityTheory.beta (a + s) (b + f) / ProbabilityTheory.beta a b) := by
  have hB := beta_pos ha hb
  have hB' := beta_pos (by linarith : 0 < a + s) (by linarith : 0 < b + f)
  refine (posterior_density (measurable_betaPDF a b) (measurable_betaPDF _ _) (measurable_trialsLikelihood s f)
    (c := ENNReal.ofReal (ProbabilityTheory.beta (a + s) (b + f) / ProbabilityTheory.beta a b)) ?_ ENNReal.ofReal_ne_top
    (Filter.Eventually.of_forall (betaPDF_mul_trials ha hb hs hf))
    (lintegral_betaPDF_eq_one (by linarith) (by linarith))).2
  rw [Ne, ENNReal.ofReal_eq_zero, not_le]
  positivity

theorem beta_ae_unit (a b : ℝ) : ∀ᵐ x ∂(betaMeasure a b), 0 ≤ x ∧ x ≤ 1 := by
  unfold betaMeasure
  rw [ae_withDensity_iff (measurable_betaPDF _ _)]
  refine Filter.Eventually.of_forall fun x hx => ⟨?_, ?_⟩
  · by_contra hneg
    exact hx (betaPDF_eq_zero_of_nonpos (not_le.1 hneg).le)
  · by_contra hneg
    exact hx (betaPDF_eq_zero_of_one_le (not_le.1 hneg).le)

/-- All numbers of successes are equally likely beforehand. -/
theorem uniform_evidence {s N : ℕ} (hs : s ≤ N) :
    ((N.choose s : ℕ) : ENNReal) * ∫⁻ x, trialsLikelihood s ((N - s : ℕ) : ℝ) x ∂(uniformLaw 0 1) =
      ENNReal.ofReal (1 / (N + 1)) := by
  rw [← beta_one_one, beta_evidence one_pos one_pos (Nat.cast_nonneg _) (Nat.cast_nonneg _), ← ENNReal.ofReal_natCast,
    ← ENNReal.ofReal_mul (Nat.cast_nonneg _)]
  congr 1
  have e : (1 : ℝ) + s + (1 + ((N - s : ℕ) : ℝ)) = ((N + 1 : ℕ) : ℝ) + 1 := by
    rw [Nat.cast_sub hs]; push_cast; ring
  simp only [ProbabilityTheory.beta]
  rw [e, add_comm (1 : ℝ) (s : ℝ), add_comm (1 : ℝ) (((N - s : ℕ) : ℝ)), Real.Gamma_nat_eq_factorial, Real.Gamma_nat_eq_factorial,
    Real.Gamma_nat_eq_factorial, show (1 : ℝ) + 1 = 2 by norm_num, Real.Gamma_two, Real.Gamma_one]
  have h := Nat.choose_mul_factorial_mul_factorial hs
  have h' : (N.choose s : ℝ) * (s.factorial : ℝ) * ((N - s).factorial : ℝ) = (N.factorial : ℝ) := by exact_mod_cast h
  rw [Nat.factorial_succ]
  push_cast
  have hN : (N.factorial : ℝ) ≠ 0 := by exact_mod_cast N.factorial_ne_zero
  have hN1 : (N : ℝ) + 1 ≠ 0 := by positivity
  field_simp
  linarith

/-! ### The theorems -/

section

open Filter Topology

variable {Ω : Type} [MeasurableSpace Ω] (S : IdealSource Ω) (hS : Documented S) {E : Env (ℕ → Ω) ℝ} (hE : S.Drives E)
  {B : BEnv (St (ℕ → Ω) ℝ) (ℝ × ℕ × Bool)} {g : ℕ} {o : BOpts} (hcores : o.cores = 1) (hload : truthyName o.load = none)
  (hdump : truthyName o.dump = none) (st : BSt (St (ℕ → Ω) ℝ) (ℝ × ℕ × Bool))
  (hfresh : o.reload = true ∨ st.mem (some g) = none) {N s : ℕ} (hs : s ≤ N)

theorem measurable_given (s : ℕ) : Measurable fun e : ℝ × ℕ × Bool => decide (e.2.1 = s) :=
  (measurable_of_countable fun k : ℕ => decide (k = s)).comp (by fun_prop : Measurable fun e : ℝ × ℕ × Bool => e.2.1)

theorem given_set (s : ℕ) : {e : ℝ × ℕ × Bool | decide (e.2.1 = s) = true} = {e | e.2.1 = s} := by
  ext e; simp

include hS hE hcores hload hdump hfresh hs

/-- **C144**: the fraction of simulated experiments with `p` in a set, among those with `s` successes in `N` trials, comes
within `δ` of the chance that `update(beta(a, b), beta(s, N - s))` gives to that set, except with a probability that
decreases exponentially with the number of simulations. -/
theorem C144_update_chance {ρ : Type} (ppf : ℝ → ℝ) (w : ℝ) {a b : ℝ} (ha : 0 < a) (hb : 0 < b)
    (hB : B.event g = (experiment (.leaf (.beta a b) none none) N).run E ())
    {q : ℝ → Bool} (hq : Measurable q) {δ : ℝ} (hδ : 0 < δ) :
    ∃ A' B', update ppf (.beta a b) (.beta s (N - s : ℕ)) w = .ok (.beta A' B') ∧ 0 < A' ∧ 0 < B' ∧
      ∃ rate > 0, ∀ n : ℕ, 1 ≤ n → (Measure.infinitePi fun _ : ℕ => S.law).real
        {ω | ¬ ∃ x s', bayesnet B o (some g) n
            (.findReduce (fun e => .ok (.bool (q e.1))) none : Query (ℝ × ℕ × Bool) ρ ℝ)
            (some fun e => .ok (decide (e.2.1 = s))) { st with inner := ⟨ω, st.inner.left⟩ } = (.ok (.mean x), s') ∧
          |x - (betaMeasure A' B').real {p | q p = true}| < δ}
        ≤ 4 * Real.exp (-(n * rate)) := by
  obtain ⟨A', B', h1, h2, h3, h4⟩ := C143_beta ppf ha hb (s := s) (f := (N - s : ℕ)) (Nat.cast_nonneg _) (Nat.cast_nonneg _) w
  refine ⟨A', B', h1, h2, h3, ?_⟩
  obtain ⟨hm, hd⟩ := experiment_draws S (left := st.inner.left) hE (documented_uniform S hS) (denotes_beta S hS ha hb) N
  set κ := (betaMeasure a b).bind fun x => trialsLaw x (eventChance x) N 0 with hκ
  have hpκ : IsProbabilityMeasure κ := hd.2.1 ()
  have hpost := experiment_posterior (beta_ae_unit a b) hm hs
  rw [← h4, ← hκ] at hpost
  have hmass := experiment_given (beta_ae_unit a b) hm s
  rw [beta_evidence ha hb (Nat.cast_nonneg _) (Nat.cast_nonneg _), ← hκ] at hmass
  have hpos : 0 < κ.real {e | decide (e.2.1 = s) = true} := by
    rw [given_set, Measure.real, hmass]
    refine ENNReal.toReal_pos ?_ (ENNReal.mul_ne_top (ENNReal.natCast_ne_top _) ENNReal.ofReal_ne_top)
    refine mul_ne_zero (by exact_mod_cast (Nat.choose_pos hs).ne') ?_
    rw [Ne, ENNReal.ofReal_eq_zero, not_le]
    exact div_pos (beta_pos (by positivity) (by positivity)) (beta_pos ha hb)
  refine ⟨2 * (δ * κ.real {e | decide (e.2.1 = s) = true} / (2 + δ)) ^ 2, by positivity, fun n hn => ?_⟩
  have h := conditional_of_draws S (ρ := ρ) hB hcores hload hdump st (hd.at ()) hfresh hn
    (find := fun e => q e.1) (hq.comp measurable_fst) (measurable_given s) hpos hδ
  have hmq : MeasurableSet {p | q p = true} := hq (measurableSet_singleton true)
  have hset : (κ[|{e | decide (e.2.1 = s) = true}]).real {e | q e.1 = true} = (betaMeasure A' B').real {p | q p = true} := by
    rw [given_set, ← hpost, Measure.real, Measure.real, Measure.map_apply measurable_fst hmq]
    rfl
  rw [hset] at h
  refine h.trans (le_of_eq ?_)
  congr 2
  ring

/-- **C144**: the average of `p` over the simulated experiments with `s` successes in `N` trials tends to the mean of
`update(beta(a, b), beta(s, N - s))`. -/
theorem C144_update_mean {ρ : Type} (ppf : ℝ → ℝ) (w : ℝ) {a b : ℝ} (ha : 0 < a) (hb : 0 < b)
    (hB : B.event g = (experiment (.leaf (.beta a b) none none) N).run E ()) {δ : ℝ} (hδ : 0 < δ) :
    ∃ A' B' m, update ppf (.beta a b) (.beta s (N - s : ℕ)) w = .ok (.beta A' B') ∧ HasMean (betaMeasure A' B') m ∧
      Tendsto (fun n : ℕ => (Measure.infinitePi fun _ : ℕ => S.law)
        {ω | ¬ ∃ x s', bayesnet B o (some g) n
            (.findReduce (fun e => .ok (.flt e.1)) none : Query (ℝ × ℕ × Bool) ρ ℝ)
            (some fun e => .ok (decide (e.2.1 = s))) { st with inner := ⟨ω, st.inner.left⟩ } = (.ok (.mean x), s') ∧
          |x - m| < δ}) atTop (𝓝 0) := by
  obtain ⟨A', B', h1, h2, h3, h4⟩ := C143_beta ppf ha hb (s := s) (f := (N - s : ℕ)) (Nat.cast_nonneg _) (Nat.cast_nonneg _) w
  have hmean := beta_hasMean h2 h3
  refine ⟨A', B', _, h1, hmean, ?_⟩
  obtain ⟨hm, hd⟩ := experiment_draws S (left := st.inner.left) hE (documented_uniform S hS) (denotes_beta S hS ha hb) N
  set κ := (betaMeasure a b).bind fun x => trialsLaw x (eventChance x) N 0 with hκ
  have hpκ : IsProbabilityMeasure κ := hd.2.1 ()
  have hpost := experiment_posterior (beta_ae_unit a b) hm hs
  rw [← h4, ← hκ] at hpost
  have hmass := experiment_given (beta_ae_unit a b) hm s
  rw [beta_evidence ha hb (Nat.cast_nonneg _) (Nat.cast_nonneg _), ← hκ] at hmass
  have hpos : 0 < κ.real {e | decide (e.2.1 = s) = true} := by
    rw [given_set, Measure.real, hmass]
    refine ENNReal.toReal_pos ?_ (ENNReal.mul_ne_top (ENNReal.natCast_ne_top _) ENNReal.ofReal_ne_top)
    refine mul_ne_zero (by exact_mod_cast (Nat.choose_pos hs).ne') ?_
    rw [Ne, ENNReal.ofReal_eq_zero, not_le]
    exact div_pos (beta_pos (by positivity) (by positivity)) (beta_pos ha hb)
  have hint : Integrable (fun e : ℝ × ℕ × Bool => e.1) κ := by
    have hb1 : ∀ᵐ e ∂κ, ‖e.1‖ ≤ 1 := by
      have hset : MeasurableSet {e : ℝ × ℕ × Bool | ¬ ‖e.1‖ ≤ 1} :=
        (measurableSet_le (by fun_prop : Measurable fun e : ℝ × ℕ × Bool => ‖e.1‖) measurable_const).compl
      rw [ae_iff, hκ, Measure.bind_apply hset hm.aemeasurable]
      refine (lintegral_congr_ae ?_).trans lintegral_zero
      filter_upwards [beta_ae_unit a b] with x hx
      have : ∀ M c, trialsLaw x (eventChance x) M c {e | ¬ ‖e.1‖ ≤ 1} = 0 := by
        intro M
        induction M with
        | zero =>
          intro c
          rw [trialsLaw, Measure.add_apply, Measure.smul_apply, Measure.smul_apply, Measure.dirac_apply' _ hset,
            Measure.dirac_apply' _ hset]
          have : |x| ≤ 1 := abs_le.2 ⟨by linarith [hx.1], hx.2⟩
          simp [this]
        | succ M ih => intro c; rw [trialsLaw, Measure.add_apply, Measure.smul_apply, Measure.smul_apply, ih, ih]; simp
      exact this N 0
    exact Integrable.of_bound (by fun_prop) 1 hb1
  have h := conditional_mean_of_draws S (ρ := ρ) hB hcores hload hdump st (hd.at ()) hfresh
    (find := fun e => e.1) measurable_fst (measurable_given s) hint hpos hδ
  have hval : ∫ e, e.1 ∂(κ[|{e | decide (e.2.1 = s) = true}]) = A' / (A' + B') := by
    rw [given_set, ← hmean.2, ← hpost, integral_map (by fun_prop) (by fun_prop)]
  rw [hval] at h
  exact h

/-- **C144**: with `prior = uniform(0, 1)`, the fraction of simulated experiments whose next trial succeeds, among those
with `s` successes in `N` trials, comes within `δ` of `laplace(s, N)`, with an explicit bound: one in `N + 1` experiments
has `s` successes. -/
theorem C144_laplace {ρ : Type} (fixed : Bool) (hB : B.event g = (experiment (.leaf (.uniform 0 1) none none) N).run E ())
    {δ : ℝ} (hδ : 0 < δ) {n : ℕ} (hn : 1 ≤ n) :
    ∃ p, laplace s (some (N : ℝ)) none none fixed = .ok p ∧
      (Measure.infinitePi fun _ : ℕ => S.law).real
        {ω | ¬ ∃ x s', bayesnet B o (some g) n
            (.findReduce (fun e => .ok (.bool e.2.2)) none : Query (ℝ × ℕ × Bool) ρ ℝ)
            (some fun e => .ok (decide (e.2.1 = s))) { st with inner := ⟨ω, st.inner.left⟩ } = (.ok (.mean x), s') ∧
          |x - p| < δ}
        ≤ 4 * Real.exp (-2 * n * (δ / ((N + 1) * (2 + δ))) ^ 2) := by
  have hle : (s : ℝ) ≤ N := by exact_mod_cast hs
  obtain ⟨p, -, -, h1, h2, -, -⟩ := C143_laplace (Nat.cast_nonneg s) hle fixed (fun _ => 0) 1
  obtain ⟨p', hp', -, hp0, -⟩ := (C58_trials s N (Nat.cast_nonneg s) fixed).1 hle
  rw [h1] at hp'
  cases hp'
  refine ⟨p, h1, ?_⟩
  obtain ⟨hm, hd⟩ := experiment_draws S (left := st.inner.left) hE (documented_uniform S hS)
    (denotes_between S hS zero_lt_one) N
  have hae : ∀ᵐ x ∂(uniformLaw 0 1), 0 ≤ x ∧ x ≤ 1 := by rw [← beta_one_one]; exact beta_ae_unit 1 1
  set κ := (uniformLaw 0 1).bind fun x => trialsLaw x (eventChance x) N 0 with hκ
  have hpκ : IsProbabilityMeasure κ := hd.2.1 ()
  have hnext := experiment_next hae hm hs
  rw [Nat.cast_sub hs, ← h2, ← hκ] at hnext
  have hmass := experiment_given hae hm s
  rw [uniform_evidence hs, ← hκ] at hmass
  have hreal : κ.real {e | decide (e.2.1 = s) = true} = 1 / (N + 1) := by
    rw [given_set, Measure.real, hmass, ENNReal.toReal_ofReal (by positivity)]
  have h := conditional_of_draws S (ρ := ρ) hB hcores hload hdump st (hd.at ()) hfresh hn
    (find := fun e => e.2.2) (by fun_prop) (measurable_given s) (by rw [hreal]; positivity) hδ
  rw [given_set, Measure.real, Measure.real, hnext, ENNReal.toReal_ofReal (by linarith), ← given_set, ← Measure.real, hreal] at h
  refine h.trans (le_of_eq ?_)
  congr 3
  field_simp

end

/-- Three successes in four trials, a million simulations: the fraction is off `laplace(3, 4) = 2/3` by 0.05 or more with
a probability of at most 4 exp(-47.5…). -/
example : ∃ S : IdealSource (Prim ℝ → ℝ), Documented S ∧ ∃ E, S.Drives E ∧
    ∀ B : BEnv (St (ℕ → Prim ℝ → ℝ) ℝ) (ℝ × ℕ × Bool),
      B.event 0 = (experiment (.leaf (.uniform 0 1) none none) 4).run E () →
      (Measure.infinitePi fun _ : ℕ => S.law).real
        {ω | ¬ ∃ x s', bayesnet B {} (some 0) (1000000 : ℕ)
            (.findReduce (fun e => .ok (.bool e.2.2)) none : Query (ℝ × ℕ × Bool) Unit ℝ)
            (some fun e => .ok (decide (e.2.1 = 3)))
            ⟨⟨ω, fun _ _ => none⟩, fun _ => [], 0, fun _ => none, fun _ => none, fun _ => none⟩ = (.ok (.mean x), s') ∧
          |x - 2 / 3| < 1 / 20}
        ≤ 4 * Real.exp (-(2000000 / 42025 : ℝ)) := by
  obtain ⟨S, hS, E, hE⟩ := C110_generator
  refine ⟨S, hS, E, hE, fun B hB => ?_⟩
  obtain ⟨p, hp, h⟩ := C144_laplace S hS hE (o := {}) rfl rfl rfl
    ⟨⟨fun _ _ => 0, fun _ _ => none⟩, fun _ => [], 0, fun _ => none, fun _ => none, fun _ => none⟩ (Or.inr rfl)
    (N := 4) (s := 3) (by norm_num) (ρ := Unit) true hB (δ := 1 / 20) (by norm_num) (n := 1000000) (by norm_num)
  obtain ⟨q, hq, hqe, -⟩ := (C58_trials 3 4 (by norm_num) true).1 (by norm_num)
  have e : laplace ((3 : ℕ) : ℝ) (some ((4 : ℕ) : ℝ)) none none true = .ok q := by
    rw [← hq]; norm_num
  rw [e] at hp
  cases hp
  have hq' : p = 2 / 3 := by rw [hqe]; norm_num
  rw [hq'] at h
  refine h.trans (le_of_eq ?_)
  congr 2
  norm_num

end Verif
