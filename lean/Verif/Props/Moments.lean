import Verif.Props.Denote
import Verif.Spec.Moments
import Verif.Lemmas.AverageLimit

/-!
# C102: means and variances of expressions

`a` and `b` are any distributions with a law; what is sampled is the expression built from them.
-/

namespace Verif

open MeasureTheory ProbabilityTheory Spec Filter Topology

section

variable {Ω : Type} [MeasurableSpace Ω] (S : IdealSource Ω) {E : Env (ℕ → Ω) ℝ} (hE : S.Drives E)
  (hU : S.primLaw (.uniform 0 1) = some unitLaw)

include hE hU

/-- A statistic of samples tends to a number if it does so for independent values of the law. -/
theorem statTends_of_pi {d : Obj (St (ℕ → Ω) ℝ) ℝ} {μ : Measure ℝ} (hd : Denotes S.primLaw d μ)
    {stat : List ℝ → ℝ} {m : ℝ} (hs : ∀ n : ℕ, Measurable fun x : Fin n → ℝ => stat (List.ofFn x))
    (h : ∀ ε : ℝ, 0 < ε → Tendsto (fun n : ℕ => (Measure.pi fun _ : Fin n => μ)
      {x | ε ≤ |stat (List.ofFn x) - m|}) atTop (𝓝 0)) : StatTends S E d stat m := by
  intro left ε hε
  refine tendsto_of_tendsto_of_tendsto_of_le_of_le' tendsto_const_nhds (h ε hε)
    (Eventually.of_forall fun n => zero_le) ?_
  filter_upwards [eventually_ge_atTop 1] with n hn
  obtain ⟨hp, X, hX, hae, hlaw, hind⟩ := C86_independent_samples S hE hU hd hn left
  set P := Measure.infinitePi fun _ : ℕ => S.law with hP
  have hpi : P.map (fun ω i => X i ω) = Measure.pi fun _ : Fin n => μ := by
    rw [(iIndepFun_iff_map_fun_eq_pi_map fun i => (hX i).aemeasurable).1 hind]
    congr 1
    funext i
    exact hlaw i
  have hset : MeasurableSet {x : Fin n → ℝ | ε ≤ |stat (List.ofFn x) - m|} :=
    measurableSet_le measurable_const (continuous_abs.measurable.comp ((hs n).sub_const _))
  rw [← hpi, Measure.map_apply (by fun_prop) hset]
  refine measure_mono_ae ?_
  filter_upwards [hae] with ω hω hbad
  obtain ⟨z, s', hz, hR⟩ := hω
  by_contra hlt
  exact hbad ⟨z, s', _, hz, hR.2, by simp, not_le.1 hlt⟩

/-- **C102**: the mean of the samples tends to the mean of the law. -/
theorem C102_mean {d : Obj (St (ℕ → Ω) ℝ) ℝ} {μ : Measure ℝ} (hd : Denotes S.primLaw d μ)
    (hμ : Integrable (fun x => x) μ) : StatTends S E d meanOf (∫ x, x ∂μ) := by
  have hp : IsProbabilityMeasure μ := (C86_independent_samples S hE hU hd (n := 1) le_rfl fun _ _ => none).1
  have e : ∀ {n : ℕ} (x : Fin n → ℝ), meanOf (List.ofFn x) = (∑ i, x i) / n := fun x => by
    simp [meanOf, List.sum_ofFn]
  refine statTends_of_pi S hE hU hd (fun n => ?_) fun ε hε => ?_
  · simp only [e]
    fun_prop
  · simp only [e]
    exact average_limit_fn measurable_id hμ hε

/-- **C102**: the variance of the samples tends to the variance of the law. -/
theorem C102_variance {d : Obj (St (ℕ → Ω) ℝ) ℝ} {μ : Measure ℝ} (hd : Denotes S.primLaw d μ)
    (hμ : MemLp id 2 μ) : StatTends S E d varOf Var[id; μ] := by
  have hp : IsProbabilityMeasure μ := (C86_independent_samples S hE hU hd (n := 1) le_rfl fun _ _ => none).1
  have e : ∀ {n : ℕ} (x : Fin n → ℝ), varOf (List.ofFn x)
      = (∑ i, (x i) ^ 2) / n - ((∑ i, x i) / n) ^ 2 := by
    intro n x
    rcases Nat.eq_zero_or_pos n with rfl | hn
    · simp [varOf, meanOf]
    · have hn0 : (n : ℝ) ≠ 0 := by exact_mod_cast hn.ne'
      have e0 : meanOf (List.ofFn x) = (∑ i, x i) / n := by simp [meanOf, List.sum_ofFn]
      simp only [varOf, e0]
      set c := (∑ i, x i) / n with hc
      have hc' : ∑ i, x i = n * c := by rw [hc]; field_simp
      have e1 : meanOf ((List.ofFn x).map fun v => (v - c) ^ 2) = (∑ i, (x i - c) ^ 2) / n := by
        rw [meanOf, List.map_ofFn, List.sum_ofFn]
        simp
      rw [e1]
      have e2 : ∑ i, (x i - c) ^ 2 = ∑ i, (x i) ^ 2 - 2 * c * ∑ i, x i + n * c ^ 2 := by
        rw [Finset.mul_sum, ← Finset.sum_sub_distrib]
        have : (n : ℝ) * c ^ 2 = ∑ _i : Fin n, c ^ 2 := by simp
        rw [this, ← Finset.sum_add_distrib]
        exact Finset.sum_congr rfl fun i _ => by ring
      rw [e2, hc']
      field_simp
      ring
  have hsq : Integrable (fun x : ℝ => x ^ 2) μ := hμ.integrable_sq
  have hid : Integrable (fun x : ℝ => x) μ := hμ.integrable (by norm_num)
  have hvar : Var[id; μ] = (∫ x, x ^ 2 ∂μ) - (∫ x, x ∂μ) ^ 2 := by
    rw [variance_eq_sub hμ]
    rfl
  refine statTends_of_pi S hE hU hd (fun n => ?_) fun ε hε => ?_
  · simp only [e]
    fun_prop
  · simp only [e, hvar]
    set m := ∫ x, x ∂μ with hm
    set q := ∫ x, x ^ 2 ∂μ with hq
    set δ := min 1 (ε / (2 + 2 * |m|)) with hδ
    have hM : 0 < 2 + 2 * |m| := by positivity
    have hδ0 : 0 < δ := lt_min one_pos (by positivity)
    have hδ1 : δ ≤ 1 := min_le_left _ _
    have hδ2 : δ * (2 + 2 * |m|) ≤ ε := (le_div_iff₀ hM).1 (min_le_right _ _)
    have h1 := average_limit_fn (κ := μ) measurable_id hid hδ0
    have h2 := average_limit_fn (κ := μ) (f := fun x => x ^ 2) (by fun_prop) hsq hδ0
    have h3 := h1.add h2
    rw [add_zero] at h3
    refine tendsto_of_tendsto_of_tendsto_of_le_of_le tendsto_const_nhds h3 (fun n => zero_le) fun n => ?_
    refine (measure_mono ?_).trans (measure_union_le _ _)
    intro x hx
    by_contra hno
    rw [Set.mem_union, not_or] at hno
    obtain ⟨g1, g2⟩ := hno
    simp only [Set.mem_ofPred_eq, not_le, id] at hx g1 g2
    rw [← hm] at g1
    rw [← hq] at g2
    set u := (∑ i, x i) / (n : ℝ)
    set v := (∑ i, x i ^ 2) / (n : ℝ)
    have h4 : |u ^ 2 - m ^ 2| ≤ δ * (1 + 2 * |m|) := by
      have : u ^ 2 - m ^ 2 = (u - m) * (u - m + 2 * m) := by ring
      rw [this, abs_mul]
      have h5 : |u - m + 2 * m| ≤ 1 + 2 * |m| := by
        refine (abs_add_le _ _).trans ?_
        rw [abs_mul, abs_two]
        linarith
      exact mul_le_mul g1.le h5 (abs_nonneg _) hδ0.le
    have h6 : |v - u ^ 2 - (q - m ^ 2)| < ε := by
      have : v - u ^ 2 - (q - m ^ 2) = (v - q) - (u ^ 2 - m ^ 2) := by ring
      rw [this]
      refine (abs_sub _ _).trans_lt ?_
      nlinarith
    exact absurd hx (not_le.2 h6)

/-! ## Means -/

/-- **C102**: the mean of `a + b` is the sum of the means. -/
theorem C102_mean_add {a b : Obj (St (ℕ → Ω) ℝ) ℝ} {μ ν : Measure ℝ} (ha : Denotes S.primLaw a μ)
    (hb : Denotes S.primLaw b ν) (hμ : Integrable (fun x => x) μ) (hν : Integrable (fun x => x) ν) :
    StatTends S E (.bin (.op .add) a b) meanOf (∫ x, x ∂μ + ∫ x, x ∂ν) := by
  have hp : IsProbabilityMeasure μ := (C86_independent_samples S hE hU ha (n := 1) le_rfl fun _ _ => none).1
  have hq : IsProbabilityMeasure ν := (C86_independent_samples S hE hU hb (n := 1) le_rfl fun _ _ => none).1
  have hd := Denotes.bin (o := .add) rfl ha hb (.of_forall fun _ => trivial)
  have hint : Integrable (fun p : ℝ × ℝ => p.1 + p.2) (μ.prod ν) := (hμ.comp_fst ν).add (hν.comp_snd μ)
  have h := C102_mean S hE hU hd ((integrable_map_measure (by fun_prop) (by fun_prop)).2 hint)
  rw [integral_map (by fun_prop) (by fun_prop)] at h
  convert h using 1
  rw [integral_add (hμ.comp_fst ν) (hν.comp_snd μ), integral_fun_fst (fun x : ℝ => x), integral_fun_snd (fun x : ℝ => x)]
  simp

/-- **C102**: the mean of `a - b` is the difference of the means. -/
theorem C102_mean_sub {a b : Obj (St (ℕ → Ω) ℝ) ℝ} {μ ν : Measure ℝ} (ha : Denotes S.primLaw a μ)
    (hb : Denotes S.primLaw b ν) (hμ : Integrable (fun x => x) μ) (hν : Integrable (fun x => x) ν) :
    StatTends S E (.bin (.op .sub) a b) meanOf (∫ x, x ∂μ - ∫ x, x ∂ν) := by
  have hp : IsProbabilityMeasure μ := (C86_independent_samples S hE hU ha (n := 1) le_rfl fun _ _ => none).1
  have hq : IsProbabilityMeasure ν := (C86_independent_samples S hE hU hb (n := 1) le_rfl fun _ _ => none).1
  have hd := Denotes.bin (o := .sub) rfl ha hb (.of_forall fun _ => trivial)
  have hint : Integrable (fun p : ℝ × ℝ => p.1 - p.2) (μ.prod ν) := (hμ.comp_fst ν).sub (hν.comp_snd μ)
  have h := C102_mean S hE hU hd ((integrable_map_measure (by fun_prop) (by fun_prop)).2 hint)
  rw [integral_map (by fun_prop) (by fun_prop)] at h
  convert h using 1
  rw [integral_sub (hμ.comp_fst ν) (hν.comp_snd μ), integral_fun_fst (fun x : ℝ => x), integral_fun_snd (fun x : ℝ => x)]
  simp

/-- **C102**: the mean of `a * b` is the product of the means; also of `a * a`, since the two factors are sampled
independently. -/
theorem C102_mean_mul {a b : Obj (St (ℕ → Ω) ℝ) ℝ} {μ ν : Measure ℝ} (ha : Denotes S.primLaw a μ)
    (hb : Denotes S.primLaw b ν) (hμ : Integrable (fun x => x) μ) (hν : Integrable (fun x => x) ν) :
    StatTends S E (.bin (.op .mul) a b) meanOf ((∫ x, x ∂μ) * ∫ x, x ∂ν) := by
  have hp : IsProbabilityMeasure μ := (C86_independent_samples S hE hU ha (n := 1) le_rfl fun _ _ => none).1
  have hq : IsProbabilityMeasure ν := (C86_independent_samples S hE hU hb (n := 1) le_rfl fun _ _ => none).1
  have hd := Denotes.bin (o := .mul) rfl ha hb (.of_forall fun _ => trivial)
  have hint : Integrable (fun p : ℝ × ℝ => p.1 * p.2) (μ.prod ν) := hμ.mul_prod hν
  have h := C102_mean S hE hU hd ((integrable_map_measure (by fun_prop) (by fun_prop)).2 hint)
  rw [integral_map (by fun_prop) (by fun_prop)] at h
  convert h using 1
  exact (integral_prod_mul (fun x : ℝ => x) fun x : ℝ => x).symm

/-- **C102**: the mean of a mixture is the weighted mean of the means. -/
theorem C102_mean_mixture {k : ℕ} {ds : Fin k → Obj (St (ℕ → Ω) ℝ) ℝ} {ν : Fin k → Measure ℝ} {ws : List ℝ}
    (hk : ws.length = k) (hds : ∀ i, Denotes S.primLaw (ds i) (ν i)) (hpos : ∀ w ∈ ws, 0 < w)
    (hsum : ws.sum = 1) (hν : ∀ i, Integrable (fun x => x) (ν i)) :
    StatTends S E (.mix k ds ws none none) meanOf
      (∑ i : Fin k, ws[i.1]'(hk ▸ i.2) * ∫ x, x ∂(ν i)) := by
  have hp : ∀ i, IsProbabilityMeasure (ν i) := fun i =>
    (C86_independent_samples S hE hU (hds i) (n := 1) le_rfl fun _ _ => none).1
  have hd := Denotes.mix (lc := none) (rc := none) (lo := none) (hi := none) hk hds hpos hsum trivial trivial
  have e : clamp none none = id := rfl
  rw [e, Measure.map_id] at hd
  have hint : ∀ i : Fin k, Integrable (fun x : ℝ => x) (ENNReal.ofReal (ws[i.1]'(hk ▸ i.2)) • ν i) := fun i =>
    (hν i).smul_measure ENNReal.ofReal_ne_top
  have h := C102_mean S hE hU hd (integrable_finsetSum_measure.2 fun i _ => hint i)
  convert h using 1
  rw [integral_finsetSum_measure fun i _ => hint i]
  refine Finset.sum_congr rfl fun i _ => ?_
  rw [integral_smul_measure, ENNReal.toReal_ofReal (hpos _ (List.getElem_mem _)).le, smul_eq_mul]

/-! ## Variances -/

/-- **C102**: the variance of `a + b` is the sum of the variances; also of `a + a`. -/
theorem C102_variance_add {a b : Obj (St (ℕ → Ω) ℝ) ℝ} {μ ν : Measure ℝ} (ha : Denotes S.primLaw a μ)
    (hb : Denotes S.primLaw b ν) (hμ : MemLp id 2 μ) (hν : MemLp id 2 ν) :
    StatTends S E (.bin (.op .add) a b) varOf (Var[id; μ] + Var[id; ν]) := by
  have hp : IsProbabilityMeasure μ := (C86_independent_samples S hE hU ha (n := 1) le_rfl fun _ _ => none).1
  have hq : IsProbabilityMeasure ν := (C86_independent_samples S hE hU hb (n := 1) le_rfl fun _ _ => none).1
  have hd := Denotes.bin (o := .add) rfl ha hb (.of_forall fun _ => trivial)
  have h1 : MemLp (fun p : ℝ × ℝ => p.1) 2 (μ.prod ν) := hμ.comp_fst ν
  have h2 : MemLp (fun p : ℝ × ℝ => p.2) 2 (μ.prod ν) := hν.comp_snd μ
  have h := C102_variance S hE hU hd ((memLp_map_measure_iff (by fun_prop) (by fun_prop)).2 (h1.add h2))
  convert h using 1
  rw [variance_map (by fun_prop) (by fun_prop)]
  have hi : IndepFun (fun p : ℝ × ℝ => p.1) (fun p => p.2) (μ.prod ν) :=
    indepFun_prod (X := fun x : ℝ => x) (Y := fun x : ℝ => x) measurable_id measurable_id
  have := hi.variance_add h1 h2
  have e1 : Var[fun p : ℝ × ℝ => p.1; μ.prod ν] = Var[id; μ] := by
    rw [← variance_id_map (by fun_prop), Measure.map_fst_prod]; simp
  have e2 : Var[fun p : ℝ × ℝ => p.2; μ.prod ν] = Var[id; ν] := by
    rw [← variance_id_map (by fun_prop), Measure.map_snd_prod]; simp
  rw [← e1, ← e2, ← this]
  rfl

/-- **C102**: the variance of `a - b` is the sum of the variances too; so `a - a` is not 0 unless `a` is constant. -/
theorem C102_variance_sub {a b : Obj (St (ℕ → Ω) ℝ) ℝ} {μ ν : Measure ℝ} (ha : Denotes S.primLaw a μ)
    (hb : Denotes S.primLaw b ν) (hμ : MemLp id 2 μ) (hν : MemLp id 2 ν) :
    StatTends S E (.bin (.op .sub) a b) varOf (Var[id; μ] + Var[id; ν]) := by
  have hp : IsProbabilityMeasure μ := (C86_independent_samples S hE hU ha (n := 1) le_rfl fun _ _ => none).1
  have hq : IsProbabilityMeasure ν := (C86_independent_samples S hE hU hb (n := 1) le_rfl fun _ _ => none).1
  have hd := Denotes.bin (o := .sub) rfl ha hb (.of_forall fun _ => trivial)
  have h1 : MemLp (fun p : ℝ × ℝ => p.1) 2 (μ.prod ν) := hμ.comp_fst ν
  have h2 : MemLp (fun p : ℝ × ℝ => p.2) 2 (μ.prod ν) := hν.comp_snd μ
  have h := C102_variance S hE hU hd ((memLp_map_measure_iff (by fun_prop) (by fun_prop)).2 (h1.sub h2))
  convert h using 1
  rw [variance_map (by fun_prop) (by fun_prop)]
  have hi : IndepFun (fun p : ℝ × ℝ => p.1) (fun p => -p.2) (μ.prod ν) :=
    indepFun_prod (X := fun x : ℝ => x) (Y := fun x : ℝ => -x) measurable_id measurable_neg
  have hn2 : MemLp (fun p : ℝ × ℝ => -p.2) 2 (μ.prod ν) := h2.neg
  have := hi.variance_add h1 hn2
  have e1 : Var[fun p : ℝ × ℝ => p.1; μ.prod ν] = Var[id; μ] := by
    rw [← variance_id_map (by fun_prop), Measure.map_fst_prod]; simp
  have e2 : Var[fun p : ℝ × ℝ => p.2; μ.prod ν] = Var[id; ν] := by
    rw [← variance_id_map (by fun_prop), Measure.map_snd_prod]; simp
  have e3 : Var[fun p : ℝ × ℝ => -p.2; μ.prod ν] = Var[id; ν] := by
    rw [← e2]
    exact variance_fun_neg
  rw [e1, e3] at this
  rw [← this]
  congr 1

/-- **C102**: the variance of `c * a` is `c²` times the variance. -/
theorem C102_variance_scaled {a : Obj (St (ℕ → Ω) ℝ) ℝ} {μ : Measure ℝ} (ha : Denotes S.primLaw a μ)
    {v : Scalar ℝ} {c : ℝ} (hv : IsReal v c) (hμ : MemLp id 2 μ) :
    StatTends S E (.bin (.op .mul) (.lit v) a) varOf (c ^ 2 * Var[id; μ]) := by
  have hp : IsProbabilityMeasure μ := (C86_independent_samples S hE hU ha (n := 1) le_rfl fun _ _ => none).1
  have hd := Denotes.bin (o := .mul) rfl (Denotes.lit hv) ha (.of_forall fun _ => trivial)
  rw [Measure.dirac_prod, Measure.map_map (by fun_prop) (by fun_prop)] at hd
  have h1 : MemLp (fun x : ℝ => c * x) 2 μ := hμ.const_mul c
  have h := C102_variance S hE hU hd ((memLp_map_measure_iff (by fun_prop) (by fun_prop)).2 h1)
  convert h using 1
  rw [variance_map (by fun_prop) (by fun_prop)]
  exact (variance_const_mul c id μ).symm

end

/-- `x + x` and `2 * x` for `x = norm(mean=5, sd=2)`: both have mean 10, but variances 8 and 16. -/
example :
    StatTends demoSource idealEnv (.bin (.op .add) (.leaf (.normal 5 2) none none) (.leaf (.normal 5 2) none none))
      meanOf 10 ∧
    StatTends demoSource idealEnv (.bin (.op .add) (.leaf (.normal 5 2) none none) (.leaf (.normal 5 2) none none))
      varOf 8 ∧
    StatTends demoSource idealEnv (.bin (.op .mul) (.lit (.int 2)) (.leaf (.normal 5 2) none none)) varOf 16 := by
  have hd := denotes_normal (T := St (ℕ → ℝ × ℝ) ℝ) (demoSource_normal 5 (s := 2) (by norm_num))
  have e1 : ∫ x, x ∂(normalLaw 5 2) = 5 := integral_id_gaussianReal
  have e2 : Var[id; normalLaw 5 2] = 4 := by
    rw [normalLaw, variance_id_gaussianReal]
    norm_num
  have h2 : MemLp id 2 (normalLaw 5 2) := memLp_id_gaussianReal 2
  have h1 : Integrable (fun x : ℝ => x) (normalLaw 5 2) := by
    have hp : IsProbabilityMeasure (normalLaw 5 2) := by unfold normalLaw; infer_instance
    exact h2.integrable (by norm_num)
  have a := C102_mean_add demoSource (E := idealEnv) idealEnv_driven demoSource_uniform hd hd h1 h1
  have b := C102_variance_add demoSource (E := idealEnv) idealEnv_driven demoSource_uniform hd hd h2 h2
  have c := C102_variance_scaled demoSource (E := idealEnv) idealEnv_driven demoSource_uniform hd
    (v := .int 2) (c := 2) (Or.inr ⟨2, rfl, by norm_num⟩) h2
  rw [e1] at a
  rw [e2] at b c
  norm_num at a b c
  exact ⟨a, b, c⟩

end Verif
