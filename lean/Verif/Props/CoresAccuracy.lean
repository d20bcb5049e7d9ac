import Verif.Lemmas.CoresLaw
import Verif.Props.Accuracy
import Verif.Props.Estimates
import Verif.Lemmas.DemoSource

/-!
# C129: how accurate estimates from `sample(d, n, cores=c)` are

With an ideal source of randomness.  Forked processes start with the same stream, so batches may repeat; each batch
alone consists of independent draws.
-/

namespace Verif

open MeasureTheory ProbabilityTheory Spec Filter Topology

/-! ## Averages of independent draws -/

theorem average_memLp {μ : Measure ℝ} [IsProbabilityMeasure μ] (hμ : MemLp id 2 μ) (k : ℕ) (m : ℝ) :
    MemLp (fun y : Fin k → ℝ => (∑ j, y j) / k - m) 2 (Measure.pi fun _ => μ) := by
  have h : ∀ j : Fin k, MemLp (fun y : Fin k → ℝ => y j) 2 (Measure.pi fun _ => μ) := fun j =>
    hμ.comp_measurePreserving (measurePreserving_eval (fun _ : Fin k => μ) j)
  have h2 : MemLp (fun y : Fin k → ℝ => ∑ j, y j) 2 (Measure.pi fun _ => μ) := memLp_finsetSum _ fun j _ => h j
  have h3 := (h2.const_mul (k : ℝ)⁻¹).sub (memLp_const m)
  refine h3.congr_norm (by fun_prop) (.of_forall fun y => ?_)
  simp [div_eq_inv_mul]

theorem average_mean {μ : Measure ℝ} [IsProbabilityMeasure μ] (hμ : MemLp id 2 μ) {k : ℕ} (hk : 1 ≤ k) :
    ∫ y : Fin k → ℝ, (∑ j, y j) / k ∂(Measure.pi fun _ => μ) = ∫ x, x ∂μ := by
  have hk0 : (k : ℝ) ≠ 0 := by exact_mod_cast (by omega : k ≠ 0)
  have hmp : ∀ j : Fin k, MeasurePreserving (fun y : Fin k → ℝ => y j) (Measure.pi fun _ => μ) μ := fun j =>
    measurePreserving_eval (fun _ : Fin k => μ) j
  have hmem : ∀ j : Fin k, MemLp (fun y : Fin k → ℝ => y j) 2 (Measure.pi fun _ => μ) := fun j =>
    hμ.comp_measurePreserving (hmp j)
  rw [integral_div, integral_finsetSum _ fun j _ => (hmem j).integrable (by norm_num)]
  have : ∀ j : Fin k, ∫ y : Fin k → ℝ, y j ∂(Measure.pi fun _ => μ) = ∫ x, x ∂μ := fun j => by
    conv_rhs => rw [← (hmp j).map_eq]
    rw [integral_map (hmp j).measurable.aemeasurable (by fun_prop)]
  simp only [this]
  simp
  field_simp

theorem average_variance {μ : Measure ℝ} [IsProbabilityMeasure μ] (hμ : MemLp id 2 μ) {k : ℕ} (hk : 1 ≤ k) :
    Var[fun y : Fin k → ℝ => (∑ j, y j) / k; Measure.pi fun _ => μ] = Var[id; μ] / k := by
  have hk0 : (k : ℝ) ≠ 0 := by exact_mod_cast (by omega : k ≠ 0)
  have h := variance_sum_pi (ι := Fin k) (μ := fun _ => μ) (X := fun _ => id) fun _ => hμ
  have e : (fun y : Fin k → ℝ => (∑ j, y j) / k) = fun y => (k : ℝ)⁻¹ * (∑ j, fun y : Fin k → ℝ => id (y j)) y := by
    funext y
    simp [div_eq_inv_mul]
  rw [e, variance_const_mul, h]
  simp
  field_simp

/-- The expected squared error of an average of `k` independent draws. -/
theorem average_sq_error {μ : Measure ℝ} [IsProbabilityMeasure μ] (hμ : MemLp id 2 μ) {k : ℕ} (hk : 1 ≤ k) :
    ∫ y : Fin k → ℝ, ((∑ j, y j) / k - ∫ x, x ∂μ) ^ 2 ∂(Measure.pi fun _ => μ) = Var[id; μ] / k := by
  rw [← average_variance hμ hk, variance_eq_integral (by fun_prop), average_mean hμ hk]

/-! ## Repeated lists -/

theorem sum_flatMap_range (c : ℕ) (y : ℕ → List ℝ) :
    ((List.range c).flatMap y).sum = ∑ i ∈ Finset.range c, (y i).sum := by
  induction c with
  | zero => simp
  | succ c ih => rw [List.range_succ, List.flatMap_append, List.sum_append, ih, Finset.sum_range_succ]; simp

theorem countP_flatMap_range (c : ℕ) (y : ℕ → List ℝ) (q : ℝ → Bool) :
    ((List.range c).flatMap y).countP q = ∑ i ∈ Finset.range c, (y i).countP q := by
  induction c with
  | zero => simp
  | succ c ih => rw [List.range_succ, List.flatMap_append, List.countP_append, ih, Finset.sum_range_succ]; simp

theorem length_flatMap_range (c : ℕ) (y : ℕ → List ℝ) :
    ((List.range c).flatMap y).length = ∑ i ∈ Finset.range c, (y i).length := by
  induction c with
  | zero => simp
  | succ c ih => rw [List.range_succ, List.flatMap_append, List.length_append, ih, Finset.sum_range_succ]; simp

theorem meanOf_repeat {c : ℕ} (hc : 1 ≤ c) (xs : List ℝ) : meanOf ((List.range c).flatMap fun _ => xs) = meanOf xs := by
  have hc0 : (c : ℝ) ≠ 0 := by exact_mod_cast (by omega : c ≠ 0)
  rw [meanOf, meanOf, sum_flatMap_range, length_flatMap_range]
  simp [mul_div_mul_left _ _ hc0]

theorem varOf_repeat {c : ℕ} (hc : 1 ≤ c) (xs : List ℝ) : varOf ((List.range c).flatMap fun _ => xs) = varOf xs := by
  rw [varOf, meanOf_repeat hc, List.map_flatMap, meanOf_repeat hc]
  rfl

theorem stdError_repeat {c : ℕ} (hc : 1 ≤ c) (xs : List ℝ) :
    stdError ((List.range c).flatMap fun _ => xs) = stdError xs / √c := by
  rw [stdError, stdError, varOf_repeat hc, length_flatMap_range]
  simp [div_div, mul_comm]

section

variable {Ω : Type} [MeasurableSpace Ω] (S : IdealSource Ω) {E : Env (ℕ → Ω) ℝ} (hE : S.Drives E)
  (hU : S.primLaw (.uniform 0 1) = some (volume.restrict (Set.Ico 0 1)))

include hE hU

/-- **C129**: `sample(d, n, cores=c)` almost surely succeeds, however the pool distributes the tasks; the result is
made of `c` batches in a row, of the sizes `_core_cuts` gives, and within each batch the numbers are independent, each
with the law `d` stands for. -/
theorem C129_batches {d : Obj (St (ℕ → Ω) ℝ) ℝ} {μ : Measure ℝ} (hd : Denotes S.primLaw d μ)
    {cores n : ℕ} (hc : 2 ≤ cores) (hn : cores ≤ n) {sched : Sched} (hv : sched.Valid cores)
    (left : ℕ → ℕ → Option (List (Scalar ℝ))) (tmp : ℕ → Option (Samples ℝ)) :
    ∃ (k : ℕ → ℕ) (Y : (i : ℕ) → Fin (k i) → (ℕ → Ω) → ℝ), (∀ i, i + 1 < cores → k i = n / cores) ∧
      k (cores - 1) = n / cores + n % cores ∧
      (∀ i < cores, (∀ j, Measurable (Y i j)) ∧ (∀ j, (Measure.infinitePi fun _ : ℕ => S.law).map (Y i j) = μ) ∧
        iIndepFun (Y i) (Measure.infinitePi fun _ : ℕ => S.law)) ∧
      ∀ᵐ ω ∂(Measure.infinitePi fun _ : ℕ => S.law), ∃ z m',
        sampleCores E sched cores d n none none ⟨⟨ω, left⟩, tmp⟩ = (.ok z, m') ∧
        List.Forall₂ IsReal z.toList ((List.range cores).flatMap fun i => List.ofFn fun j => Y i j ω) := by
  obtain ⟨hp, h⟩ := denotes_draws S (left := left) hE hU hd
  obtain ⟨k, Y, h1, h2, h3, h4⟩ := cores_law S h hc hn hv tmp
  refine ⟨k, fun i j ω => Y i ω j, h1, h2, fun i hi => ?_, h4⟩
  obtain ⟨e1, e2⟩ := iIndep_of_pi (P := streamLaw S.law) (h3 i hi).measurable (h3 i hi).map_eq
  exact ⟨fun j => (measurable_pi_apply j).comp (h3 i hi).measurable, e1, e2⟩

/-- **C129** (mean): with `c` cores the average of the samples is within `δ` of the mean of `d` except with
probability at most `c · variance / (n δ²)`, however the pool distributes the tasks.  With one core the bound is
`variance / (n δ²)` (C87). -/
theorem C129_mean {d : Obj (St (ℕ → Ω) ℝ) ℝ} {μ : Measure ℝ} (hd : Denotes S.primLaw d μ) (hμ : MemLp id 2 μ)
    {cores n : ℕ} (hc : 2 ≤ cores) (hn : cores ≤ n) {sched : Sched} (hv : sched.Valid cores)
    (left : ℕ → ℕ → Option (List (Scalar ℝ))) (tmp : ℕ → Option (Samples ℝ)) {δ : ℝ} (hδ : 0 < δ) :
    (Measure.infinitePi fun _ : ℕ => S.law).real
      {ω | ¬ ∃ z m' xs, sampleCores E sched cores d n none none ⟨⟨ω, left⟩, tmp⟩ = (.ok z, m') ∧
        List.Forall₂ IsReal z.toList xs ∧ xs.length = n ∧ |xs.sum / n - ∫ x, x ∂μ| < δ}
      ≤ cores * Var[id; μ] / (n * δ ^ 2) := by
  obtain ⟨hp, h⟩ := denotes_draws S (left := left) hE hU hd
  obtain ⟨k, Y, h1, h2, h3, h4⟩ := cores_law S h hc hn hv tmp
  set P := Measure.infinitePi fun _ : ℕ => S.law with hP
  set m := ∫ x, x ∂μ with hm
  have hn0 : (0 : ℝ) < n := by exact_mod_cast (by omega : 0 < n)
  have hq : 1 ≤ n / cores := Nat.div_pos hn (by omega)
  have hk : ∀ i < cores, 1 ≤ k i := fun i hi => by
    by_cases h : i = cores - 1
    · rw [h, h2]; omega
    · rw [h1 i (by omega)]; exact hq
  have hk0 : ∀ i < cores, (k i : ℝ) ≠ 0 := fun i hi => by exact_mod_cast (by have := hk i hi; omega : k i ≠ 0)
  have hsum : ∑ i ∈ Finset.range cores, k i = n := by
    obtain ⟨c', rfl⟩ : ∃ c', cores = c' + 1 := ⟨cores - 1, by omega⟩
    rw [Finset.sum_range_succ, Finset.sum_congr rfl fun i hi => h1 i (by have := Finset.mem_range.1 hi; omega)]
    have := h2
    simp only [Nat.add_sub_cancel] at this
    rw [this, Finset.sum_const, Finset.card_range, smul_eq_mul]
    have := Nat.div_add_mod n (c' + 1)
    ring_nf at this ⊢
    omega
  have hsumR : ∑ i ∈ Finset.range cores, (k i : ℝ) = n := by exact_mod_cast hsum
  set A : ℕ → (ℕ → Ω) → ℝ := fun i ω => (∑ j, Y i ω j) / k i - m with hA
  have hAmem : ∀ i < cores, MemLp (A i) 2 P := fun i hi =>
    (average_memLp hμ (k i) m).comp_measurePreserving (h3 i hi)
  have hAint : ∀ i < cores, ∫ ω, A i ω ^ 2 ∂P = Var[id; μ] / k i := fun i hi => by
    rw [← average_sq_error hμ (hk i hi), ← (h3 i hi).map_eq, integral_map (h3 i hi).measurable.aemeasurable
      (by fun_prop)]
    rfl
  set g : (ℕ → Ω) → ℝ := fun ω => ∑ i ∈ Finset.range cores, (k i / n : ℝ) * A i ω ^ 2 with hg
  have hgi : Integrable g P := integrable_finsetSum _ fun i hi =>
    ((hAmem i (Finset.mem_range.1 hi)).integrable_sq).const_mul _
  have hgint : ∫ ω, g ω ∂P = cores * Var[id; μ] / n := by
    rw [hg, integral_finsetSum _ fun i hi => ((hAmem i (Finset.mem_range.1 hi)).integrable_sq).const_mul _]
    rw [Finset.sum_congr rfl (g := fun _ => Var[id; μ] / n) fun i hi => ?_]
    · simp [mul_div_assoc]
    · rw [integral_const_mul, hAint i (Finset.mem_range.1 hi)]
      have := hk0 i (Finset.mem_range.1 hi)
      field_simp
  have hg0 : 0 ≤ᵐ[P] g := .of_forall fun ω => Finset.sum_nonneg fun i _ => by positivity
  have hmarkov := mul_meas_ge_le_integral_of_nonneg hg0 hgi (δ ^ 2)
  rw [hgint] at hmarkov
  have hle : P.real {ω | δ ^ 2 ≤ g ω} ≤ cores * Var[id; μ] / (n * δ ^ 2) := by
    rw [← div_div, le_div_iff₀ (by positivity), mul_comm]
    exact hmarkov
  refine le_trans (ENNReal.toReal_mono (measure_ne_top _ _) (measure_mono_ae ?_)) hle
  filter_upwards [h4] with ω hω hbad
  obtain ⟨z, m', hz, hR⟩ := hω
  by_contra hlt
  have hlt' : g ω < δ ^ 2 := not_le.1 hlt
  refine hbad ⟨z, m', _, hz, hR, ?_, ?_⟩
  · rw [length_flatMap_range]
    simpa using hsum
  have hmean : ((List.range cores).flatMap fun i => List.ofFn (Y i ω)).sum / n - m
      = ∑ i ∈ Finset.range cores, (k i / n : ℝ) * A i ω := by
    rw [sum_flatMap_range]
    have e : ∀ i ∈ Finset.range cores, (k i / n : ℝ) * A i ω = (List.ofFn (Y i ω)).sum / n - k i / n * m :=
      fun i hi => by
        have := hk0 i (Finset.mem_range.1 hi)
        rw [hA, List.sum_ofFn]
        field_simp
    rw [Finset.sum_congr rfl e, Finset.sum_sub_distrib, ← Finset.sum_mul, ← Finset.sum_div, ← Finset.sum_div, hsumR,
      div_self hn0.ne', one_mul]
  have hconv : (∑ i ∈ Finset.range cores, (k i / n : ℝ) * A i ω) ^ 2 ≤ g ω := by
    have := (even_two.convexOn_pow (𝕜 := ℝ)).map_sum_le (t := Finset.range cores) (w := fun i => (k i / n : ℝ))
      (p := fun i => A i ω) (fun i _ => by positivity) (by rw [← Finset.sum_div, hsumR, div_self hn0.ne'])
      fun i _ => Set.mem_univ _
    simpa only [smul_eq_mul] using this
  rw [hmean]
  exact abs_lt_of_sq_lt_sq (hconv.trans_lt hlt') hδ.le

/-- **C129** (chances): with `c` cores the fraction of samples with a property is within `ε` of its probability except
with probability at most `2 c exp(-2 ⌊n/c⌋ ε²)`, however the pool distributes the tasks. -/
theorem C129_fraction {d : Obj (St (ℕ → Ω) ℝ) ℝ} {μ : Measure ℝ} (hd : Denotes S.primLaw d μ)
    {cores n : ℕ} (hc : 2 ≤ cores) (hn : cores ≤ n) {sched : Sched} (hv : sched.Valid cores)
    (left : ℕ → ℕ → Option (List (Scalar ℝ))) (tmp : ℕ → Option (Samples ℝ)) (q : ℝ → Bool)
    (hq : MeasurableSet {x | q x = true}) {ε : ℝ} (hε : 0 < ε) :
    (Measure.infinitePi fun _ : ℕ => S.law).real
      {ω | ¬ ∃ z m' xs, sampleCores E sched cores d n none none ⟨⟨ω, left⟩, tmp⟩ = (.ok z, m') ∧
        List.Forall₂ IsReal z.toList xs ∧ |(xs.countP q : ℝ) / n - μ.real {x | q x = true}| < ε}
      ≤ 2 * cores * Real.exp (-2 * (n / cores : ℕ) * ε ^ 2) := by
  obtain ⟨hp, h⟩ := denotes_draws S (left := left) hE hU hd
  obtain ⟨k, Y, h1, h2, h3, h4⟩ := cores_law S h hc hn hv tmp
  set P := Measure.infinitePi fun _ : ℕ => S.law with hP
  set p := μ.real {x | q x = true} with hp
  have hn0 : (0 : ℝ) < n := by exact_mod_cast (by omega : 0 < n)
  have hq1 : 1 ≤ n / cores := Nat.div_pos hn (by omega)
  have hk : ∀ i < cores, n / cores ≤ k i := fun i hi => by
    by_cases h : i = cores - 1
    · rw [h, h2]; omega
    · rw [h1 i (by omega)]
  have hk0 : ∀ i < cores, (0 : ℝ) < k i := fun i hi => by exact_mod_cast (by have := hk i hi; omega : 0 < k i)
  have hsum : ∑ i ∈ Finset.range cores, k i = n := by
    obtain ⟨c', rfl⟩ : ∃ c', cores = c' + 1 := ⟨cores - 1, by omega⟩
    rw [Finset.sum_range_succ, Finset.sum_congr rfl fun i hi => h1 i (by have := Finset.mem_range.1 hi; omega)]
    have := h2
    simp only [Nat.add_sub_cancel] at this
    rw [this, Finset.sum_const, Finset.card_range, smul_eq_mul]
    have := Nat.div_add_mod n (c' + 1)
    ring_nf at this ⊢
    omega
  have hsumR : ∑ i ∈ Finset.range cores, (k i : ℝ) = n := by exact_mod_cast hsum
  have hb : ∀ i ∈ Finset.range cores, P.real {ω | ε ≤ |((List.ofFn (Y i ω)).countP q : ℝ) / k i - p|}
      ≤ 2 * Real.exp (-2 * (n / cores : ℕ) * ε ^ 2) := fun i hi => by
    have hi' := Finset.mem_range.1 hi
    obtain ⟨e1, e2⟩ := iIndep_of_pi (P := streamLaw S.law) (h3 i hi').measurable (h3 i hi').map_eq
    have := frequency_bound (P := streamLaw S.law) (hq1.trans (hk i hi'))
      (fun j => (measurable_pi_apply j).comp (h3 i hi').measurable) e1 e2 q hq hε
    refine this.trans (mul_le_mul_of_nonneg_left (Real.exp_le_exp.2 ?_) (by norm_num))
    have : ((n / cores : ℕ) : ℝ) ≤ k i := by exact_mod_cast hk i hi'
    nlinarith [sq_nonneg ε]
  have hunion : P.real (⋃ i ∈ Finset.range cores, {ω | ε ≤ |((List.ofFn (Y i ω)).countP q : ℝ) / k i - p|})
      ≤ 2 * cores * Real.exp (-2 * (n / cores : ℕ) * ε ^ 2) := by
    refine (measureReal_biUnion_finset_le _ _).trans ((Finset.sum_le_sum hb).trans (le_of_eq ?_))
    rw [Finset.sum_const, Finset.card_range, nsmul_eq_mul]
    ring
  refine le_trans (ENNReal.toReal_mono (measure_ne_top _ _) (measure_mono_ae ?_)) hunion
  filter_upwards [h4] with ω hω hbad
  obtain ⟨z, m', hz, hR⟩ := hω
  by_contra hlt
  have hlt' : ∀ i ∈ Finset.range cores, |((List.ofFn (Y i ω)).countP q : ℝ) / k i - p| < ε := fun i hi => by
    by_contra hge
    exact hlt (Set.mem_biUnion (x := i) hi (not_lt.1 hge))
  refine hbad ⟨z, m', _, hz, hR, ?_⟩
  rw [countP_flatMap_range]
  have e : ((∑ i ∈ Finset.range cores, (List.ofFn (Y i ω)).countP q : ℕ) : ℝ) / n - p
      = (∑ i ∈ Finset.range cores, k i * (((List.ofFn (Y i ω)).countP q : ℝ) / k i - p)) / n := by
    have e' : ∀ i ∈ Finset.range cores, (k i : ℝ) * (((List.ofFn (Y i ω)).countP q : ℝ) / k i - p)
        = (List.ofFn (Y i ω)).countP q - k i * p := fun i hi => by
      have := (hk0 i (Finset.mem_range.1 hi)).ne'
      field_simp
    rw [Finset.sum_congr rfl e', Finset.sum_sub_distrib, ← Finset.sum_mul, hsumR]
    push_cast
    field_simp
  rw [e, abs_div, abs_of_pos hn0, div_lt_iff₀ hn0]
  refine (Finset.abs_sum_le_sum_abs _ _).trans_lt ?_
  have : ∑ i ∈ Finset.range cores, |(k i : ℝ) * (((List.ofFn (Y i ω)).countP q : ℝ) / k i - p)|
      < ∑ i ∈ Finset.range cores, (k i : ℝ) * ε := by
    refine Finset.sum_lt_sum_of_nonempty ⟨0, Finset.mem_range.2 (by omega)⟩ fun i hi => ?_
    rw [abs_mul, abs_of_pos (hk0 i (Finset.mem_range.1 hi))]
    exact mul_lt_mul_of_pos_left (hlt' i hi) (hk0 i (Finset.mem_range.1 hi))
  rw [← Finset.sum_mul, hsumR] at this
  linarith

/-- **C129** (limit): for any number of cores the average tends to the mean as `n` grows, however the pool distributes
the tasks. -/
theorem C129_mean_limit {d : Obj (St (ℕ → Ω) ℝ) ℝ} {μ : Measure ℝ} (hd : Denotes S.primLaw d μ) (hμ : MemLp id 2 μ)
    {cores : ℕ} (hc : 2 ≤ cores) {sched : ℕ → Sched} (hv : ∀ n, (sched n).Valid cores)
    (left : ℕ → ℕ → Option (List (Scalar ℝ))) (tmp : ℕ → Option (Samples ℝ)) {δ : ℝ} (hδ : 0 < δ) :
    Tendsto (fun n => (Measure.infinitePi fun _ : ℕ => S.law).real
      {ω | ¬ ∃ z m' xs, sampleCores E (sched n) cores d n none none ⟨⟨ω, left⟩, tmp⟩ = (.ok z, m') ∧
        List.Forall₂ IsReal z.toList xs ∧ xs.length = n ∧ |xs.sum / n - ∫ x, x ∂μ| < δ}) atTop (𝓝 0) := by
  have hlim : Tendsto (fun n : ℕ => cores * Var[id; μ] / ((n : ℝ) * δ ^ 2)) atTop (𝓝 0) :=
    Tendsto.const_div_atTop (tendsto_natCast_atTop_atTop.atTop_mul_const (by positivity)) _
  refine tendsto_of_tendsto_of_tendsto_of_le_of_le' tendsto_const_nhds hlim
    (.of_forall fun n => measureReal_nonneg) ?_
  filter_upwards [eventually_ge_atTop cores] with n hn
  exact C129_mean S hE hU hd hμ hc hn (hv n) left tmp hδ

omit hE hU in
/-- One task per process and `n` a multiple of `c`: the samples are those of `sample(d, n / c)`, `c` times. -/
theorem sampleCores_repeated {d : Obj (St (ℕ → Ω) ℝ) ℝ} {cores k : ℕ} (hc : 2 ≤ cores) (hk : 1 ≤ k) {sched : Sched}
    (hv : sched.Valid cores) (hsep : sched.Separate) {s s' : St (ℕ → Ω) ℝ} (tmp : ℕ → Option (Samples ℝ))
    {b : Samples ℝ} {xs : List ℝ} (hb : sampleObj E d k none none s = (.ok b, s')) (hR : List.Forall₂ IsReal b.toList xs) :
    ∃ z m', sampleCores E sched cores d (cores * k) none none ⟨s, tmp⟩ = (.ok z, m') ∧
      List.Forall₂ IsReal z.toList ((List.range cores).flatMap fun _ => xs) := by
  obtain ⟨cuts, q, last, hcuts, -⟩ := C24_cuts (cores * k) cores (by omega)
  obtain ⟨-, -, hcut, hlast⟩ := coreCuts_getD hcuts
  rw [Nat.mul_mod_right, Nat.add_zero] at hlast
  rw [Nat.mul_div_cancel_left k (by omega)] at hcut hlast
  have hnd : (sched.map Prod.snd).Nodup := hv.nodup_iff.2 List.nodup_range
  obtain ⟨z, m', h1, -, h3⟩ := sampleCores_of_batches E sched hc d (by positivity : cores * k ≠ 0) hcuts ⟨s, tmp⟩
    (own := b) (s' := s') (by rw [hlast]; exact hb) (fun _ => b) rfl (fun i hi => by
      have hmem : i ∈ sched.map Prod.snd := hv.symm.subset (by rw [List.mem_range]; omega)
      rw [runWorkers_separate E d cuts none none sched s _ _ hsep hnd (fun _ _ => rfl) i hmem, hcut i hi, hb])
    (fun _ => xs) fun _ _ => hR
  exact ⟨z, m', h1, h3⟩

/-- **C129 fails** (no gain): if each task runs in its own process and `n = c k`, the average of the `n` samples has
the mean of `d` but the variance `c · variance / n`, that of `k` samples, not `variance / n`: the bound of `C129_mean`
is the best possible. -/
theorem C129_variance_fails {d : Obj (St (ℕ → Ω) ℝ) ℝ} {μ : Measure ℝ} (hd : Denotes S.primLaw d μ)
    (hμ : MemLp id 2 μ) {cores k : ℕ} (hc : 2 ≤ cores) (hk : 1 ≤ k) {sched : Sched} (hv : sched.Valid cores)
    (hsep : sched.Separate) (left : ℕ → ℕ → Option (List (Scalar ℝ))) (tmp : ℕ → Option (Samples ℝ)) :
    ∃ M : (ℕ → Ω) → ℝ, Measurable M ∧
      (∀ᵐ ω ∂(Measure.infinitePi fun _ : ℕ => S.law), ∃ z m' xs,
        sampleCores E sched cores d (cores * k) none none ⟨⟨ω, left⟩, tmp⟩ = (.ok z, m') ∧
        List.Forall₂ IsReal z.toList xs ∧ meanOf xs = M ω) ∧
      ∫ ω, M ω ∂(Measure.infinitePi fun _ : ℕ => S.law) = ∫ x, x ∂μ ∧
      Var[M; Measure.infinitePi fun _ : ℕ => S.law] = cores * Var[id; μ] / (cores * k : ℕ) := by
  obtain ⟨hp, h⟩ := denotes_draws S (left := left) hE hU hd
  obtain ⟨Y, next, h1, -, h3⟩ := drawsLaw_parts S (h k hk)
  have hAm : Measurable fun y : Fin k → ℝ => (∑ j, y j) / k := by fun_prop
  refine ⟨fun ω => (∑ j, Y ω j) / k, hAm.comp h1.measurable, ?_, ?_, ?_⟩
  · filter_upwards [h3] with ω hω
    obtain ⟨b, hb, hR⟩ := hω
    obtain ⟨z, m', e1, e2⟩ := sampleCores_repeated (E := E) hc hk hv hsep tmp hb hR.2
    refine ⟨z, m', _, e1, e2, ?_⟩
    rw [meanOf_repeat (by omega), meanOf, List.sum_ofFn, List.length_ofFn]
  · rw [← average_mean hμ hk, ← h1.map_eq, integral_map h1.measurable.aemeasurable hAm.aestronglyMeasurable]
    rfl
  · have e : (fun ω => (∑ j, Y ω j) / (k : ℝ)) = (fun y : Fin k → ℝ => (∑ j, y j) / (k : ℝ)) ∘ Y := rfl
    show Var[_; streamLaw S.law] = _
    rw [e, ← variance_map (by rw [h1.map_eq]; exact hAm.aemeasurable) h1.measurable.aemeasurable, h1.map_eq,
      average_variance hμ hk]
    have : (cores : ℝ) ≠ 0 := by exact_mod_cast (by omega : cores ≠ 0)
    push_cast
    rw [mul_div_mul_left _ _ this]

/-- **C129 fails** (error bars): if each task runs in its own process, the interval `mean ± q · standard error`
computed from the `n = c k` samples contains the mean of `d` in the limit only as often as a standard normal variable
is at most `q / √c` away from 0 (with one core: `q`, C111). -/
theorem C129_error_bars_fails {d : Obj (St (ℕ → Ω) ℝ) ℝ} {μ : Measure ℝ} (hd : Denotes S.primLaw d μ)
    (hμ : MemLp id 2 μ) (hvar : Var[id; μ] ≠ 0) {cores : ℕ} (hc : 2 ≤ cores) {sched : ℕ → Sched}
    (hv : ∀ k, (sched k).Valid cores) (hsep : ∀ k, (sched k).Separate)
    (left : ℕ → ℕ → Option (List (Scalar ℝ))) (tmp : ℕ → Option (Samples ℝ)) (q : ℝ) :
    Tendsto (fun k => (Measure.infinitePi fun _ : ℕ => S.law)
      {ω | ∃ z m' xs, sampleCores E (sched k) cores d (cores * k) none none ⟨⟨ω, left⟩, tmp⟩ = (.ok z, m') ∧
        List.Forall₂ IsReal z.toList xs ∧ |meanOf xs - ∫ x, x ∂μ| ≤ q * stdError xs}) atTop
      (𝓝 (normalChance (Set.Icc (-(q / √cores)) (q / √cores)))) := by
  have h := C111_interval S hE hU hd left measurable_id hμ hvar (q / √cores)
  refine h.congr' ?_
  filter_upwards [eventually_ge_atTop 1] with k hk
  obtain ⟨hp, X, hX, hae, -, -⟩ := C86_independent_samples S hE hU hd hk left
  rw [sampleChance]
  refine measure_congr ?_
  filter_upwards [hae] with ω hω
  obtain ⟨b, s', hb, hR⟩ := hω
  obtain ⟨z, m', e1, e2⟩ := sampleCores_repeated (E := E) hc hk (hv k) (hsep k) tmp hb hR.2
  refine propext ?_
  have hside : ∀ xs : List ℝ, q / √cores * stdError xs = q * (stdError xs / √cores) := fun xs => by ring
  constructor
  · rintro ⟨z1, s1, xs, f1, f2, -, f4⟩
    rw [hb] at f1
    cases f1
    obtain rfl := reads_unique f2 hR.2
    refine ⟨z, m', _, e1, e2, ?_⟩
    rw [meanOf_repeat (by omega), stdError_repeat (by omega), ← hside]
    simpa using f4
  · rintro ⟨z1, s1, xs, f1, f2, f4⟩
    rw [e1] at f1
    cases f1
    obtain rfl := reads_unique f2 e2
    rw [meanOf_repeat (by omega), stdError_repeat (by omega), ← hside] at f4
    exact ⟨b, s', _, hb, hR.2, by simp, by simpa using f4⟩

end

/-- The interval is too narrow: its chance of containing the mean is smaller than it should be. -/
theorem C129_too_narrow {q : ℝ} (hq : 0 < q) {cores : ℕ} (hc : 2 ≤ cores) :
    normalChance (Set.Icc (-(q / √cores)) (q / √cores)) < normalChance (Set.Icc (-q) q) := by
  have h1 : 1 < √(cores : ℝ) := by
    rw [Real.lt_sqrt (by norm_num)]
    have : (2 : ℝ) ≤ cores := by exact_mod_cast hc
    linarith
  have h2 : q / √cores < q := div_lt_self hq h1
  have hd : Disjoint (Set.Icc (-(q / √cores)) (q / √cores)) (Set.Ioo (q / √cores) q) :=
    Set.disjoint_left.2 fun x a b => absurd a.2 (not_le.2 b.1)
  have hpos : gaussianReal 0 1 (Set.Ioo (q / √cores) q) ≠ 0 := fun h => by
    have := gaussianReal_absolutelyContinuous' 0 one_ne_zero h
    rw [Real.volume_Ioo, ENNReal.ofReal_eq_zero] at this
    linarith
  calc normalChance (Set.Icc (-(q / √cores)) (q / √cores))
      < gaussianReal 0 1 (Set.Icc (-(q / √cores)) (q / √cores)) + gaussianReal 0 1 (Set.Ioo (q / √cores) q) :=
        ENNReal.lt_add_right (measure_ne_top _ _) hpos
    _ = gaussianReal 0 1 (Set.Icc (-(q / √cores)) (q / √cores) ∪ Set.Ioo (q / √cores) q) :=
        (measure_union hd measurableSet_Ioo).symm
    _ ≤ _ := measure_mono (Set.union_subset (Set.Icc_subset_Icc (by linarith) h2.le)
        fun x hx => ⟨by linarith [hx.1, div_pos hq (by linarith : (0 : ℝ) < √cores)], hx.2.le⟩)

/-! ## Examples -/

/-- 10000 samples of `norm(mean=0, sd=1)` on 4 cores, however the three tasks are distributed: the average is off by
0.1 or more with probability at most 0.04. -/
example {sched : Sched} (hv : sched.Valid 4) :
    (Measure.infinitePi fun _ : ℕ => demoSource.law).real
      {ω | ¬ ∃ z m' xs, sampleCores idealEnv sched 4 (.leaf (.normal 0 1) none none) 10000 none none
          ⟨⟨ω, fun _ _ => none⟩, fun _ => none⟩ = (.ok z, m') ∧
        List.Forall₂ IsReal z.toList xs ∧ xs.length = 10000 ∧ |xs.sum / (10000 : ℕ) - 0| < 1 / 10} ≤ 4 / 100 := by
  have hd := denotes_normal (T := St (ℕ → ℝ × ℝ) ℝ) (demoSource_normal 0 zero_le_one)
  have hl : MemLp id 2 (normalLaw 0 1) := memLp_id_gaussianReal 2
  have h := C129_mean demoSource idealEnv_driven demoSource_uniform hd hl (n := 10000) (by norm_num) (by norm_num) hv
    (fun _ _ => none) (fun _ => none) (δ := 1 / 10) (by norm_num)
  have e1 : ∫ x, x ∂(normalLaw 0 1) = 0 := integral_id_gaussianReal
  have e2 : Var[id; normalLaw 0 1] = 1 := by
    rw [normalLaw, variance_id_gaussianReal]
    norm_num
  rw [e1, e2] at h
  exact h.trans (by norm_num)

/-- There are such distributions of tasks: one process for all of them, or one for each. -/
example : Sched.Valid [(0, 2), (0, 0), (0, 1)] 4 ∧ Sched.Valid [(0, 0), (1, 1), (2, 2)] 4 ∧
    Sched.Separate [(0, 0), (1, 1), (2, 2)] := by
  unfold Sched.Valid Sched.Separate
  decide

end Verif
