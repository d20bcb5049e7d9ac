import Verif.Spec.Accuracy
import Verif.Lemmas.NormalLimit
import Verif.Props.ExpectedValue

/-!
# C111: how far an average of samples is from the truth
-/

namespace Verif

open MeasureTheory ProbabilityTheory Spec Filter Topology

theorem real_value_unique {v : Scalar ℝ} {r r' : ℝ} (h : IsReal v r) (h' : IsReal v r') : r = r' := by
  rcases h with rfl | ⟨z, rfl, rfl⟩ <;> rcases h' with h' | ⟨z', h', rfl⟩ <;> cases h' <;> rfl

theorem reals_unique {vs : List (Scalar ℝ)} {rs rs' : List ℝ} (h : List.Forall₂ IsReal vs rs)
    (h' : List.Forall₂ IsReal vs rs') : rs = rs' := by
  induction h generalizing rs' with
  | nil => cases h'; rfl
  | cons hv _ ih =>
    cases h' with
    | cons hv' ht => rw [real_value_unique hv hv', ih ht]

theorem meanOf_ofFn {n : ℕ} (x : Fin n → ℝ) : meanOf (List.ofFn x) = (∑ i, x i) / n := by
  simp [meanOf, List.sum_ofFn]

theorem varOf_ofFn {n : ℕ} (x : Fin n → ℝ) :
    varOf (List.ofFn x) = (∑ i, x i ^ 2) / n - ((∑ i, x i) / n) ^ 2 := by
  rcases Nat.eq_zero_or_pos n with rfl | hn
  · simp [varOf, meanOf]
  · rw [varOf_eq (by simpa using hn.ne'), List.map_ofFn, meanOf_ofFn, meanOf_ofFn]
    rfl

section

variable {Ω : Type} [MeasurableSpace Ω] (S : IdealSource Ω) {E : Env (ℕ → Ω) ℝ} (hE : S.Drives E)
  (hU : S.primLaw (.uniform 0 1) = some unitLaw)

include hE hU

theorem sampleChance_eq {d : Obj (St (ℕ → Ω) ℝ) ℝ} {μ : Measure ℝ} (hd : Denotes S.primLaw d μ)
    (left : ℕ → ℕ → Option (List (Scalar ℝ))) {n : ℕ} (hn : 1 ≤ n) {Q : List ℝ → Prop}
    (hQ : MeasurableSet {x : Fin n → ℝ | Q (List.ofFn x)}) :
    sampleChance S E d left n Q = (Measure.pi fun _ : Fin n => μ) {x | Q (List.ofFn x)} := by
  obtain ⟨hp, X, hX, hae, hlaw, hind⟩ := C86_independent_samples S hE hU hd hn left
  have hpi : (Measure.infinitePi fun _ : ℕ => S.law).map (fun ω i => X i ω) = Measure.pi fun _ : Fin n => μ := by
    rw [(iIndepFun_iff_map_fun_eq_pi_map fun i => (hX i).aemeasurable).1 hind]
    congr 1
    funext i
    exact hlaw i
  rw [← hpi, Measure.map_apply (by fun_prop) hQ, sampleChance]
  refine measure_congr ?_
  filter_upwards [hae] with ω hω
  obtain ⟨z, s', hz, hR⟩ := hω
  refine propext ⟨?_, fun h => ⟨z, s', _, hz, hR.2, by simp, h⟩⟩
  rintro ⟨z', s'', xs, hz', hxs, -, hq⟩
  rw [hz] at hz'
  cases hz'
  rw [reals_unique hxs hR.2] at hq
  exact hq

/-- The common part of the following. -/
theorem accuracy_limit {d : Obj (St (ℕ → Ω) ℝ) ℝ} {μ : Measure ℝ} (hd : Denotes S.primLaw d μ)
    (left : ℕ → ℕ → Option (List (Scalar ℝ))) {f : ℝ → ℝ} (hf : Measurable f) (hμ : MemLp f 2 μ) {A : Set (ℝ × ℝ)}
    (hA : MeasurableSet A)
    (hfr : gaussianReal 0 1 ((fun x : ℝ => (√Var[f; μ] * x, Var[f; μ])) ⁻¹' frontier A) = 0) :
    Tendsto (fun n : ℕ => sampleChance S E d left n fun xs =>
        (√n * (meanOf (xs.map f) - ∫ x, f x ∂μ), varOf (xs.map f)) ∈ A) atTop
      (𝓝 (gaussianReal 0 1 ((fun x : ℝ => (√Var[f; μ] * x, Var[f; μ])) ⁻¹' A))) := by
  have hp : IsProbabilityMeasure μ := (C86_independent_samples S hE hU hd (n := 1) le_rfl fun _ _ => none).1
  refine (normal_limit_fn hf hμ hA hfr).congr' ?_
  filter_upwards [eventually_ge_atTop 1] with n hn
  have e : {x : Fin n → ℝ | (√n * (meanOf ((List.ofFn x).map f) - ∫ x, f x ∂μ), varOf ((List.ofFn x).map f)) ∈ A}
      = {x | (√n * ((∑ i, f (x i)) / n - ∫ x, f x ∂μ), (∑ i, f (x i) ^ 2) / n - ((∑ i, f (x i)) / n) ^ 2) ∈ A} := by
    ext x
    simp only [List.map_ofFn, meanOf_ofFn, varOf_ofFn, Function.comp_apply]
  have hs1 : Measurable fun x : Fin n → ℝ => √n * ((∑ i, f (x i)) / n - ∫ x, f x ∂μ) :=
    (((Finset.measurable_sum _ fun i _ => hf.comp (measurable_pi_apply i)).div_const _).sub_const _).const_mul _
  have hs2 : Measurable fun x : Fin n → ℝ => (∑ i, f (x i) ^ 2) / (n : ℝ) - ((∑ i, f (x i)) / n) ^ 2 :=
    ((Finset.measurable_sum _ fun i _ => (hf.comp (measurable_pi_apply i)).pow_const 2).div_const _).sub
      (((Finset.measurable_sum _ fun i _ => hf.comp (measurable_pi_apply i)).div_const _).pow_const 2)
  rw [sampleChance_eq S hE hU hd left hn (by rw [e]; exact (hs1.prodMk hs2) hA), e]

/-- **C111**: for any quantity `f` of finite, positive variance computed from the samples, the average over `n`
samples lies between the true mean plus `a` and plus `b` standard errors as often, in the limit, as a standard
normal variable lies between `a` and `b`. -/
theorem C111_error {d : Obj (St (ℕ → Ω) ℝ) ℝ} {μ : Measure ℝ} (hd : Denotes S.primLaw d μ)
    (left : ℕ → ℕ → Option (List (Scalar ℝ))) {f : ℝ → ℝ} (hf : Measurable f) (hμ : MemLp f 2 μ)
    (hv : Var[f; μ] ≠ 0) (a b : ℝ) :
    Tendsto (fun n : ℕ => sampleChance S E d left n fun xs =>
        (∫ x, f x ∂μ) + a * (√Var[f; μ] / √n) ≤ meanOf (xs.map f) ∧
        meanOf (xs.map f) ≤ (∫ x, f x ∂μ) + b * (√Var[f; μ] / √n)) atTop
      (𝓝 (normalChance (Set.Icc a b))) := by
  set v := Var[f; μ] with hvdef
  have hv1 : 0 < v := lt_of_le_of_ne (variance_nonneg _ _) hv.symm
  have hs : 0 < √v := Real.sqrt_pos.2 hv1
  have hna : NullSingletonClass (gaussianReal 0 1) := nullSingletonClass_gaussianReal one_ne_zero
  set A : Set (ℝ × ℝ) := {p | a * √v ≤ p.1} ∩ {p | p.1 ≤ b * √v} with hA
  have hAm : MeasurableSet A := (measurableSet_le measurable_const measurable_fst).inter
    (measurableSet_le measurable_fst measurable_const)
  have h := accuracy_limit S hE hU hd left hf hμ hAm (by
    refine measure_mono_null (t := {a, b}) ?_ ((Set.toFinite {a, b}).measure_zero _)
    intro x hx
    rcases frontier_inter_subset _ _ hx with ⟨h1, -⟩ | ⟨-, h2⟩
    · have := frontier_le_subset_eq (continuous_const (y := a * √v)) continuous_fst h1
      simp only [Set.mem_ofPred_eq, ← hvdef] at this
      left
      exact (mul_left_cancel₀ hs.ne' (by rw [← this, mul_comm]))
    · have := frontier_le_subset_eq continuous_fst (continuous_const (y := b * √v)) h2
      simp only [Set.mem_ofPred_eq, ← hvdef] at this
      right
      exact (mul_left_cancel₀ hs.ne' (by rw [this, mul_comm])))
  have e : (fun x : ℝ => (√v * x, v)) ⁻¹' A = Set.Icc a b := by
    ext x
    simp only [hA, Set.mem_preimage, Set.mem_inter_iff, Set.mem_ofPred_eq, Set.mem_Icc, mul_comm (√v) x]
    exact and_congr (mul_le_mul_iff_left₀ hs) (mul_le_mul_iff_left₀ hs)
  rw [← hvdef, e] at h
  refine h.congr' ?_
  filter_upwards [eventually_ge_atTop 1] with n hn
  congr 1
  funext xs
  have hn0 : 0 < √(n : ℝ) := Real.sqrt_pos.2 (by exact_mod_cast hn)
  simp only [hA, Set.mem_inter_iff, Set.mem_ofPred_eq]
  refine propext (and_congr ?_ ?_)
  · rw [← le_sub_iff_add_le', ← mul_div_assoc, div_le_iff₀ hn0, mul_comm (√(n : ℝ))]
  · rw [← sub_le_iff_le_add', ← mul_div_assoc, le_div_iff₀ hn0, mul_comm (√(n : ℝ))]

/-- **C111**: the interval "average of the samples plus or minus `c` standard errors", all computed from the
samples, contains the true mean as often, in the limit, as a standard normal variable is at most `c` away from
0. -/
theorem C111_interval {d : Obj (St (ℕ → Ω) ℝ) ℝ} {μ : Measure ℝ} (hd : Denotes S.primLaw d μ)
    (left : ℕ → ℕ → Option (List (Scalar ℝ))) {f : ℝ → ℝ} (hf : Measurable f) (hμ : MemLp f 2 μ)
    (hv : Var[f; μ] ≠ 0) (c : ℝ) :
    Tendsto (fun n : ℕ => sampleChance S E d left n fun xs =>
        |meanOf (xs.map f) - ∫ x, f x ∂μ| ≤ c * stdError (xs.map f)) atTop
      (𝓝 (normalChance (Set.Icc (-c) c))) := by
  set v := Var[f; μ] with hvdef
  have hv1 : 0 < v := lt_of_le_of_ne (variance_nonneg _ _) hv.symm
  have hs : 0 < √v := Real.sqrt_pos.2 hv1
  have hna : NullSingletonClass (gaussianReal 0 1) := nullSingletonClass_gaussianReal one_ne_zero
  set A : Set (ℝ × ℝ) := {p | |p.1| ≤ c * √p.2} with hA
  have hAm : MeasurableSet A := measurableSet_le (by fun_prop) (by fun_prop)
  have h := accuracy_limit S hE hU hd left hf hμ hAm (by
    refine measure_mono_null (t := {c, -c}) ?_ ((Set.toFinite {c, -c}).measure_zero _)
    intro x hx
    have h1 := frontier_le_subset_eq (f := fun p : ℝ × ℝ => |p.1|) (g := fun p : ℝ × ℝ => c * √p.2) (by fun_prop)
      (by fun_prop) hx
    simp only [Set.mem_ofPred_eq, ← hvdef, abs_mul, abs_of_pos hs, mul_comm c] at h1
    have h2 : |x| = c := mul_left_cancel₀ hs.ne' h1
    rcases abs_choice x with h3 | h3
    · left
      linarith
    · right
      show x = -c
      linarith)
  have e : (fun x : ℝ => (√v * x, v)) ⁻¹' A = Set.Icc (-c) c := by
    ext x
    simp only [hA, Set.mem_preimage, Set.mem_ofPred_eq, Set.mem_Icc, abs_mul, abs_of_pos hs, mul_comm c, ← abs_le]
    exact mul_le_mul_iff_right₀ hs
  rw [← hvdef, e] at h
  refine h.congr' ?_
  filter_upwards [eventually_ge_atTop 1] with n hn
  rw [sampleChance, sampleChance]
  congr 1
  ext ω
  refine exists_congr fun z => exists_congr fun s' => exists_congr fun xs => and_congr_right fun _ =>
    and_congr_right fun _ => and_congr_right fun hl => ?_
  have hn0 : 0 < √(n : ℝ) := Real.sqrt_pos.2 (by exact_mod_cast hn)
  simp only [hA, Set.mem_ofPred_eq, stdError, List.length_map, hl, abs_mul, abs_of_pos hn0]
  rw [← mul_div_assoc, le_div_iff₀ hn0, mul_comm (√(n : ℝ))]

/-- **C111**: with `c = norm.ppf(0.5 + cred / 200)` the interval contains the true mean with a probability that
tends to `cred` percent. -/
theorem C111_level {d : Obj (St (ℕ → Ω) ℝ) ℝ} {μ : Measure ℝ} (hd : Denotes S.primLaw d μ)
    (left : ℕ → ℕ → Option (List (Scalar ℝ))) {f : ℝ → ℝ} (hf : Measurable f) (hμ : MemLp f 2 μ)
    (hv : Var[f; μ] ≠ 0) {ppf : ℝ → ℝ} (hp : IsPpf ppf) {cred : ℝ} (h0 : 0 < cred) (h1 : cred < 100) :
    Tendsto (fun n : ℕ => sampleChance S E d left n fun xs =>
        |meanOf (xs.map f) - ∫ x, f x ∂μ| ≤ ppf (0.5 + 0.5 * (cred / 100)) * stdError (xs.map f)) atTop
      (𝓝 (ENNReal.ofReal (cred / 100))) := by
  have h := C111_interval S hE hU hd left hf hμ hv (ppf (0.5 + 0.5 * (cred / 100)))
  rw [← (std_central hp h0 h1).2.inside]
  exact h

/-- **C111**: the same for the chance of an event: if it has probability `p`, neither 0 nor 1, and a fraction `q`
of the samples have it, then `q ± c √(q (1 - q) / n)` contains `p` as often, in the limit, as a standard normal
variable is at most `c` away from 0. -/
theorem C111_probability {d : Obj (St (ℕ → Ω) ℝ) ℝ} {μ : Measure ℝ} (hd : Denotes S.primLaw d μ)
    (left : ℕ → ℕ → Option (List (Scalar ℝ))) (q : ℝ → Bool) (hq : MeasurableSet {x | q x = true})
    (h0 : 0 < μ.real {x | q x = true}) (h1 : μ.real {x | q x = true} < 1) (c : ℝ) :
    Tendsto (fun n : ℕ => sampleChance S E d left n fun xs =>
        |(xs.countP q : ℝ) / n - μ.real {x | q x = true}| ≤
          c * √((xs.countP q : ℝ) / n * (1 - (xs.countP q : ℝ) / n) / n)) atTop
      (𝓝 (normalChance (Set.Icc (-c) c))) := by
  have hp : IsProbabilityMeasure μ := (C86_independent_samples S hE hU hd (n := 1) le_rfl fun _ _ => none).1
  set p := μ.real {x | q x = true} with hpdef
  set f : ℝ → ℝ := Set.indicator {x | q x = true} fun _ => 1 with hf
  have hfm : Measurable f := measurable_const.indicator hq
  have hfl : MemLp f 2 μ := (memLp_const (1 : ℝ)).indicator hq
  have hmean : ∫ x, f x ∂μ = p := by
    rw [hf, integral_indicator hq]
    simp [hpdef, Measure.real]
  have hsq : f ^ 2 = f := by
    funext x
    by_cases hx : q x = true <;> simp [hf, Set.indicator, hx]
  have hvar : Var[f; μ] ≠ 0 := by
    rw [variance_eq_sub hfl, hsq, hmean]
    nlinarith
  have h := C111_interval S hE hU hd left hfm hfl hvar c
  rw [hmean] at h
  refine h.congr' ?_
  filter_upwards [eventually_ge_atTop 1] with n hn
  rw [sampleChance, sampleChance]
  congr 1
  ext ω
  refine exists_congr fun z => exists_congr fun s' => exists_congr fun xs => and_congr_right fun _ =>
    and_congr_right fun _ => and_congr_right fun hl => ?_
  have hs : ∀ xs : List ℝ, (xs.map f).sum = xs.countP q := by
    intro xs
    induction xs with
    | nil => simp
    | cons x xs ih =>
      rw [List.map_cons, List.sum_cons, ih, List.countP_cons]
      by_cases hx : q x = true <;> simp [hf, Set.indicator, hx, add_comm]
  have hne : xs.map f ≠ [] := fun h => by
    have := congrArg List.length h
    simp at this
    subst this
    simp at hl
    omega
  have hm : meanOf (xs.map f) = (xs.countP q : ℝ) / n := by
    rw [meanOf, hs, List.length_map, hl]
  have hv : varOf (xs.map f) = (xs.countP q : ℝ) / n * (1 - (xs.countP q : ℝ) / n) := by
    have e : (xs.map f).map (fun x => x ^ 2) = xs.map f := by
      rw [List.map_map]
      refine List.map_congr_left fun x _ => ?_
      exact congrFun hsq x
    rw [varOf_eq hne, e, hm]
    ring
  rw [hm, stdError, hv, List.length_map, hl, ← Real.sqrt_div' _ (Nat.cast_nonneg n)]

end

section

variable {Ω : Type} [MeasurableSpace Ω] (S : IdealSource Ω) (hS : Documented S) {E : Env (ℕ → Ω) ℝ} (hE : S.Drives E)

include hS hE

/-- **C111** for means and variances worked out by hand (`MomentsAre`, see C110): the interval around the average of
the samples contains the mean of the model with a probability that tends to `cred` percent. -/
theorem C111_model_mean {d : Obj (St (ℕ → Ω) ℝ) ℝ} {m v : ℝ} (h : MomentsAre d m v) (hv : v ≠ 0)
    (left : ℕ → ℕ → Option (List (Scalar ℝ))) {ppf : ℝ → ℝ} (hp : IsPpf ppf) {cred : ℝ} (h0 : 0 < cred)
    (h1 : cred < 100) :
    Tendsto (fun n : ℕ => sampleChance S E d left n fun xs =>
        |meanOf xs - m| ≤ ppf (0.5 + 0.5 * (cred / 100)) * stdError xs) atTop
      (𝓝 (ENNReal.ofReal (cred / 100))) := by
  obtain ⟨μ, hd, ⟨hi, rfl⟩, hl, rfl⟩ := momentsAre_law S hS hE h
  have := C111_level S hE (documented_uniform S hS) hd left (f := id) measurable_id hl hv hp h0 h1
  simpa only [List.map_id, id] using this

end

/-- The mean of the sum of two dice, from `n` samples. -/
example : ∃ (S : IdealSource (Prim ℝ → ℝ)) (E : Env (ℕ → Prim ℝ → ℝ) ℝ), S.Drives E ∧
    ∀ (left : ℕ → ℕ → Option (List (Scalar ℝ))) (ppf : ℝ → ℝ), IsPpf ppf →
    Tendsto (fun n : ℕ => sampleChance S E (.bin (.op .add) (.leaf (.die ⟨6, none⟩) none none)
        (.leaf (.die ⟨6, none⟩) none none)) left n fun xs =>
        |meanOf xs - 7| ≤ ppf (0.5 + 0.5 * (95 / 100)) * stdError xs) atTop (𝓝 (ENNReal.ofReal (95 / 100))) := by
  obtain ⟨S, hS, E, hE⟩ := C110_generator
  have h1 : LeafMean (.die ⟨6, none⟩) ((((6 : ℤ) : ℝ) + 1) / 2) := .die (by norm_num)
  have h2 : LeafVar (.die ⟨6, none⟩) (((((6 : ℤ) : ℝ)) ^ 2 - 1) / 12) := .die (by norm_num)
  have h := MomentsAre.add (T := St (ℕ → Prim ℝ → ℝ) ℝ) (.leaf h1 h2) (.leaf h1 h2)
  norm_num at h
  exact ⟨S, E, hE, fun left ppf hp => C111_model_mean S hS hE h (by norm_num) left hp (by norm_num) (by norm_num)⟩

end Verif
