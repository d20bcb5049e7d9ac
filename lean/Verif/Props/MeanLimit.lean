import Verif.Props.Denote
import Mathlib.Probability.StrongLaw
import Mathlib.Probability.Independence.InfinitePi

/-!
# C87: the mean of the samples tends to the mean of the law, also without a variance
-/

namespace Verif

open MeasureTheory ProbabilityTheory Spec Filter Topology

/-- Averages of independent values of a law with a mean: the chance of an error of `ε` or more tends to 0. -/
theorem average_limit {μ : Measure ℝ} [IsProbabilityMeasure μ] (hμ : Integrable (fun x => x) μ) {ε : ℝ} (hε : 0 < ε) :
    Tendsto (fun n : ℕ => (Measure.pi fun _ : Fin n => μ) {x | ε ≤ |(∑ i, x i) / n - ∫ x, x ∂μ|}) atTop (𝓝 0) := by
  set Q := Measure.infinitePi fun _ : ℕ => μ with hQ
  have hlaw : ∀ i : ℕ, Q.map (fun x => x i) = μ := fun i => by
    simpa using (measurePreserving_eval_infinitePi (fun _ : ℕ => μ) i).map_eq
  have hind : iIndepFun (fun (i : ℕ) (x : ℕ → ℝ) => x i) Q :=
    iIndepFun_infinitePi (P := fun _ : ℕ => μ) (X := fun _ x => x) (by fun_prop)
  have hid : ∀ i, IdentDistrib (fun x : ℕ → ℝ => x i) (fun x => x 0) Q Q := fun i =>
    ⟨(measurable_pi_apply i).aemeasurable, (measurable_pi_apply 0).aemeasurable, by rw [hlaw, hlaw]⟩
  have hint : Integrable (fun x : ℕ → ℝ => x 0) Q := by
    have := (integrable_map_measure (μ := Q) (f := fun x : ℕ → ℝ => x 0) (g := fun x => x) (by fun_prop)
      (measurable_pi_apply 0).aemeasurable).1 (by rw [hlaw]; exact hμ)
    exact this
  have hmean : Q[fun x : ℕ → ℝ => x 0] = ∫ x, x ∂μ := by
    rw [← hlaw 0, integral_map (measurable_pi_apply 0).aemeasurable (by fun_prop)]
  have h := strong_law_ae_real (fun (i : ℕ) (x : ℕ → ℝ) => x i) hint (fun i j hij => hind.indepFun hij) hid
  rw [hmean] at h
  have h2 := tendstoInMeasure_iff_dist.1 (tendstoInMeasure_of_tendsto_ae (fun n => by fun_prop) h) ε hε
  refine h2.congr fun n => ?_
  have hpi : Q.map (fun x (i : Fin n) => x i) = Measure.pi fun _ : Fin n => μ := by
    have := (iIndepFun_iff_map_fun_eq_pi_map (μ := Q) (f := fun (i : Fin n) (x : ℕ → ℝ) => x i)
      fun i => (measurable_pi_apply _).aemeasurable).1 (hind.precomp (g := fun i : Fin n => (i : ℕ)) Fin.val_injective)
    rw [this]
    congr 1
    funext i
    exact hlaw i
  rw [← hpi, Measure.map_apply (by fun_prop) (measurableSet_le (by fun_prop) (by fun_prop))]
  congr 1
  ext x
  simp only [Set.mem_preimage, Real.dist_eq, Finset.sum_range]
  rfl

section

variable {Ω : Type} [MeasurableSpace Ω] (S : IdealSource Ω) {E : Env (ℕ → Ω) ℝ} (hE : S.Drives E)
  (hU : S.primLaw (.uniform 0 1) = some unitLaw)

include hE hU in
/-- **C87**: for every distribution with a mean, the chance that the mean of `n` samples is off by `ε` or more (or
that sampling fails) tends to 0 as `n` grows. -/
theorem C87_mean_limit {d : Obj (St (ℕ → Ω) ℝ) ℝ} {μ : Measure ℝ} (hd : Denotes S.primLaw d μ)
    (hμ : Integrable (fun x => x) μ) (left : ℕ → ℕ → Option (List (Scalar ℝ))) {ε : ℝ} (hε : 0 < ε) :
    Tendsto (fun n : ℕ => (Measure.infinitePi fun _ : ℕ => S.law)
      {ω | ¬ ∃ z s' xs, sampleObj E d n none none ⟨ω, left⟩ = (.ok z, s') ∧
        List.Forall₂ IsReal z.toList xs ∧ |xs.sum / n - ∫ x, x ∂μ| < ε}) atTop (𝓝 0) := by
  have hp : IsProbabilityMeasure μ := (C86_independent_samples S hE hU hd (n := 1) le_rfl left).1
  refine tendsto_of_tendsto_of_tendsto_of_le_of_le' tendsto_const_nhds (average_limit hμ hε)
    (Eventually.of_forall fun n => zero_le) ?_
  filter_upwards [eventually_ge_atTop 1] with n hn
  obtain ⟨-, X, hX, hae, hlaw, hind⟩ := C86_independent_samples S hE hU hd hn left
  set P := Measure.infinitePi fun _ : ℕ => S.law with hP
  have hpi : P.map (fun ω i => X i ω) = Measure.pi fun _ : Fin n => μ := by
    rw [(iIndepFun_iff_map_fun_eq_pi_map fun i => (hX i).aemeasurable).1 hind]
    congr 1
    funext i
    exact hlaw i
  rw [← hpi, Measure.map_apply (by fun_prop) (measurableSet_le (by fun_prop) (by fun_prop))]
  refine measure_mono_ae ?_
  filter_upwards [hae] with ω hω hbad
  obtain ⟨z, s', hz, hR⟩ := hω
  by_contra hlt
  refine hbad ⟨z, s', _, hz, hR.2, ?_⟩
  rw [List.sum_ofFn]
  exact not_le.1 hlt

end

/-- The mean of many samples of `d6(explode_on=6)` is close to 4.2. -/
example {ε : ℝ} (hε : 0 < ε) :
    Tendsto (fun n : ℕ => (Measure.infinitePi fun _ : ℕ => demoSource.law)
      {ω | ¬ ∃ z s' xs, sampleObj idealEnv (.leaf (.die ⟨6, some [6]⟩) none none) n none none ⟨ω, fun _ _ => none⟩
          = (.ok z, s') ∧
        List.Forall₂ IsReal z.toList xs ∧ |xs.sum / n - 21 / 5| < ε}) atTop (𝓝 0) := by
  obtain ⟨hd, hfair, μ, hμ, hmean⟩ := C94_example
  have h := Denotes.explode (S := St (ℕ → ℝ × ℝ) ℝ) (L := demoSource.primLaw) (s := 6) (faces := [6])
    (lc := none) (rc := none) (lo := none) (hi := none) ⟨1, by simp, by simp, by simp⟩ hfair hμ trivial trivial
  have e : clamp none none = id := rfl
  rw [e, Measure.map_id] at h
  have := C87_mean_limit demoSource (E := idealEnv) idealEnv_driven demoSource_uniform h (C94_mean hd rfl hμ).1
    (fun _ _ => none) hε
  rwa [hmean] at this

end Verif
