import Mathlib.Probability.StrongLaw
import Mathlib.Probability.Independence.InfinitePi

/-!
# Helper lemma: averages of a function of independent values
-/

namespace Verif

open MeasureTheory ProbabilityTheory Filter Topology

/-- Averages of a function of independent values: the chance of an error of `ε` or more tends to 0. -/
theorem average_limit_fn {α : Type} [MeasurableSpace α] {κ : Measure α} [IsProbabilityMeasure κ] {f : α → ℝ}
    (hf : Measurable f) (hi : Integrable f κ) {ε : ℝ} (hε : 0 < ε) :
    Tendsto (fun n : ℕ => (Measure.pi fun _ : Fin n => κ) {x | ε ≤ |(∑ i, f (x i)) / n - ∫ x, f x ∂κ|})
      atTop (𝓝 0) := by
  set Q := Measure.infinitePi fun _ : ℕ => κ with hQ
  have hlaw : ∀ i : ℕ, Q.map (fun x => x i) = κ := fun i => by
    simpa using (measurePreserving_eval_infinitePi (fun _ : ℕ => κ) i).map_eq
  have hind0 : iIndepFun (fun (i : ℕ) (x : ℕ → α) => x i) Q :=
    iIndepFun_infinitePi (P := fun _ : ℕ => κ) (X := fun _ x => x) (by fun_prop)
  have hind : iIndepFun (fun (i : ℕ) (x : ℕ → α) => f (x i)) Q :=
    hind0.comp (fun _ => f) fun _ => hf
  have hfi : ∀ i, Measurable fun x : ℕ → α => f (x i) := fun i => hf.comp (measurable_pi_apply i)
  have hmapf : ∀ i, Q.map (fun x => f (x i)) = κ.map f := fun i => by
    rw [← hlaw i, Measure.map_map hf (measurable_pi_apply i)]
    rfl
  have hid : ∀ i, IdentDistrib (fun x : ℕ → α => f (x i)) (fun x => f (x 0)) Q Q := fun i =>
    ⟨(hfi i).aemeasurable, (hfi 0).aemeasurable, by rw [hmapf, hmapf]⟩
  have hint : Integrable (fun x : ℕ → α => f (x 0)) Q :=
    (integrable_map_measure (μ := Q) (f := fun x : ℕ → α => x 0) (g := f) hf.aestronglyMeasurable
      (measurable_pi_apply 0).aemeasurable).1 (by rw [hlaw]; exact hi)
  have hmean : Q[fun x : ℕ → α => f (x 0)] = ∫ x, f x ∂κ := by
    rw [← hlaw 0, integral_map (measurable_pi_apply 0).aemeasurable hf.aestronglyMeasurable]
  have h := strong_law_ae_real (fun (i : ℕ) (x : ℕ → α) => f (x i)) hint (fun i j hij => hind.indepFun hij) hid
  rw [hmean] at h
  have hms : ∀ n : ℕ, Measurable fun x : ℕ → α => (∑ i ∈ Finset.range n, f (x i)) / (n : ℝ) := fun n =>
    (Finset.measurable_sum _ fun i _ => hfi i).div_const _
  have h2 := tendstoInMeasure_iff_dist.1
    (tendstoInMeasure_of_tendsto_ae (fun n => (hms n).aestronglyMeasurable) h) ε hε
  refine h2.congr fun n => ?_
  have hpi : Q.map (fun x (i : Fin n) => x i) = Measure.pi fun _ : Fin n => κ := by
    have := (iIndepFun_iff_map_fun_eq_pi_map (μ := Q) (f := fun (i : Fin n) (x : ℕ → α) => x i)
      fun i => (measurable_pi_apply _).aemeasurable).1 (hind0.precomp (g := fun i : Fin n => (i : ℕ)) Fin.val_injective)
    rw [this]
    congr 1
    funext i
    exact hlaw i
  have hs : Measurable fun x : Fin n → α => (∑ i, f (x i)) / (n : ℝ) :=
    (Finset.measurable_sum _ fun i _ => hf.comp (measurable_pi_apply i)).div_const _
  have hset : MeasurableSet {x : Fin n → α | ε ≤ |(∑ i, f (x i)) / (n : ℝ) - ∫ x, f x ∂κ|} :=
    measurableSet_le measurable_const (continuous_abs.measurable.comp (hs.sub_const _))
  rw [← hpi, Measure.map_apply (by fun_prop) hset]
  congr 1
  ext x
  simp only [Set.mem_preimage, Real.dist_eq, Finset.sum_range]
  rfl

end Verif
