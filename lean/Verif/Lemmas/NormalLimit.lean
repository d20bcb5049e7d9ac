import Verif.Lemmas.AverageLimit
import Mathlib.Probability.CentralLimitTheorem
import Mathlib.MeasureTheory.Measure.Portmanteau

/-!
# The error of an average, jointly with the variance of the values
-/

namespace Verif

open MeasureTheory ProbabilityTheory Filter Topology

/-- `√n` times the error of the average of `f`, and the variance of the values of `f`, of `n` independent values:
the first becomes normal, the second becomes the true variance. -/
theorem normal_limit_fn {α : Type} [MeasurableSpace α] {κ : Measure α} [IsProbabilityMeasure κ] {f : α → ℝ}
    (hf : Measurable f) (hm : MemLp f 2 κ) {A : Set (ℝ × ℝ)} (hA : MeasurableSet A)
    (hfr : gaussianReal 0 1 ((fun x : ℝ => (√Var[f; κ] * x, Var[f; κ])) ⁻¹' frontier A) = 0) :
    Tendsto (fun n : ℕ => (Measure.pi fun _ : Fin n => κ)
      {x | (√n * ((∑ i, f (x i)) / n - ∫ x, f x ∂κ), (∑ i, f (x i) ^ 2) / n - ((∑ i, f (x i)) / n) ^ 2) ∈ A})
      atTop (𝓝 (gaussianReal 0 1 ((fun x : ℝ => (√Var[f; κ] * x, Var[f; κ])) ⁻¹' A))) := by
  set v := Var[f; κ] with hv
  set m := ∫ x, f x ∂κ with hmean
  have hv0 : 0 ≤ v := variance_nonneg _ _
  set Q := Measure.infinitePi fun _ : ℕ => κ with hQ
  have hlaw : ∀ i : ℕ, Q.map (fun x => x i) = κ := fun i => by
    simpa using (measurePreserving_eval_infinitePi (fun _ : ℕ => κ) i).map_eq
  have hind0 : iIndepFun (fun (i : ℕ) (x : ℕ → α) => x i) Q :=
    iIndepFun_infinitePi (P := fun _ : ℕ => κ) (X := fun _ x => x) (by fun_prop)
  have hind : iIndepFun (fun (i : ℕ) (x : ℕ → α) => f (x i)) Q :=
    hind0.comp (fun _ => f) fun _ => hf
  have hind2 : iIndepFun (fun (i : ℕ) (x : ℕ → α) => f (x i) ^ 2) Q :=
    hind0.comp (fun _ y => f y ^ 2) fun _ => hf.pow_const 2
  have hfi : ∀ i, Measurable fun x : ℕ → α => f (x i) := fun i => hf.comp (measurable_pi_apply i)
  have hmapf : ∀ i, Q.map (fun x => f (x i)) = κ.map f := fun i => by
    rw [← hlaw i, Measure.map_map hf (measurable_pi_apply i)]
    rfl
  have hid : ∀ i, IdentDistrib (fun x : ℕ → α => f (x i)) (fun x => f (x 0)) Q Q := fun i =>
    ⟨(hfi i).aemeasurable, (hfi 0).aemeasurable, by rw [hmapf, hmapf]⟩
  have hid2 : ∀ i, IdentDistrib (fun x : ℕ → α => f (x i) ^ 2) (fun x => f (x 0) ^ 2) Q Q := fun i =>
    (hid i).comp (u := fun y : ℝ => y ^ 2) (by fun_prop)
  have hmem : MemLp (fun x : ℕ → α => f (x 0)) 2 Q :=
    (memLp_map_measure_iff (μ := Q) (f := fun x : ℕ → α => x 0) (g := f) hf.aestronglyMeasurable
      (measurable_pi_apply 0).aemeasurable).1 (by rw [hlaw]; exact hm)
  have hmean0 : Q[fun x : ℕ → α => f (x 0)] = m := by
    rw [hmean, ← hlaw 0, integral_map (measurable_pi_apply 0).aemeasurable hf.aestronglyMeasurable]
  have hsq0 : Q[fun x : ℕ → α => f (x 0) ^ 2] = v + m ^ 2 := by
    have : Q[fun x : ℕ → α => f (x 0) ^ 2] = ∫ x, f x ^ 2 ∂κ := by
      conv_rhs => rw [← hlaw 0]
      rw [integral_map (measurable_pi_apply 0).aemeasurable (hf.pow_const 2).aestronglyMeasurable]
    rw [this, hv, variance_eq_sub hm, hmean]
    simp
  have hvar0 : Var[fun x : ℕ → α => f (x 0); Q] = v := by
    rw [variance_eq_sub hmem, hmean0]
    have : Q[(fun x : ℕ → α => f (x 0)) ^ 2] = v + m ^ 2 := hsq0
    rw [this]
    ring
  -- the central limit theorem
  have hY : HasLaw (fun x : ℝ => √v * x) (gaussianReal 0 Var[fun x : ℕ → α => f (x 0); Q].toNNReal) (gaussianReal 0 1) := by
    refine ⟨by fun_prop, ?_⟩
    rw [gaussianReal_map_const_mul, hvar0, mul_zero, mul_one]
    congr 1
    ext
    rw [Real.coe_toNNReal _ hv0]
    exact Real.sq_sqrt hv0
  have hclt := tendstoInDistribution_inv_sqrt_mul_sum_sub (X := fun (i : ℕ) (x : ℕ → α) => f (x i)) hY hmem hind hid
  rw [hmean0] at hclt
  -- the variance of the values
  have l1 := strong_law_ae_real (fun (i : ℕ) (x : ℕ → α) => f (x i)) (hmem.integrable (by norm_num))
    (fun i j hij => hind.indepFun hij) hid
  have l2 := strong_law_ae_real (fun (i : ℕ) (x : ℕ → α) => f (x i) ^ 2) hmem.integrable_sq
    (fun i j hij => hind2.indepFun hij) hid2
  rw [hmean0] at l1
  rw [hsq0] at l2
  have hms : ∀ n : ℕ, Measurable fun x : ℕ → α => (∑ i ∈ Finset.range n, f (x i) ^ 2) / (n : ℝ)
      - ((∑ i ∈ Finset.range n, f (x i)) / (n : ℝ)) ^ 2 := fun n =>
    ((Finset.measurable_sum _ fun i _ => (hfi i).pow_const 2).div_const _).sub
      (((Finset.measurable_sum _ fun i _ => hfi i).div_const _).pow_const 2)
  have lv : ∀ᵐ x ∂Q, Tendsto (fun n : ℕ => (∑ i ∈ Finset.range n, f (x i) ^ 2) / (n : ℝ)
      - ((∑ i ∈ Finset.range n, f (x i)) / (n : ℝ)) ^ 2) atTop (𝓝 v) := by
    filter_upwards [l1, l2] with x h1 h2
    have := h2.sub (h1.pow 2)
    rwa [add_sub_cancel_right] at this
  have hpair := hclt.prodMk_of_tendstoInMeasure_const _ _ _
    (tendstoInMeasure_of_tendsto_ae (fun n => (hms n).aestronglyMeasurable) lv) fun n => (hms n).aemeasurable
  have hlim := ProbabilityMeasure.tendsto_measure_of_null_frontier_of_tendsto' hpair.tendsto (E := A) (by
    show (Measure.map _ _) _ = 0
    rw [Measure.map_apply (by fun_prop) isClosed_frontier.measurableSet]
    exact hfr)
  simp only [ProbabilityMeasure.coe_mk] at hlim
  rw [Measure.map_apply (by fun_prop) hA] at hlim
  refine hlim.congr fun n => ?_
  have hpi : Q.map (fun x (i : Fin n) => x i) = Measure.pi fun _ : Fin n => κ := by
    have := (iIndepFun_iff_map_fun_eq_pi_map (μ := Q) (f := fun (i : Fin n) (x : ℕ → α) => x i)
      fun i => (measurable_pi_apply _).aemeasurable).1 (hind0.precomp (g := fun i : Fin n => (i : ℕ)) Fin.val_injective)
    rw [this]
    congr 1
    funext i
    exact hlaw i
  have hs1 : Measurable fun x : Fin n → α => √n * ((∑ i, f (x i)) / n - m) :=
    (((Finset.measurable_sum _ fun i _ => hf.comp (measurable_pi_apply i)).div_const _).sub_const _).const_mul _
  have hs2 : Measurable fun x : Fin n → α => (∑ i, f (x i) ^ 2) / (n : ℝ) - ((∑ i, f (x i)) / n) ^ 2 :=
    ((Finset.measurable_sum _ fun i _ => (hf.comp (measurable_pi_apply i)).pow_const 2).div_const _).sub
      (((Finset.measurable_sum _ fun i _ => hf.comp (measurable_pi_apply i)).div_const _).pow_const 2)
  have hset : MeasurableSet {x : Fin n → α | (√n * ((∑ i, f (x i)) / n - m),
      (∑ i, f (x i) ^ 2) / (n : ℝ) - ((∑ i, f (x i)) / n) ^ 2) ∈ A} := (hs1.prodMk hs2) hA
  rw [← hpi, Measure.map_apply (by fun_prop) hset, Measure.map_apply_of_aemeasurable
    (((hclt.forall_aemeasurable n)).prodMk (hms n).aemeasurable) hA]
  congr 1
  ext x
  simp only [Set.mem_preimage, Set.mem_ofPred_eq, Finset.sum_range]
  have e : (√(n : ℝ))⁻¹ * (∑ i : Fin n, f (x i) - n * m) = √n * ((∑ i : Fin n, f (x i)) / n - m) := by
    rcases Nat.eq_zero_or_pos n with rfl | hn
    · simp
    · have h0 : (0 : ℝ) < n := by exact_mod_cast hn
      have h1 : √(n : ℝ) ≠ 0 := (Real.sqrt_pos.2 h0).ne'
      have h2 : √(n : ℝ) * √(n : ℝ) = n := Real.mul_self_sqrt h0.le
      rw [inv_mul_eq_iff_eq_mul₀ h1, ← mul_assoc, h2]
      field_simp
  rw [e]

end Verif
