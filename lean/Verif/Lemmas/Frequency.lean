import Verif.Lemmas.Stream
import Mathlib.Probability.Independence.InfinitePi
import Mathlib.Probability.Moments.SubGaussian

/-!
# Helper lemmas: frequencies of independent values (Hoeffding's inequality)
-/

namespace Verif

open MeasureTheory ProbabilityTheory

theorem countP_ofFn {α : Type} (q : α → Bool) {n : ℕ} (x : Fin n → α) :
    (((List.ofFn x).countP q : ℕ) : ℝ) = ∑ i, {x | q x = true}.indicator (fun _ => (1 : ℝ)) (x i) := by
  induction n with
  | zero => simp
  | succ n ih =>
    rw [List.ofFn_succ, List.countP_cons, Fin.sum_univ_succ, Nat.cast_add, ih, add_comm]
    by_cases h : q (x 0) = true <;> simp [h]

/-- The frequency of a condition among `n` independent values. -/
theorem frequency_bound {Ω α : Type} [MeasurableSpace Ω] [MeasurableSpace α] {P : Measure Ω}
    [IsProbabilityMeasure P] {n : ℕ} (hn : 1 ≤ n) {X : Fin n → Ω → α} (hX : ∀ i, Measurable (X i))
    {μ : Measure α} [IsProbabilityMeasure μ] (hlaw : ∀ i, P.map (X i) = μ) (hind : iIndepFun X P)
    (q : α → Bool) (hA : MeasurableSet {x | q x = true}) {ε : ℝ} (hε : 0 < ε) :
    P.real {ω | ε ≤ |(((List.ofFn fun i => X i ω).countP q : ℕ) : ℝ) / n - μ.real {x | q x = true}|}
      ≤ 2 * Real.exp (-2 * n * ε ^ 2) := by
  set A := {x | q x = true} with hAdef
  have hn0 : (0 : ℝ) < n := by exact_mod_cast hn
  have hg : Measurable (A.indicator fun _ => (1 : ℝ)) := measurable_const.indicator hA
  let Y : Fin n → Ω → ℝ := fun i ω => A.indicator (fun _ => (1 : ℝ)) (X i ω)
  have hYm : ∀ i, Measurable (Y i) := fun i => hg.comp (hX i)
  have hYmean : ∀ i, P[Y i] = μ.real A := fun i => by
    have : P[Y i] = ∫ x, A.indicator (fun _ => (1 : ℝ)) x ∂μ := by
      rw [← hlaw i, integral_map (hX i).aemeasurable hg.aestronglyMeasurable]
    rw [this, integral_indicator_const _ hA]
    simp
  have hY01 : ∀ i, ∀ᵐ ω ∂P, Y i ω ∈ Set.Icc (0 : ℝ) 1 := fun i => Filter.Eventually.of_forall fun ω => by
    by_cases h : X i ω ∈ A <;> simp [Y, h]
  have hsub : ∀ i, HasSubgaussianMGF (fun ω => Y i ω - μ.real A) ((‖(1 : ℝ) - 0‖₊ / 2) ^ 2) P := fun i => by
    have := hasSubgaussianMGF_of_mem_Icc (hYm i).aemeasurable (hY01 i)
    rwa [hYmean i] at this
  have hindY : iIndepFun (fun i ω => Y i ω - μ.real A) P :=
    hind.comp (fun _ x => A.indicator (fun _ => (1 : ℝ)) x - μ.real A) fun _ => hg.sub_const _
  have hindY' : iIndepFun (fun i ω => -(Y i ω - μ.real A)) P :=
    hindY.comp (fun _ x => -x) fun _ => measurable_neg
  have h1 := HasSubgaussianMGF.measure_sum_ge_le_of_iIndepFun hindY (s := Finset.univ)
    (fun i _ => hsub i) (ε := n * ε) (by positivity)
  have h2 := HasSubgaussianMGF.measure_sum_ge_le_of_iIndepFun hindY' (s := Finset.univ)
    (fun i _ => (hsub i).neg) (ε := n * ε) (by positivity)
  have hc : -(n * ε) ^ 2 / (2 * ((∑ _i : Fin n, ((‖(1 : ℝ) - 0‖₊ / 2) ^ 2 : NNReal) : NNReal) : ℝ))
      = -2 * n * ε ^ 2 := by
    simp
    field_simp
  rw [hc] at h1 h2
  rw [two_mul]
  refine le_trans ?_ ((measureReal_union_le _ _).trans (add_le_add h1 h2))
  refine ENNReal.toReal_mono (measure_ne_top _ _) (measure_mono fun ω hω => ?_)
  by_contra hlt
  have hcount : (((List.ofFn fun i => X i ω).countP q : ℕ) : ℝ) = ∑ i, Y i ω := countP_ofFn q _
  have hlt' : ¬ (n * ε ≤ ∑ i, (Y i ω - μ.real A)) ∧ ¬ (n * ε ≤ ∑ i, -(Y i ω - μ.real A)) :=
    not_or.1 hlt
  rw [Finset.sum_neg_distrib, Finset.sum_sub_distrib] at hlt'
  simp only [Finset.sum_const, Finset.card_univ, Fintype.card_fin, nsmul_eq_mul] at hlt'
  refine absurd (show ε ≤ |_| from hω) (not_le.2 ?_)
  rw [hcount]
  have e2 : (∑ i, Y i ω) / n - μ.real A = (∑ i, Y i ω - n * μ.real A) / n := by
    field_simp
  rw [e2, abs_div, abs_of_pos hn0, div_lt_iff₀ hn0, abs_lt]
  constructor <;> linarith [hlt'.1, hlt'.2]

/-- Independent components of a vector with a product law. -/
theorem iIndep_of_pi {Ω α : Type} [MeasurableSpace Ω] [MeasurableSpace α] {P : Measure Ω}
    [IsProbabilityMeasure P] {n : ℕ} {X : Ω → Fin n → α} (hX : Measurable X) {μ : Measure α}
    [IsProbabilityMeasure μ] (h : P.map X = Measure.pi fun _ => μ) :
    (∀ i, P.map (fun ω => X ω i) = μ) ∧ iIndepFun (fun i ω => X ω i) P := by
  have hXi : ∀ i, P.map (fun ω => X ω i) = μ := by
    intro i
    have e : (fun ω => X ω i) = (fun x : Fin n → α => x i) ∘ X := rfl
    rw [e, ← Measure.map_map (measurable_pi_apply i) hX, h]
    simpa using (measurePreserving_eval (fun _ : Fin n => μ) i).map_eq
  refine ⟨hXi, (iIndepFun_iff_map_fun_eq_pi_map fun i => by fun_prop).2 ?_⟩
  simp_rw [hXi]
  exact h

end Verif
