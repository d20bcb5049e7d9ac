import Verif.Lemmas.LawChances
import Verif.Lemmas.Denote
import Verif.Spec.Outcomes

/-!
# Laws with a list of outcomes
-/

namespace Verif

open MeasureTheory ProbabilityTheory Spec

/-- The law with the listed outcomes and chances. -/
noncomputable def finiteLaw (t : List (ℝ × ℝ)) : Measure ℝ :=
  (t.map fun p => ENNReal.ofReal p.2 • Measure.dirac p.1).sum

theorem finiteLaw_nil : finiteLaw [] = 0 := rfl

theorem finiteLaw_cons (p : ℝ × ℝ) (t : List (ℝ × ℝ)) :
    finiteLaw (p :: t) = ENNReal.ofReal p.2 • Measure.dirac p.1 + finiteLaw t := rfl

instance finiteLaw_finite (t : List (ℝ × ℝ)) : IsFiniteMeasure (finiteLaw t) := by
  induction t with
  | nil => rw [finiteLaw_nil]; infer_instance
  | cons p t ih =>
    rw [finiteLaw_cons]
    have : IsFiniteMeasure (ENNReal.ofReal p.2 • Measure.dirac p.1) := Measure.smul_finite _ ENNReal.ofReal_ne_top
    infer_instance

theorem finiteLaw_append (t u : List (ℝ × ℝ)) : finiteLaw (t ++ u) = finiteLaw t + finiteLaw u := by
  rw [finiteLaw, List.map_append, List.sum_append]
  rfl

theorem finiteLaw_map (t : List (ℝ × ℝ)) {f : ℝ → ℝ} (hf : Measurable f) :
    (finiteLaw t).map f = finiteLaw (t.map fun p => (f p.1, p.2)) := by
  induction t with
  | nil => simp [finiteLaw_nil]
  | cons p t ih =>
    rw [List.map_cons, finiteLaw_cons, finiteLaw_cons, Measure.map_add _ _ hf, ih, Measure.map_smul,
      Measure.map_dirac' hf]

theorem finiteLaw_smul {w : ℝ} (hw : 0 ≤ w) (t : List (ℝ × ℝ)) :
    ENNReal.ofReal w • finiteLaw t = finiteLaw (t.map fun p => (p.1, w * p.2)) := by
  induction t with
  | nil => simp [finiteLaw_nil]
  | cons p t ih =>
    rw [List.map_cons, finiteLaw_cons, finiteLaw_cons, smul_add, ih, smul_smul, ENNReal.ofReal_mul hw]

theorem finiteLaw_flatMap {α : Type} (l : List α) (t : α → List (ℝ × ℝ)) :
    finiteLaw (l.flatMap t) = (l.map fun a => finiteLaw (t a)).sum := by
  induction l with
  | nil => rfl
  | cons a l ih => rw [List.flatMap_cons, finiteLaw_append, ih, List.map_cons, List.sum_cons]

theorem finiteLaw_mix {k : ℕ} (t : Fin k → List (ℝ × ℝ)) {w : Fin k → ℝ} (hw : ∀ i, 0 ≤ w i) :
    ∑ i : Fin k, ENNReal.ofReal (w i) • finiteLaw (t i)
      = finiteLaw ((List.finRange k).flatMap fun i => (t i).map fun p => (p.1, w i * p.2)) := by
  rw [finiteLaw_flatMap, Fin.sum_univ_def]
  congr 1
  refine List.map_congr_left fun i _ => ?_
  rw [finiteLaw_smul (hw i)]

theorem finiteLaw_prod (t u : List (ℝ × ℝ)) (ht : ∀ p ∈ t, 0 ≤ p.2) {g : ℝ → ℝ → ℝ}
    (hg : Measurable fun p : ℝ × ℝ => g p.1 p.2) :
    ((finiteLaw t).prod (finiteLaw u)).map (fun p => g p.1 p.2)
      = finiteLaw (t.flatMap fun p => u.map fun q => (g p.1 q.1, p.2 * q.2)) := by
  induction t with
  | nil => simp [finiteLaw_nil]
  | cons p t ih =>
    have : IsFiniteMeasure (ENNReal.ofReal p.2 • Measure.dirac p.1) := Measure.smul_finite _ ENNReal.ofReal_ne_top
    rw [List.flatMap_cons, finiteLaw_append, ← ih fun q hq => ht q (List.mem_cons_of_mem _ hq), finiteLaw_cons,
      Measure.add_prod, Measure.map_add _ _ hg]
    congr 1
    have hm : Measurable fun y => g p.1 y := hg.comp (measurable_const.prodMk measurable_id)
    rw [Measure.prod_smul_left, Measure.map_smul, Measure.dirac_prod, Measure.map_map hg (by fun_prop)]
    have := finiteLaw_map u hm
    have e : ((fun p : ℝ × ℝ => g p.1 p.2) ∘ Prod.mk p.1) = fun y => g p.1 y := rfl
    rw [e, this, finiteLaw_smul (ht p List.mem_cons_self), List.map_map]
    rfl

theorem finiteLaw_ae (t : List (ℝ × ℝ)) : ∀ᵐ x ∂(finiteLaw t), ∃ p ∈ t, p.1 = x := by
  induction t with
  | nil => simp [finiteLaw_nil]
  | cons p t ih =>
    rw [finiteLaw_cons, ae_add_measure_iff]
    constructor
    · refine Measure.ae_smul_measure ?_ _
      rw [ae_dirac_eq]
      exact ⟨p, List.mem_cons_self, rfl⟩
    · filter_upwards [ih] with x hx
      obtain ⟨q, hq, e⟩ := hx
      exact ⟨q, List.mem_cons_of_mem _ hq, e⟩

theorem finiteLaw_integral {t : List (ℝ × ℝ)} (ht : ∀ p ∈ t, 0 ≤ p.2) (f : ℝ → ℝ) :
    Integrable f (finiteLaw t) ∧ ∫ x, f x ∂(finiteLaw t) = expectOf t f := by
  induction t with
  | nil => simp [finiteLaw_nil, expectOf]
  | cons p t ih =>
    obtain ⟨h1, h2⟩ := ih fun q hq => ht q (List.mem_cons_of_mem _ hq)
    have hi : Integrable f (ENNReal.ofReal p.2 • Measure.dirac p.1) :=
      (integrable_dirac (by simp)).smul_measure ENNReal.ofReal_ne_top
    rw [finiteLaw_cons]
    refine ⟨hi.add_measure h1, ?_⟩
    rw [integral_add_measure hi h1, h2, integral_smul_measure, integral_dirac,
      ENNReal.toReal_ofReal (ht p List.mem_cons_self), smul_eq_mul]
    rfl

open Classical in
theorem expectOf_indicator (t : List (ℝ × ℝ)) (q : ℝ → Prop) :
    expectOf t (fun x => if q x then 1 else 0) = chanceOf t q := by
  unfold expectOf chanceOf
  induction t with
  | nil => rfl
  | cons p t ih =>
    rw [List.map_cons, List.sum_cons, ih, List.filter_cons]
    by_cases h : q p.1 <;> simp [h]

theorem finiteLaw_real {t : List (ℝ × ℝ)} (ht : ∀ p ∈ t, 0 ≤ p.2) {q : ℝ → Prop} (hq : MeasurableSet {x | q x}) :
    (finiteLaw t).real {x | q x} = chanceOf t q := by
  classical
  rw [← integral_indicator_one hq, ← expectOf_indicator, ← (finiteLaw_integral ht _).2]
  rfl

/-- A law is the listed one if it gives every set the listed chance. -/
theorem finiteLaw_ext {μ : Measure ℝ} [IsFiniteMeasure μ] {t : List (ℝ × ℝ)} (ht : ∀ p ∈ t, 0 ≤ p.2)
    (h : ∀ f : ℝ → ℝ, Measurable f → ∫ x, f x ∂μ = expectOf t f) : μ = finiteLaw t := by
  ext A hA
  have h1 := h (A.indicator 1) (measurable_one.indicator hA)
  rw [← (finiteLaw_integral ht _).2, integral_indicator_one hA, integral_indicator_one hA] at h1
  exact (measureReal_eq_measureReal_iff).1 h1

theorem list_range_sum (n : ℕ) (f : ℕ → ℝ) : ((List.range n).map f).sum = ∑ k ∈ Finset.range n, f k := by
  induction n with
  | zero => rfl
  | succ n ih => rw [List.range_succ, List.map_append, List.sum_append, ih, Finset.sum_range_succ]; simp

theorem die_finite {s : ℕ} (hs : 1 ≤ s) :
    integersLaw 1 (s + 1) = finiteLaw ((List.range s).map fun k : ℕ => ((k : ℝ) + 1, 1 / (s : ℝ))) := by
  have := integersLaw_prob (lo := 1) (hi := s + 1) (by omega)
  refine finiteLaw_ext ?_ fun f _ => ?_
  · intro p hp
    obtain ⟨k, -, rfl⟩ := List.mem_map.1 hp
    positivity
  rw [(integersLaw_integral (by omega) f).2, expectOf, List.map_map, list_range_sum, Finset.sum_div]
  symm
  refine Finset.sum_bij (fun (k : ℕ) _ => (k : ℤ) + 1) ?_ ?_ ?_ ?_
  · intro k hk
    simp only [Finset.mem_range] at hk
    simp only [Finset.mem_Ico]
    omega
  · intro a _ b _ h
    omega
  · intro b hb
    simp only [Finset.mem_Ico] at hb
    exact ⟨(b - 1).toNat, by simp only [Finset.mem_range]; omega, by omega⟩
  · intro k _
    simp only [Function.comp]
    push_cast
    ring

theorem binomial_finite (n : ℕ) (p : unitInterval) :
    (binomial n p).map (fun k : ℕ => (k : ℝ))
      = finiteLaw ((List.range (n + 1)).map fun k : ℕ => ((k : ℝ), binomialChance n p k)) := by
  have : IsProbabilityMeasure ((binomial n p).map (fun k : ℕ => (k : ℝ))) :=
    Measure.isProbabilityMeasure_map (by fun_prop)
  have h0 : (0 : ℝ) ≤ p := p.2.1
  have h1 : (0 : ℝ) ≤ 1 - p := sub_nonneg.2 p.2.2
  refine finiteLaw_ext ?_ fun f hf => ?_
  · intro q hq
    obtain ⟨k, -, rfl⟩ := List.mem_map.1 hq
    simp only [binomialChance]
    positivity
  rw [integral_map (by fun_prop) hf.aestronglyMeasurable, binomial_sum, expectOf, List.map_map, list_range_sum]
  refine Finset.sum_congr rfl fun k _ => ?_
  simp [bernsteinPolynomial, binomialChance]
  ring

theorem bernoulli_finite {p : ℝ} (h0 : 0 ≤ p) (h1 : p ≤ 1) :
    unitLaw.map (fun u : ℝ => if u < p then (1 : ℝ) else 0) = finiteLaw [(1, p), (0, 1 - p)] := by
  have hu : IsProbabilityMeasure unitLaw := by rw [← uniformLaw_unit]; exact uniformLaw_prob one_pos
  have hm : Measurable fun u : ℝ => if u < p then (1 : ℝ) else 0 :=
    Measurable.ite measurableSet_Iio measurable_const measurable_const
  have := Measure.isProbabilityMeasure_map (μ := unitLaw) hm.aemeasurable
  refine finiteLaw_ext ?_ fun f hf => ?_
  · intro q hq
    simp only [List.mem_cons, List.not_mem_nil, or_false] at hq
    rcases hq with rfl | rfl
    · exact h0
    · exact sub_nonneg.2 h1
  rw [integral_map hm.aemeasurable hf.aestronglyMeasurable, (bernoulli_integral h0 h1 f).2]
  simp [expectOf]

theorem items_finite {rs : List ℝ} (hr : rs ≠ []) :
    (rs.length : ENNReal)⁻¹ • (rs.map Measure.dirac).sum = finiteLaw (rs.map fun r => (r, 1 / (rs.length : ℝ))) := by
  have hl : (0 : ℝ) < rs.length := by exact_mod_cast List.length_pos_iff.2 hr
  have e : (rs.length : ENNReal)⁻¹ = ENNReal.ofReal (1 / (rs.length : ℝ)) := by
    rw [one_div, ENNReal.ofReal_inv_of_pos hl, ENNReal.ofReal_natCast]
  rw [e]
  generalize 1 / (rs.length : ℝ) = c
  clear hl hr e
  induction rs with
  | nil => simp [finiteLaw_nil]
  | cons r rs ih => rw [List.map_cons, List.map_cons, finiteLaw_cons, List.sum_cons, smul_add, ih]

theorem table_finite (ws rs : List ℝ) :
    ((ws.zip rs).map fun p => ENNReal.ofReal p.1 • Measure.dirac p.2).sum = finiteLaw (rs.zip ws) := by
  induction ws generalizing rs with
  | nil => simp [finiteLaw_nil]
  | cons w ws ih =>
    cases rs with
    | nil => simp [finiteLaw_nil]
    | cons r rs => rw [List.zip_cons_cons, List.zip_cons_cons, finiteLaw_cons, List.map_cons, List.sum_cons, ih]

end Verif
