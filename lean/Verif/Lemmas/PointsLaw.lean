import Mathlib.MeasureTheory.Measure.GiryMonad
import Mathlib.MeasureTheory.Integral.Bochner.Basic

/-!
# Helper lemmas: laws given by a list of values with their chances
-/

namespace Verif

open MeasureTheory

variable {α β : Type} [MeasurableSpace α] [MeasurableSpace β]

/-- The law with the listed values and chances. -/
noncomputable def pointsLaw (t : List (α × ℝ)) : Measure α :=
  (t.map fun p => ENNReal.ofReal p.2 • Measure.dirac p.1).sum

theorem pointsLaw_nil : pointsLaw ([] : List (α × ℝ)) = 0 := rfl

theorem pointsLaw_cons (p : α × ℝ) (t : List (α × ℝ)) :
    pointsLaw (p :: t) = ENNReal.ofReal p.2 • Measure.dirac p.1 + pointsLaw t := rfl

theorem pointsLaw_one (a : α) : pointsLaw [(a, 1)] = Measure.dirac a := by
  rw [pointsLaw_cons, pointsLaw_nil, ENNReal.ofReal_one, one_smul, add_zero]

theorem pointsLaw_append (t u : List (α × ℝ)) : pointsLaw (t ++ u) = pointsLaw t + pointsLaw u := by
  rw [pointsLaw, List.map_append, List.sum_append]
  rfl

instance pointsLaw_finite (t : List (α × ℝ)) : IsFiniteMeasure (pointsLaw t) := by
  induction t with
  | nil => rw [pointsLaw_nil]; infer_instance
  | cons p t ih =>
    rw [pointsLaw_cons]
    have : IsFiniteMeasure (ENNReal.ofReal p.2 • Measure.dirac p.1) := Measure.smul_finite _ ENNReal.ofReal_ne_top
    infer_instance

theorem pointsLaw_smul {w : ℝ} (hw : 0 ≤ w) (t : List (α × ℝ)) :
    ENNReal.ofReal w • pointsLaw t = pointsLaw (t.map fun p => (p.1, w * p.2)) := by
  induction t with
  | nil => simp [pointsLaw_nil]
  | cons p t ih =>
    rw [List.map_cons, pointsLaw_cons, pointsLaw_cons, smul_add, ih, smul_smul, ENNReal.ofReal_mul hw]

theorem pointsLaw_flatMap {ι : Type} (l : List ι) (t : ι → List (α × ℝ)) :
    pointsLaw (l.flatMap t) = (l.map fun a => pointsLaw (t a)).sum := by
  induction l with
  | nil => rfl
  | cons a l ih => rw [List.flatMap_cons, pointsLaw_append, ih, List.map_cons, List.sum_cons]

theorem pointsLaw_map (t : List (α × ℝ)) {f : α → β} (hf : Measurable f) :
    (pointsLaw t).map f = pointsLaw (t.map fun p => (f p.1, p.2)) := by
  induction t with
  | nil => simp [pointsLaw_nil]
  | cons p t ih =>
    rw [List.map_cons, pointsLaw_cons, pointsLaw_cons, Measure.map_add _ _ hf, ih, Measure.map_smul,
      Measure.map_dirac' hf]

theorem pointsLaw_bind (t : List (α × ℝ)) {κ : α → Measure β} (hκ : Measurable κ) :
    (pointsLaw t).bind κ = (t.map fun p => ENNReal.ofReal p.2 • κ p.1).sum := by
  induction t with
  | nil => simp [pointsLaw_nil]
  | cons p t ih =>
    rw [pointsLaw_cons, List.map_cons, List.sum_cons, ← ih]
    ext s hs
    rw [Measure.bind_apply hs hκ.aemeasurable, lintegral_add_measure, lintegral_smul_measure,
      lintegral_dirac' (f := fun a => κ a s) _ ((Measure.measurable_coe hs).comp hκ), Measure.add_apply,
      Measure.bind_apply hs hκ.aemeasurable]
    rfl

theorem pointsLaw_real {t : List (α × ℝ)} (ht : ∀ p ∈ t, 0 ≤ p.2) {q : α → Prop} [DecidablePred q]
    (hq : MeasurableSet {x | q x}) :
    (pointsLaw t).real {x | q x} = ((t.filter fun p => decide (q p.1)).map Prod.snd).sum := by
  induction t with
  | nil => simp [pointsLaw_nil]
  | cons p t ih =>
    have h0 := ht p List.mem_cons_self
    have hfin : (ENNReal.ofReal p.2 • Measure.dirac p.1) {x | q x} ≠ ⊤ := by
      have : IsFiniteMeasure (ENNReal.ofReal p.2 • Measure.dirac p.1) := Measure.smul_finite _ ENNReal.ofReal_ne_top
      exact measure_ne_top _ _
    rw [pointsLaw_cons, measureReal_add_apply hfin, ih fun r hr => ht r (List.mem_cons_of_mem _ hr),
      List.filter_cons]
    have : (ENNReal.ofReal p.2 • Measure.dirac p.1).real {x | q x} = if q p.1 then p.2 else 0 := by
      rw [measureReal_ennreal_smul_apply, ENNReal.toReal_ofReal h0, Measure.real, Measure.dirac_apply' _ hq]
      by_cases h : q p.1 <;> simp [h]
    rw [this]
    by_cases h : q p.1 <;> simp [h]

theorem pointsLaw_integral {t : List (α × ℝ)} (ht : ∀ p ∈ t, 0 ≤ p.2) {f : α → ℝ} (hf : Measurable f) :
    Integrable f (pointsLaw t) ∧ ∫ x, f x ∂(pointsLaw t) = (t.map fun p => p.2 * f p.1).sum := by
  induction t with
  | nil => simp [pointsLaw_nil]
  | cons p t ih =>
    obtain ⟨h1, h2⟩ := ih fun q hq => ht q (List.mem_cons_of_mem _ hq)
    have hd : Integrable f (Measure.dirac p.1) := by
      refine ⟨hf.aestronglyMeasurable, ?_⟩
      rw [HasFiniteIntegral, lintegral_dirac' _ hf.enorm]
      exact enorm_lt_top
    have hi : Integrable f (ENNReal.ofReal p.2 • Measure.dirac p.1) := hd.smul_measure ENNReal.ofReal_ne_top
    rw [pointsLaw_cons]
    refine ⟨hi.add_measure h1, ?_⟩
    rw [integral_add_measure hi h1, h2, integral_smul_measure, integral_dirac' _ _ hf.stronglyMeasurable,
      ENNReal.toReal_ofReal (ht p List.mem_cons_self), smul_eq_mul]
    rfl

theorem pointsLaw_prob {t : List (α × ℝ)} (ht : ∀ p ∈ t, 0 ≤ p.2) (hs : (t.map Prod.snd).sum = 1) :
    IsProbabilityMeasure (pointsLaw t) := by
  refine ⟨?_⟩
  have h := pointsLaw_real ht (q := fun _ => True) MeasurableSet.univ
  have e : (pointsLaw t).real Set.univ = 1 := by
    rw [show (Set.univ : Set α) = {x | True} from rfl, h]
    simpa using hs
  rw [Measure.real, ENNReal.toReal_eq_one_iff] at e
  exact e

end Verif
