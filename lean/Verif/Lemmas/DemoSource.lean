import Verif.Model.IdealSource
import Verif.Lemmas.DenoteMix
import Verif.Lemmas.UniformLaw
import Verif.Spec.Laws
import Mathlib.Probability.Distributions.Gaussian.Real

/-!
# An ideal source for the examples

One input is a pair: a uniform number and a standard normal number.
-/

namespace Verif

open MeasureTheory ProbabilityTheory

/-- Uniform, normal and lognormal numbers, dice, and chi-square numbers with one degree of freedom. -/
noncomputable def demoSource : IdealSource (ℝ × ℝ) where
  law := unitLaw.prod (gaussianReal 0 1)
  prob := inferInstance
  answer
    | .uniform a b => if a < b then some fun x => .flt (a + (b - a) * Int.fract x.1) else none
    | .normal m s => if 0 ≤ s then some fun x => .flt (m + s * x.2) else none
    | .lognormal m s => if 0 ≤ s then some fun x => .flt (Real.exp (m + s * x.2)) else none
    | .integers lo hi => if lo < hi then
        some fun x => .int (lo + ⌊Int.fract x.1 * ((hi - lo : ℤ) : ℝ)⌋) else none
    | .chisquare t => if t = 1 then some fun x => .flt (if x.2 = 0 then 1 else x.2 ^ 2) else none
    | _ => none
  support := by
    intro p q h x
    cases p with
    | uniform a b =>
      simp only [Option.ite_none_right_eq_some, Option.some.injEq] at h
      obtain ⟨hab, rfl⟩ := h
      have h0 := Int.fract_nonneg x.1
      have h1 := Int.fract_lt_one x.1
      exact ⟨_, rfl, by nlinarith, by nlinarith, fun _ => by nlinarith⟩
    | normal m s =>
      simp only [Option.ite_none_right_eq_some, Option.some.injEq] at h
      obtain ⟨-, rfl⟩ := h
      exact ⟨_, rfl⟩
    | lognormal m s =>
      simp only [Option.ite_none_right_eq_some, Option.some.injEq] at h
      obtain ⟨-, rfl⟩ := h
      exact ⟨_, rfl, Real.exp_pos _⟩
    | integers lo hi =>
      simp only [Option.ite_none_right_eq_some, Option.some.injEq] at h
      obtain ⟨hlt, rfl⟩ := h
      have h1 : (0 : ℝ) < ((hi - lo : ℤ) : ℝ) := by exact_mod_cast sub_pos.2 hlt
      refine ⟨_, rfl, ?_, ?_⟩
      · have := Int.floor_nonneg.2 (mul_nonneg (Int.fract_nonneg x.1) h1.le)
        omega
      · have : ⌊Int.fract x.1 * ((hi - lo : ℤ) : ℝ)⌋ < hi - lo := by
          rw [Int.floor_lt]
          nlinarith [Int.fract_lt_one x.1]
        omega
    | chisquare t =>
      simp only [Option.ite_none_right_eq_some, Option.some.injEq] at h
      obtain ⟨-, rfl⟩ := h
      refine ⟨_, rfl, ?_⟩
      split_ifs with h0
      · exact one_pos
      · positivity
    | _ => simp at h
  meas := by
    intro p q h
    cases p with
    | uniform a b =>
      simp only [Option.ite_none_right_eq_some, Option.some.injEq] at h
      obtain ⟨-, rfl⟩ := h
      simp only [realVal]
      fun_prop
    | normal m s | lognormal m s =>
      simp only [Option.ite_none_right_eq_some, Option.some.injEq] at h
      obtain ⟨-, rfl⟩ := h
      simp only [realVal]
      fun_prop
    | integers lo hi =>
      simp only [Option.ite_none_right_eq_some, Option.some.injEq] at h
      obtain ⟨-, rfl⟩ := h
      simp only [realVal, Int.cast_add]
      have : Measurable fun x : ℝ × ℝ => ⌊Int.fract x.1 * ((hi - lo : ℤ) : ℝ)⌋ :=
        Int.measurable_floor.comp (by fun_prop)
      exact measurable_const.add ((measurable_of_countable (fun z : ℤ => (z : ℝ))).comp this)
    | chisquare t =>
      simp only [Option.ite_none_right_eq_some, Option.some.injEq] at h
      obtain ⟨-, rfl⟩ := h
      simp only [realVal]
      exact Measurable.ite (measurable_snd (measurableSet_singleton 0)) measurable_const (by fun_prop)
    | _ => simp at h

theorem demoSource_uniform_between {a b : ℝ} (hab : a < b) :
    demoSource.primLaw (.uniform a b) = some (Spec.uniformLaw a b) := by
  have e : demoSource.answer (.uniform a b) = some fun x => .flt (a + (b - a) * Int.fract x.1) := by
    simp [demoSource, hab]
  simp only [IdealSource.primLaw, e, Option.map_some, realVal, Option.some.injEq]
  have h1 : (fun x : ℝ × ℝ => a + (b - a) * Int.fract x.1) = (fun u => a + (b - a) * Int.fract u) ∘ Prod.fst := rfl
  rw [h1, ← Measure.map_map (by fun_prop) measurable_fst]
  have h2 : demoSource.law.map Prod.fst = unitLaw := by
    show (unitLaw.prod (gaussianReal 0 1)).map Prod.fst = _
    rw [Measure.map_fst_prod]
    simp
  rw [h2]
  have h3 : (fun u : ℝ => a + (b - a) * Int.fract u) =ᵐ[unitLaw] fun u => a + (b - a) * u := by
    rw [unitLaw]
    filter_upwards [ae_restrict_mem measurableSet_Ico] with x hx
    rw [Int.fract_eq_self.2 hx]
  rw [Measure.map_congr h3, uniformLaw_of_unit hab]

theorem demoSource_uniform : demoSource.primLaw (.uniform 0 1) = some (volume.restrict (Set.Ico 0 1)) := by
  rw [demoSource_uniform_between one_pos, uniformLaw_unit]
  rfl

theorem demoSource_normal (m : ℝ) {s : ℝ} (hs : 0 ≤ s) :
    demoSource.primLaw (.normal m s) = some (Spec.normalLaw m s) := by
  have e : demoSource.answer (.normal m s) = some fun x => .flt (m + s * x.2) := by
    simp [demoSource, hs]
  simp only [IdealSource.primLaw, e, Option.map_some, realVal, Option.some.injEq]
  have h1 : (fun x : ℝ × ℝ => m + s * x.2) = (m + ·) ∘ (s * ·) ∘ Prod.snd := rfl
  rw [h1, ← Measure.map_map (by fun_prop) (by fun_prop), ← Measure.map_map (by fun_prop) measurable_snd]
  have h2 : demoSource.law.map Prod.snd = gaussianReal 0 1 := by
    show (unitLaw.prod (gaussianReal 0 1)).map Prod.snd = _
    rw [Measure.map_snd_prod]
    simp
  rw [h2, gaussianReal_map_const_mul, gaussianReal_map_const_add, Spec.normalLaw]
  congr 1
  · ring
  · rw [mul_one]

theorem demoSource_lognormal (m : ℝ) {s : ℝ} (hs : 0 ≤ s) :
    demoSource.primLaw (.lognormal m s) = some (Spec.lognormalLaw m s) := by
  have h := demoSource_normal m hs
  have e : demoSource.answer (.normal m s) = some fun x => .flt (m + s * x.2) := by
    simp [demoSource, hs]
  have e' : demoSource.answer (.lognormal m s) = some fun x => .flt (Real.exp (m + s * x.2)) := by
    simp [demoSource, hs]
  simp only [IdealSource.primLaw, e, e', Option.map_some, realVal, Option.some.injEq] at h ⊢
  rw [Spec.lognormalLaw, ← h, Measure.map_map Real.measurable_exp (by fun_prop)]
  rfl

/-- Chi-square numbers with one degree of freedom are squares of standard normal numbers. -/
theorem demoSource_chisquare :
    demoSource.primLaw (.chisquare 1) = some ((gaussianReal 0 1).map fun z => z ^ 2) := by
  have e : demoSource.answer (.chisquare 1) = some fun x => .flt (if x.2 = 0 then 1 else x.2 ^ 2) := by
    simp [demoSource]
  simp only [IdealSource.primLaw, e, Option.map_some, realVal, Option.some.injEq]
  have hm : Measurable fun z : ℝ => if z = 0 then (1 : ℝ) else z ^ 2 :=
    Measurable.ite (measurableSet_singleton 0) measurable_const (by fun_prop)
  have h1 : (fun x : ℝ × ℝ => if x.2 = 0 then (1 : ℝ) else x.2 ^ 2)
      = (fun z : ℝ => if z = 0 then (1 : ℝ) else z ^ 2) ∘ Prod.snd := rfl
  rw [h1, ← Measure.map_map hm measurable_snd]
  have h2 : demoSource.law.map Prod.snd = gaussianReal 0 1 := by
    show (unitLaw.prod (gaussianReal 0 1)).map Prod.snd = _
    rw [Measure.map_snd_prod]
    simp
  rw [h2]
  refine Measure.map_congr ?_
  have h0 : ∀ᵐ z ∂(gaussianReal 0 1), z ≠ 0 := by
    have := nullSingletonClass_gaussianReal (μ := 0) (v := 1) one_ne_zero
    exact measure_eq_zero_iff_ae_notMem.1 (measure_singleton 0)
  filter_upwards [h0] with z hz
  rw [if_neg hz]

end Verif
