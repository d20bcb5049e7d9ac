import Verif.Spec.UniformLaw
import Verif.Lemmas.DenoteMix

/-!
# Scaled and shifted uniform laws
-/

namespace Verif

open MeasureTheory Spec

theorem uniformLaw_unit : uniformLaw 0 1 = unitLaw := by
  simp [uniformLaw, unitLaw]

/-- Lebesgue measure of an interval, scaled and shifted. -/
theorem volume_affine {k : ℝ} (hk : k ≠ 0) (c : ℝ) :
    (volume : Measure ℝ).map (fun x => k * x + c) = ENNReal.ofReal |k⁻¹| • volume := by
  have : (fun x : ℝ => k * x + c) = (· + c) ∘ (k * ·) := rfl
  rw [this, ← Measure.map_map (by fun_prop) (by fun_prop), Real.map_volume_mul_left hk, Measure.map_smul,
    map_add_right_eq_self]

theorem uniformLaw_affine {a b k : ℝ} (hab : a < b) (hk : k ≠ 0) (c : ℝ) :
    (uniformLaw a b).map (fun x => k * x + c)
      = if 0 < k then uniformLaw (k * a + c) (k * b + c) else uniformLaw (k * b + c) (k * a + c) := by
  have hm : Measurable fun x : ℝ => k * x + c := by fun_prop
  have hinv : ENNReal.ofReal |k⁻¹| = (ENNReal.ofReal |k|)⁻¹ := by
    rw [abs_inv, ENNReal.ofReal_inv_of_pos (abs_pos.2 hk)]
  have hk0 : ENNReal.ofReal |k| ≠ 0 := by simpa using hk
  have hr : ∀ s, MeasurableSet s → (volume.restrict ((fun x : ℝ => k * x + c) ⁻¹' s)).map (fun x => k * x + c)
      = (ENNReal.ofReal |k|)⁻¹ • volume.restrict s := fun s hs => by
    rw [← Measure.restrict_map hm hs, volume_affine hk, Measure.restrict_smul, hinv]
  split_ifs with hpos
  · have hpre : Set.Ico a b = (fun x : ℝ => k * x + c) ⁻¹' Set.Ico (k * a + c) (k * b + c) := by
      ext x
      simp [hpos]
    rw [uniformLaw, Measure.map_smul, hpre, hr _ measurableSet_Ico, smul_smul, uniformLaw, abs_of_pos hpos,
      ← ENNReal.mul_inv (Or.inr ENNReal.ofReal_ne_top) (Or.inl ENNReal.ofReal_ne_top),
      ← ENNReal.ofReal_mul (by linarith)]
    congr 3
    ring
  · have hneg : k < 0 := lt_of_le_of_ne (not_lt.1 hpos) hk
    have hpre : Set.Ico a b = (fun x : ℝ => k * x + c) ⁻¹' Set.Ioc (k * b + c) (k * a + c) := by
      ext x
      simp [hneg, and_comm]
    rw [uniformLaw, Measure.map_smul, hpre, hr _ measurableSet_Ioc, smul_smul, uniformLaw, abs_of_neg hneg,
      ← ENNReal.mul_inv (Or.inr ENNReal.ofReal_ne_top) (Or.inl ENNReal.ofReal_ne_top),
      ← ENNReal.ofReal_mul (by linarith), Measure.restrict_congr_set (Ioc_ae_eq_Icc.trans Ico_ae_eq_Icc.symm)]
    congr 3
    ring

theorem uniformLaw_of_unit {a b : ℝ} (hab : a < b) :
    unitLaw.map (fun u => a + (b - a) * u) = uniformLaw a b := by
  have e : (fun u => a + (b - a) * u) = fun u => (b - a) * u + a := by funext; ring
  rw [e, ← uniformLaw_unit, uniformLaw_affine one_pos (by linarith : b - a ≠ 0) a, if_pos (by linarith)]
  simp

instance {a b : ℝ} [h : Fact (a < b)] : IsProbabilityMeasure (uniformLaw a b) := by
  rw [← uniformLaw_of_unit h.out]
  exact Measure.isProbabilityMeasure_map (by fun_prop)

end Verif
