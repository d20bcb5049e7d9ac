import Verif.Model.Constructors
import Verif.Lemmas.Shape
import Verif.Lemmas.DemoGen
import Verif.Spec.Laws
import Mathlib.Analysis.MeanInequalities
import Mathlib.Tactic.Linarith
import Mathlib.Tactic.FieldSimp

/-!
# C45: the PERT distribution
-/

namespace Verif

open MeasureTheory ProbabilityTheory Set
open Spec

/-! ## Mean and mode of a beta law -/

theorem beta_succ {a b : ℝ} (ha : 0 < a) (hb : 0 < b) : beta (a + 1) b = beta a b * (a / (a + b)) := by
  have h1 : a + 1 + b = a + b + 1 := by ring
  unfold ProbabilityTheory.beta
  rw [h1, Real.Gamma_add_one ha.ne', Real.Gamma_add_one (by positivity)]
  have := (Real.Gamma_pos_of_pos (add_pos ha hb)).ne'
  field_simp

theorem x_mul_betaPDF {a b : ℝ} (ha : 0 < a) (hb : 0 < b) (x : ℝ) :
    betaPDF a b x * ENNReal.ofReal x = ENNReal.ofReal (a / (a + b)) * betaPDF (a + 1) b x := by
  have hB := beta_pos ha hb
  have hp : (0 : ℝ) < a / (a + b) := by positivity
  by_cases hx : 0 < x ∧ x < 1
  · rw [betaPDF_of_pos_lt_one hx.1 hx.2, betaPDF_of_pos_lt_one hx.1 hx.2,
      ← ENNReal.ofReal_mul' hx.1.le, ← ENNReal.ofReal_mul hp.le, beta_succ ha hb]
    congr 1
    have hxa : x ^ (a + 1 - 1) = x ^ (a - 1) * x := by
      rw [show a + 1 - 1 = (a - 1) + 1 by ring, Real.rpow_add hx.1, Real.rpow_one]
    rw [hxa]
    field_simp
  · simp [betaPDF_eq, hx]

/-- The mean of a beta law. -/
theorem beta_mean {a b : ℝ} (ha : 0 < a) (hb : 0 < b) : ∫ x, x ∂betaMeasure a b = a / (a + b) := by
  have hp : (0 : ℝ) < a / (a + b) := by positivity
  have hm : Measurable (betaPDF a b) := by unfold betaPDF; fun_prop
  have hm' : Measurable (betaPDF (a + 1) b) := by unfold betaPDF; fun_prop
  have hae : 0 ≤ᵐ[betaMeasure a b] fun x => x := by
    rw [Filter.EventuallyLE, betaMeasure, ae_withDensity_iff hm]
    refine Filter.Eventually.of_forall fun x hx => ?_
    by_contra hneg
    exact hx (betaPDF_eq_zero_of_nonpos (le_of_lt (not_le.1 hneg)))
  rw [integral_eq_lintegral_of_nonneg_ae hae (by fun_prop), betaMeasure,
    lintegral_withDensity_eq_lintegral_mul _ hm (by fun_prop)]
  simp only [Pi.mul_apply, x_mul_betaPDF ha hb]
  rw [lintegral_const_mul _ hm', lintegral_betaPDF_eq_one (by positivity) hb, mul_one,
    ENNReal.toReal_ofReal hp.le]

theorem beta_integrable {a b : ℝ} (ha : 0 < a) (hb : 0 < b) :
    Integrable (fun x : ℝ => x) (betaMeasure a b) := by
  by_contra h
  have := beta_mean ha hb
  rw [integral_undef h] at this
  have : (0 : ℝ) < a / (a + b) := by positivity
  linarith

theorem pow_mode {a b x : ℝ} (ha : 0 ≤ a) (hb : 0 ≤ b) (hab : 0 < a + b) (h0 : 0 ≤ x) (h1 : x ≤ 1) :
    x ^ a * (1 - x) ^ b ≤ (a / (a + b)) ^ a * (b / (a + b)) ^ b := by
  rcases ha.eq_or_lt with rfl | ha'
  · have : b ≠ 0 := by intro h; subst h; simp at hab
    simp only [Real.rpow_zero, one_mul, zero_add, div_self this, Real.one_rpow]
    exact Real.rpow_le_one (by linarith) (by linarith) hb
  rcases hb.eq_or_lt with rfl | hb'
  · simp only [Real.rpow_zero, mul_one, add_zero, div_self ha'.ne', Real.one_rpow]
    exact Real.rpow_le_one h0 h1 ha
  have hw1 : 0 < a / (a + b) := by positivity
  have hw2 : 0 < b / (a + b) := by positivity
  have key := Real.geom_mean_le_arith_mean2_weighted hw1.le hw2.le
    (div_nonneg h0 hw1.le) (div_nonneg (sub_nonneg.2 h1) hw2.le) (by field_simp)
  have hr : a / (a + b) * (x / (a / (a + b))) + b / (a + b) * ((1 - x) / (b / (a + b))) = 1 := by
    field_simp
    ring
  rw [hr] at key
  have hn : 0 ≤ (x / (a / (a + b))) ^ (a / (a + b)) *
      ((1 - x) / (b / (a + b))) ^ (b / (a + b)) := by
    apply mul_nonneg <;> apply Real.rpow_nonneg
    · exact div_nonneg h0 hw1.le
    · exact div_nonneg (sub_nonneg.2 h1) hw2.le
  have key2 := Real.rpow_le_one hn key hab.le
  rw [Real.mul_rpow (Real.rpow_nonneg (div_nonneg h0 hw1.le) _)
    (Real.rpow_nonneg (div_nonneg (sub_nonneg.2 h1) hw2.le) _),
    ← Real.rpow_mul (div_nonneg h0 hw1.le), ← Real.rpow_mul (div_nonneg (sub_nonneg.2 h1) hw2.le),
    div_mul_cancel₀ _ hab.ne', div_mul_cancel₀ _ hab.ne',
    Real.div_rpow h0 hw1.le, Real.div_rpow (sub_nonneg.2 h1) hw2.le, div_mul_div_comm,
    div_le_one (by positivity)] at key2
  exact key2

/-! ## The sampler -/

theorem mapFlt_flts (f : ℝ → ℝ) (xs : List ℝ) :
    mapFlt f (.arr (xs.map Scalar.flt)) = .ok (.arr (xs.map fun x => Scalar.flt (f x))) := by
  have key : ∀ (g : Scalar ℝ → Except PyErr (Scalar ℝ)),
      (∀ x, g (.flt x) = .ok (.flt (f x))) → ∀ xs : List ℝ,
      mapExcept g (xs.map .flt) = .ok (xs.map fun x => Scalar.flt (f x)) := by
    intro g hg xs
    induction xs with
    | nil => rfl
    | cons x xs ih =>
      simp only [List.map_cons, mapExcept]
      rw [ih, hg]
      rfl
  simp only [mapFlt]
  rw [key _ (fun x => rfl)]
  rfl

/-- **C45**, sampling: a PERT sampler asks the generator for beta numbers and returns each of them
scaled from `[0,1]` to `[l,r]`. -/
theorem C45_sampler {σ : Type} (E : Env σ ℝ) (l m r lam : ℝ) (n : ℕ) (hn : 1 ≤ n) (s : St σ ℝ)
    (xs : List ℝ) (rng' : σ)
    (hdraw : E.gen.draw (.beta (pertAlpha l m r lam) (pertBeta l m r lam)) n s.rng =
      (.ok (xs.map .flt), rng')) :
    sampleObj E (.leaf (.pert l m r lam) none none) n none none s =
      (.ok (Samples.simplify (.arr (xs.map fun x => .flt (l + x * (r - l))))),
        { s with rng := rng' }) := by
  have h1 : (1 : ℝ) + lam * (m - l) / (r - l) = pertAlpha l m r lam := by unfold pertAlpha; ring
  have h2 : (1 : ℝ) + lam * (r - m) / (r - l) = pertBeta l m r lam := by unfold pertBeta; ring
  have hn0 : n ≠ 0 := by omega
  unfold sampleObj withClips
  rw [if_neg hn0]
  simp only [Obj.clips, combineL, combineR, rawObj, leafSample, h1, h2, SM.bind, SM.lift, drawSimple,
    drawSM, hdraw, SM.pure]
  match xs with
  | [] => rfl
  | [x] => rfl
  | x :: y :: ys =>
    have : mapFlt (fun x => l + x * (r - l))
        (Samples.simplify (.arr ((x :: y :: ys).map Scalar.flt))) =
        .ok (.arr ((x :: y :: ys).map fun x => Scalar.flt (l + x * (r - l)))) :=
      mapFlt_flts (fun x => l + x * (r - l)) (x :: y :: ys)
    rw [this]
    rfl

/-- **C45**: for every accepted PERT distribution both beta parameters are at least 1, and the scaled
beta variable is a probability law on `[l,r]` with mean `(l + lam*m + r)/(lam + 2)`. -/
theorem C45_law {S : Type} (l m r lam : ℝ) (lc rc : Option (Scalar ℝ)) (o : Obj S ℝ)
    (h : construct (.pert l m r lam lc rc) = .ok o) :
    o = .leaf (.pert l m r lam) lc rc ∧ 1 ≤ pertAlpha l m r lam ∧ 1 ≤ pertBeta l m r lam ∧
    IsProbabilityMeasure (betaMeasure (pertAlpha l m r lam) (pertBeta l m r lam)) ∧
    ∫ x, (l + x * (r - l)) ∂betaMeasure (pertAlpha l m r lam) (pertBeta l m r lam) =
      (l + lam * m + r) / (lam + 2) := by
  simp only [construct] at h
  split_ifs at h with h1 h2 h3 h4
  cases h
  have hlr : 0 < r - l := by
    rcases lt_or_ge l r with h | h
    · linarith
    · exact absurd (le_antisymm (by linarith) h) h4
  push Not at h1 h2 h3
  have ha : 1 ≤ pertAlpha l m r lam := by
    unfold pertAlpha
    have : 0 ≤ lam * ((m - l) / (r - l)) := mul_nonneg h3 (div_nonneg (by linarith) hlr.le)
    linarith
  have hb : 1 ≤ pertBeta l m r lam := by
    unfold pertBeta
    have : 0 ≤ lam * ((r - m) / (r - l)) := mul_nonneg h3 (div_nonneg (by linarith) hlr.le)
    linarith
  have ha0 : 0 < pertAlpha l m r lam := by linarith
  have hb0 : 0 < pertBeta l m r lam := by linarith
  have hprob := isProbabilityMeasureBeta ha0 hb0
  refine ⟨rfl, ha, hb, hprob, ?_⟩
  rw [integral_add (integrable_const _) ((beta_integrable ha0 hb0).mul_const _), integral_const,
    integral_mul_const, beta_mean ha0 hb0]
  have hs : pertAlpha l m r lam + pertBeta l m r lam = lam + 2 := by
    unfold pertAlpha pertBeta
    field_simp
    ring
  simp only [probReal_univ, smul_eq_mul, one_mul]
  rw [hs]
  unfold pertAlpha
  field_simp
  ring

/-- **C45**, mode: with `lam > 0` no point of `[0,1]` has a larger beta density (up to the normalising
constant) than the one that is scaled to the mode `m`. -/
theorem C45_mode (l m r lam x : ℝ) (hlm : l ≤ m) (hmr : m ≤ r) (hlr : l < r) (hlam : 0 < lam)
    (h0 : 0 ≤ x) (h1 : x ≤ 1) :
    x ^ (pertAlpha l m r lam - 1) * (1 - x) ^ (pertBeta l m r lam - 1) ≤
      ((m - l) / (r - l)) ^ (pertAlpha l m r lam - 1) *
        (1 - (m - l) / (r - l)) ^ (pertBeta l m r lam - 1) ∧
    l + (m - l) / (r - l) * (r - l) = m := by
  have hd : 0 < r - l := by linarith
  have ea : pertAlpha l m r lam - 1 = lam * ((m - l) / (r - l)) := by unfold pertAlpha; ring
  have eb : pertBeta l m r lam - 1 = lam * ((r - m) / (r - l)) := by unfold pertBeta; ring
  have hs : lam * ((m - l) / (r - l)) + lam * ((r - m) / (r - l)) = lam := by field_simp; ring
  refine ⟨?_, by field_simp; ring⟩
  rw [ea, eb]
  have := pow_mode (mul_nonneg hlam.le (div_nonneg (sub_nonneg.2 hlm) hd.le))
    (mul_nonneg hlam.le (div_nonneg (sub_nonneg.2 hmr) hd.le)) (by rw [hs]; exact hlam) h0 h1
  rw [hs, mul_div_cancel_left₀ _ hlam.ne', mul_div_cancel_left₀ _ hlam.ne'] at this
  have e1 : 1 - (m - l) / (r - l) = (r - m) / (r - l) := by field_simp; ring
  rw [e1]
  exact this

/-- Rejected arguments. -/
theorem C45_rejects {S : Type} (l m r lam : ℝ) (lc rc : Option (Scalar ℝ)) :
    (construct (S := S) (.pert l m r lam lc rc) = .error .valueError ↔
      ¬ (l ≤ m ∧ m ≤ r ∧ l < r ∧ 0 ≤ lam)) := by
  simp only [construct]
  split_ifs with h1 h2 h3 h4
  · simp; intro h; linarith
  · simp; intro h h'; linarith
  · simp; intro h h' _; exact h3
  · simp [h4]
  · have : l < r := lt_of_le_of_ne (by linarith) h4
    simp
    exact ⟨by linarith, by linarith, this, by linarith⟩

/-- The hypotheses are met: `pert(0, 1, 4)`. -/
example : (construct (.pert 0 1 4 4 none none) : Except PyErr (Obj Unit ℝ)) =
    .ok (.leaf (.pert 0 1 4 4) none none) := by
  simp only [construct]
  norm_num

/-- A draw of two beta numbers in a demo generator over the rationals satisfies the draw hypothesis. -/
example : demoGen.draw (.beta 2 4) 2 1 = (.ok [.flt (3 / 10), .flt (6 / 10)], 3) := by
  decide +kernel

end Verif
