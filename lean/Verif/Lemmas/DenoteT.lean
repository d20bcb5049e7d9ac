import Verif.Lemmas.DenoteDraw
import Verif.Props.Params

/-!
# Helper lemmas: the law of `tdist` and `log_tdist` with an interval
-/

namespace Verif

open MeasureTheory ProbabilityTheory Spec

/-- A quantile of the standard normal law is unique. -/
theorem std_quantile_unique {a b : ℝ} (h : gaussianReal 0 1 (Set.Iic a) = gaussianReal 0 1 (Set.Iic b)) :
    a = b := by
  have key : ∀ a b : ℝ, a < b → gaussianReal 0 1 (Set.Iic a) < gaussianReal 0 1 (Set.Iic b) := by
    intro a b hab
    have h1 : gaussianReal 0 1 (Set.Iic a) + gaussianReal 0 1 (Set.Ioo a b) ≤ gaussianReal 0 1 (Set.Iic b) := by
      rw [← measure_union _ measurableSet_Ioo]
      · refine measure_mono (Set.union_subset (Set.Iic_subset_Iic.2 hab.le) fun x hx => hx.2.le)
      · exact Set.disjoint_left.2 fun x hx hx' => absurd hx'.1 (not_lt.2 hx)
    exact (ENNReal.lt_add_right (measure_ne_top _ _) (std_pos_Ioo hab).ne').trans_le h1
  rcases lt_trichotomy a b with hab | hab | hab
  · exact absurd h (key a b hab).ne
  · exact hab
  · exact absurd h (key b a hab).ne'

variable {Ω : Type} [MeasurableSpace Ω] (S : IdealSource Ω)
  {left : ℕ → ℕ → Option (List (Scalar ℝ))} {E : Env (ℕ → Ω) ℝ}

theorem measurable_tRatio (t : ℝ) : Measurable fun p : ℝ × ℝ => p.1 / √(p.2 / t) := by fun_prop

theorem tRatio_prob {p q : Prim ℝ} {μ ν : Measure ℝ} (hμ : S.primLaw p = some μ) (hν : S.primLaw q = some ν)
    {t : ℝ} : IsProbabilityMeasure (tRatio μ ν t) := by
  have := primLaw_prob S hμ
  have := primLaw_prob S hν
  exact Measure.isProbabilityMeasure_map (measurable_tRatio t).aemeasurable

/-- Chi-square numbers are positive. -/
theorem chisquare_pos {t : ℝ} {ν : Measure ℝ} (hν : S.primLaw (.chisquare t) = some ν) : ∀ᵐ c ∂ν, 0 < c := by
  cases hq : S.answer (.chisquare t) with
  | none => simp [IdealSource.primLaw, hq] at hν
  | some q =>
    have e : ν = S.law.map fun x => realVal (q x) := by
      simpa [IdealSource.primLaw, hq] using hν.symm
    rw [e, ae_map_iff (S.meas _ q hq).aemeasurable measurableSet_Ioi]
    refine Filter.Eventually.of_forall fun x => ?_
    obtain ⟨y, hy, h0⟩ := S.support _ q hq x
    rw [hy]
    exact h0

/-- `tInterval` draws from the ratio law. -/
theorem tInterval_law (hE : S.Drives E) {low high t cred q : ℝ} {μ ν : Measure ℝ} (ht : 0 < t)
    (h0 : 0 < cred) (h1 : cred < 100)
    (hq : gaussianReal 0 1 (Set.Iic q) = ENNReal.ofReal ((1 + cred / 100) / 2))
    (hμ : S.primLaw (.normal ((low + high) / 2) ((high - low) / 2 / q)) = some μ)
    (hν : S.primLaw (.chisquare t) = some ν) (n : ℕ) :
    DrawsLaw S.law left (tInterval E low high t cred n) (Reads n)
      (Measure.pi fun _ : Fin n => tRatio μ ν t) := by
  have hpμ := primLaw_prob S hμ
  have hpν := primLaw_prob S hν
  have hqe : E.ppf (1 / 2 + 1 / 2 * (cred / 100)) = q := by
    refine std_quantile_unique ?_
    rw [hE.ppf _ (by linarith) (by linarith), hq]
    congr 1
    ring
  have hμ' : S.primLaw (.normal ((high + low) / 2)
      ((high - (high + low) / 2) / E.ppf (1 / 2 + 1 / 2 * (cred / 100)))) = some μ := by
    rw [hqe, ← hμ]
    congr 2
    · ring
    · ring
  have hg := measurable_tRatio t
  rw [tRatio, ← map_zip_pi n μ ν _ hg]
  unfold tInterval
  refine (drawSimple_law S hE.gen hμ' n).bind₂ (drawSimple_law S hE.gen hν n) _ (measurable_pi_lambda _ fun i =>
    hg.comp (((measurable_pi_apply i).comp measurable_fst).prodMk
      ((measurable_pi_apply i).comp measurable_snd))) ?_
  have hpos : ∀ᵐ p ∂((Measure.pi fun _ : Fin n => μ).prod (Measure.pi fun _ : Fin n => ν)),
      ∀ i, 0 < p.2 i := by
    have h2 : ∀ᵐ y ∂(Measure.pi fun _ : Fin n => ν), ∀ i, 0 < y i := by
      refine ae_all_iff.2 fun i => ?_
      exact (measurePreserving_eval (fun _ : Fin n => ν) i).quasiMeasurePreserving.ae (chisquare_pos S hν)
    exact Measure.quasiMeasurePreserving_snd.ae h2
  refine hpos.mono fun p hp z c hz hc => ?_
  have hr : ∀ i, 0 < p.2 i / t := fun i => div_pos (hp i) ht
  obtain ⟨r, er, hr'⟩ := binSamples_real_right (powf := E.powf) (o := .truediv) rfl (by simp) hc
    (b := .flt t) (Or.inl rfl) fun _ => ht.ne'
  obtain ⟨w, ew, hw⟩ := binSamples_real_right (powf := E.powf) (o := .pow) rfl (fun _ => hE.powers) hr'
    (b := .flt (1 / 2)) (Or.inl rfl) fun i => Or.inr ⟨hr i, by norm_num⟩
  obtain ⟨x, ex, hx⟩ := binSamples_real (powf := E.powf) (o := .truediv) rfl (by simp) hz hw
    fun i => (Real.rpow_pos_of_pos (hr i) _).ne'
  refine ⟨x.simplify, by simp only [er, ew, ex, bind, Except.bind], ?_⟩
  have hx' : Reads n x fun i => p.1 i / √(p.2 i / t) := by
    simpa only [Real.sqrt_eq_rpow] using hx
  rw [simplify_of_shape hx'.1]
  exact hx'

theorem tdist_law (hE : S.Drives E) {low high t cred q : ℝ} {μ ν : Measure ℝ} (hlt : low < high) (ht : 0 < t)
    (h0 : 0 < cred) (h1 : cred < 100)
    (hq : gaussianReal 0 1 (Set.Iic q) = ENNReal.ofReal ((1 + cred / 100) / 2))
    (hμ : S.primLaw (.normal ((low + high) / 2) ((high - low) / 2 / q)) = some μ)
    (hν : S.primLaw (.chisquare t) = some ν) (n : ℕ) :
    DrawsLaw S.law left (leafSample E (.tdist (some low) (some high) t cred) n) (Reads n)
      (Measure.pi fun _ : Fin n => tRatio μ ν t) := by
  refine (tInterval_law S hE ht h0 h1 hq hμ hν n).congr fun ω => ?_
  simp only [leafSample, gt_iff_lt, if_neg hlt.not_gt, if_neg hlt.ne]

theorem logtdist_law (hE : S.Drives E) {low high t cred q : ℝ} {μ ν : Measure ℝ} (hpos : 0 < low)
    (hlt : low < high) (ht : 0 < t) (h0 : 0 < cred) (h1 : cred < 100)
    (hq : gaussianReal 0 1 (Set.Iic q) = ENNReal.ofReal ((1 + cred / 100) / 2))
    (hμ : S.primLaw (.normal ((Real.log low + Real.log high) / 2) ((Real.log high - Real.log low) / 2 / q))
      = some μ)
    (hν : S.primLaw (.chisquare t) = some ν) (n : ℕ) :
    DrawsLaw S.law left (leafSample E (.logtdist (some low) (some high) t cred) n) (Reads n)
      (Measure.pi fun _ : Fin n => (tRatio μ ν t).map Real.exp) := by
  have hp := tRatio_prob S hμ hν (t := t)
  rw [← map_map_pi n _ _ Real.measurable_exp]
  refine ((tInterval_law S hE ht h0 h1 hq hμ hν n).bind_lift (h := mapFlt E.exp) (R' := Reads n) _
    (measurable_pi_lambda _ fun i => Real.measurable_exp.comp (measurable_pi_apply i))
    (Filter.Eventually.of_forall fun x z hz => by rw [hE.exp]; exact mapFlt_real hz _)).congr fun ω => ?_
  simp only [leafSample, gt_iff_lt, if_neg hlt.not_gt, if_neg hlt.ne, if_neg hpos.not_gt, hE.log]

end Verif
