import Verif.Lemmas.DenoteDiscrete
import Verif.Lemmas.ExplodeDraw
import Verif.Lemmas.DenoteT

/-!
# Helper lemmas: by induction, samples have the law the distribution stands for
-/

namespace Verif

open MeasureTheory Spec

section

variable {Ω : Type} [MeasurableSpace Ω] (S : IdealSource Ω)
  {left : ℕ → ℕ → Option (List (Scalar ℝ))} {E : Env (ℕ → Ω) ℝ}

/-- Bounds around a program. -/
theorem withClips_law {own : Option (Scalar ℝ) × Option (Scalar ℝ)} {lo hi : Option ℝ}
    (hlo : IsBound own.1 lo) (hhi : IsBound own.2 hi) {raw : ℕ → SM (ℕ → Ω) ℝ (Samples ℝ)} {n : ℕ}
    (hn : 1 ≤ n) {μ : Measure ℝ} [IsProbabilityMeasure μ]
    (h : DrawsLaw S.law left (raw n) (Reads n) (Measure.pi fun _ : Fin n => μ)) :
    DrawsLaw S.law left (withClips E own raw n none none) (Reads n)
      (Measure.pi fun _ : Fin n => μ.map (clamp lo hi)) := by
  have hm := measurable_clamp lo hi
  rw [← map_map_pi n μ _ hm]
  have := h.bind_lift (h := applyClips E.powf own.1 own.2) (R' := Reads n)
    (fun x i => clamp lo hi (x i)) (measurable_pi_lambda _ fun i => hm.comp (measurable_pi_apply i))
    (Filter.Eventually.of_forall fun x z hz => applyClips_real E.powf hlo hhi hn hz)
  refine this.congr fun ω => ?_
  unfold withClips
  rw [if_neg (by omega)]
  rfl

theorem withClips_law_none {raw : ℕ → SM (ℕ → Ω) ℝ (Samples ℝ)} {n : ℕ} (hn : 1 ≤ n) {μ : Measure ℝ}
    [IsProbabilityMeasure μ] (h : DrawsLaw S.law left (raw n) (Reads n) (Measure.pi fun _ : Fin n => μ)) :
    DrawsLaw S.law left (withClips E (none, none) raw n none none) (Reads n)
      (Measure.pi fun _ : Fin n => μ) := by
  have := withClips_law S (E := E) (own := (none, none)) (lo := none) (hi := none) trivial trivial hn h
  have e : clamp none none = id := rfl
  rwa [e, Measure.map_id] at this

/-- The induction. -/
theorem denotes_draws (hE : S.Drives E) (hU : S.primLaw (.uniform 0 1) = some unitLaw)
    {d : Obj (St (ℕ → Ω) ℝ) ℝ} {μ : Measure ℝ} (hd : Denotes S.primLaw d μ) :
    IsProbabilityMeasure μ ∧ ∀ n, 1 ≤ n → DrawsLaw S.law left
      (withClips E d.clips (rawObj E d) n none none) (Reads n) (Measure.pi fun _ : Fin n => μ) := by
  have hconst : ∀ (v : Scalar ℝ) (r : ℝ), IsReal v r → ∀ n, DrawsLaw S.law left
      (SM.pure (constSamples v n)) (Reads n) (Measure.pi fun _ : Fin n => Measure.dirac r) := by
    intro v r h n
    have := DrawsLaw.pure (μ₀ := S.law) (left := left) (R := Reads n) (constSamples_real h n)
    rw [pi_dirac_const]
    exact this
  induction hd with
  | @lit v r h =>
    exact ⟨inferInstance, fun n hn => withClips_law_none S hn (hconst v r h n)⟩
  | @const v r lc rc lo hi h hlo hhi =>
    refine ⟨Measure.isProbabilityMeasure_map (measurable_clamp lo hi).aemeasurable, fun n hn => ?_⟩
    exact withClips_law S hlo hhi hn (hconst v r h n)
  | @leaf l μ lc rc lo hi h hlo hhi =>
    obtain ⟨hp, -⟩ := leafSample_law S (left := left) hE.gen h 1
    refine ⟨Measure.isProbabilityMeasure_map (measurable_clamp lo hi).aemeasurable, fun n hn => ?_⟩
    exact withClips_law S hlo hhi hn (leafSample_law S hE.gen h n).2
  | @explode s faces μ lc rc lo hi hsafe hfair hμ hlo hhi =>
    obtain ⟨t, ht1, ht2, ht3⟩ := hsafe
    have hp := hμ.prob
    refine ⟨Measure.isProbabilityMeasure_map (measurable_clamp lo hi).aemeasurable, fun n hn => ?_⟩
    exact withClips_law S hlo hhi hn (explode_law S hE (by omega) (hot_card_lt ht1 ht2 ht3) hfair hμ n)
  | @tInterval low high t cred q μ ν lc rc lo hi hlt ht h0 h1 hq hμ hν hlo hhi =>
    have hp := tRatio_prob S hμ hν (t := t)
    refine ⟨Measure.isProbabilityMeasure_map (measurable_clamp lo hi).aemeasurable, fun n hn => ?_⟩
    exact withClips_law S hlo hhi hn (tdist_law S hE hlt ht h0 h1 hq hμ hν n)
  | @logtInterval low high t cred q μ ν lc rc lo hi hpos hlt ht h0 h1 hq hμ hν hlo hhi =>
    have hp' := tRatio_prob S hμ hν (t := t)
    have hp : IsProbabilityMeasure ((tRatio μ ν t).map Real.exp) :=
      Measure.isProbabilityMeasure_map Real.measurable_exp.aemeasurable
    refine ⟨Measure.isProbabilityMeasure_map (measurable_clamp lo hi).aemeasurable, fun n hn => ?_⟩
    exact withClips_law S hlo hhi hn (logtdist_law S hE hpos hlt ht h0 h1 hq hμ hν n)
  | @items vs rs lc rc lo hi hne hvs hlo hhi =>
    have h := fun n hn => items_law S (left := left) hE.gen hU hne hvs (n := n) hn
    have hp := (h 1 le_rfl).1
    refine ⟨Measure.isProbabilityMeasure_map (measurable_clamp lo hi).aemeasurable, fun n hn => ?_⟩
    exact withClips_law S hlo hhi hn (h n hn).2
  | @table vs rs ws arg lc rc lo hi harg hlen hvs hpos hsum hlo hhi =>
    have h := fun n hn => table_law S (left := left) hE.gen hU harg hlen hvs hpos hsum (n := n) hn
    have hp := (h 1 le_rfl).1
    refine ⟨Measure.isProbabilityMeasure_map (measurable_clamp lo hi).aemeasurable, fun n hn => ?_⟩
    exact withClips_law S hlo hhi hn (h n hn).2
  | @mix k ds ν ws hk lc rc lo hi _ hpos hsum hlo hhi ih =>
    have : ∀ i, IsProbabilityMeasure (ν i) := fun i => (ih i).1
    have hne : ws ≠ [] := by rintro rfl; simp at hsum
    have hp := mixLaw_prob hk hpos hsum ν
    refine ⟨Measure.isProbabilityMeasure_map (μ := mixLaw ws hk ν)
      (measurable_clamp lo hi).aemeasurable, fun n hn => ?_⟩
    refine withClips_law S (μ := mixLaw ws hk ν) hlo hhi hn ?_
    simp only [rawObj]
    refine mixtureRun_law S (ν := ν) hE.gen hU (List.length_finRange) hk hpos hne hsum n hn fun m hm i => ?_
    have := (ih i).2 m hm
    simpa using this
  | @un f g a μ hf _ ih =>
    obtain ⟨hp, ih⟩ := ih
    have hg := measurable_unMeaning hf
    have hp' : IsProbabilityMeasure (μ.map g) := Measure.isProbabilityMeasure_map hg.aemeasurable
    refine ⟨hp', fun n hn => withClips_law_none S hn ?_⟩
    rw [← map_map_pi n μ g hg]
    exact (ih n hn).bind_lift _ (measurable_pi_lambda _ fun i => hg.comp (measurable_pi_apply i))
      (Filter.Eventually.of_forall fun x z hz => unSamples_real E hf hz)
  | @bin o g a b μ ν ho _ _ hz iha ihb =>
    obtain ⟨hpa, iha⟩ := iha
    obtain ⟨hpb, ihb⟩ := ihb
    have hg := measurable_opMeaning ho
    have hp' : IsProbabilityMeasure ((μ.prod ν).map fun p => g p.1 p.2) :=
      Measure.isProbabilityMeasure_map hg.aemeasurable
    refine ⟨hp', fun n hn => withClips_law_none S hn ?_⟩
    rw [← map_zip_pi n μ ν _ hg]
    refine (iha n hn).bind₂ (ihb n hn) _ (measurable_pi_lambda _ fun i => hg.comp
      (((measurable_pi_apply i).comp measurable_fst).prodMk
        ((measurable_pi_apply i).comp measurable_snd))) ?_
    have hdef : ∀ᵐ p ∂((Measure.pi fun _ : Fin n => μ).prod (Measure.pi fun _ : Fin n => ν)),
        ∀ i, opDefined o (p.1 i) (p.2 i) := by
      refine ae_all_iff.2 fun i => ?_
      exact ((measurePreserving_eval (fun _ : Fin n => μ) i).prod
        (measurePreserving_eval (fun _ : Fin n => ν) i)).quasiMeasurePreserving.ae hz
    exact hdef.mono fun p hp x y hx hy => binSamples_real ho (fun _ => hE.powers) hx hy hp
  | @userUn isDist val d a μ g hval hg _ ih =>
    obtain ⟨hp, ih⟩ := ih
    have hp' : IsProbabilityMeasure (μ.map g) := Measure.isProbabilityMeasure_map hg.aemeasurable
    refine ⟨hp', fun n hn => withClips_law_none S hn ?_⟩
    rw [← map_map_pi n μ g hg]
    obtain ⟨F, h1, h2, h3⟩ := (ih n hn).bind_lift (h := val) (R' := Reads n) (fun x i => g (x i))
      (measurable_pi_lambda _ fun i => hg.comp (measurable_pi_apply i))
      (Filter.Eventually.of_forall fun x z hz => (hval n z x hz).2)
    have hR : DrawsLaw S.law left (withClips E a.clips (rawObj E a) n none none)
        (fun z _ => isDist z = false) (Measure.pi fun _ : Fin n => μ) :=
      (ih n hn).mono fun z x hz => (hval n z x hz).1
    obtain ⟨F', -, -, h3'⟩ := hR
    refine ⟨F, h1, h2, ?_⟩
    filter_upwards [h3, h3'] with ω hω hω'
    obtain ⟨z, hz, hr⟩ := hω
    obtain ⟨y, hy, hf⟩ := hω'
    refine ⟨z, ?_, hr⟩
    rw [← hz]
    simp only [rawObj, SM.bind, hy, hf, Bool.false_eq_true, if_false]
  | @userBin isDist val d a b μ ν g hval hg _ _ iha ihb =>
    obtain ⟨hpa, iha⟩ := iha
    obtain ⟨hpb, ihb⟩ := ihb
    have hp' : IsProbabilityMeasure ((μ.prod ν).map g) := Measure.isProbabilityMeasure_map hg.aemeasurable
    refine ⟨hp', fun n hn => withClips_law_none S hn ?_⟩
    rw [← map_zip_pi n μ ν g hg]
    obtain ⟨F, h1, h2, h3⟩ := (iha n hn).bind₂ (ihb n hn) (h := val) (R'' := Reads n)
      (fun p i => g (p.1 i, p.2 i))
      (measurable_pi_lambda _ fun i => hg.comp (((measurable_pi_apply i).comp measurable_fst).prodMk
        ((measurable_pi_apply i).comp measurable_snd)))
      (Filter.Eventually.of_forall fun p z w hz hw => (hval n z w _ _ hz hw).2)
    obtain ⟨F', -, -, h3'⟩ := (iha n hn).pair (ihb n hn)
    refine ⟨F, h1, h2, ?_⟩
    filter_upwards [h3, h3'] with ω hω hω'
    obtain ⟨z, hz, hr⟩ := hω
    obtain ⟨c, hc, hf⟩ := hω'
    refine ⟨z, ?_, hr⟩
    rw [← hz]
    simp only [SM.bind_ok] at hc
    obtain ⟨x, s1, hx, y, s2, hy, hc⟩ := hc
    obtain ⟨hc, -⟩ := Prod.mk.inj hc
    cases hc
    have hf' := (hval n x y _ _ hf.1 hf.2).1
    simp only [rawObj, SM.bind, hx, hy, hf', Bool.false_eq_true, if_false]
  | @thunk a μ hden ih =>
    obtain ⟨hp, ih⟩ := ih
    refine ⟨hp, fun n hn => withClips_law_none S hn ?_⟩
    have hone : DrawsLaw S.law left (if a.isLit then SM.pure (.scalar a.litVal)
        else withClips E a.clips (rawObj E a) 1 none none)
        (fun s r => ∃ v, s = Samples.scalar v ∧ IsReal v r) μ := by
      by_cases hlit : a.isLit = true
      · rw [if_pos hlit]
        cases a <;> simp only [Obj.isLit, Bool.false_eq_true] at hlit
        cases hden with
        | lit h => exact DrawsLaw.pure ⟨_, rfl, h⟩
      · rw [if_neg hlit]
        have := (ih 1 le_rfl).map (R' := fun s r => ∃ v, s = Samples.scalar v ∧ IsReal v r)
          (fun x => x 0) (measurable_pi_apply 0) fun s x hx => reads_one hx
        rwa [pi_map_eval] at this
    have h2 := (hone.replicateL n).bind_lift (h := gather E) (R' := Reads n) id measurable_id
      (Filter.Eventually.of_forall fun x ss hss => gather_real E hss)
    rw [Measure.map_id] at h2
    refine h2.congr fun ω => ?_
    have h3 : ∀ (s : St (ℕ → Ω) ℝ) n, SM.replicateL (callOnce (fun _ => none) id) n s
        = (.ok (List.replicate n s), s) := by
      intro s n
      induction n with
      | zero => rfl
      | succ n ihn =>
        simp only [SM.replicateL, SM.bind, callOnce, SM.pure, id] at ihn ⊢
        rw [ihn]
        rfl
    have h4 : ∀ (f : St (ℕ → Ω) ℝ → SM (ℕ → Ω) ℝ (Samples ℝ)) (a : St (ℕ → Ω) ℝ) n,
        SM.mapL f (List.replicate n a) = SM.replicateL (f a) n := by
      intro f a n
      induction n with
      | zero => rfl
      | succ n ihn => simp only [List.replicate_succ, SM.mapL, SM.replicateL, ihn]
    simp only [rawObj]
    conv_lhs => unfold SM.bind
    simp only [h3]
    rw [h4]
    rfl

end

end Verif
