import Verif.Lemmas.UniformFrequency
import Verif.Props.Estimates
import Verif.Props.CredibleIntervals
import Verif.Lemmas.DenoteT

/-!
# C127: all percentiles of a sample at once

`C90_percentile` speaks about one percentile; here one event covers every percentile and every bound, however many
are asked for.
-/

namespace Verif

open MeasureTheory ProbabilityTheory Spec Filter Topology

section

variable {Ω : Type} [MeasurableSpace Ω] (S : IdealSource Ω) {E : Env (ℕ → Ω) ℝ} (hE : S.Drives E)
  (hU : S.primLaw (.uniform 0 1) = some unitLaw)

include hE hU

/-- **C127**: with `n` samples all the fractions of samples less than `x`, and of samples at most `x`, are within
`ε` of the probabilities, for all `x` at once, except with probability at most `(8 / ε) exp(-n ε² / 2)`. -/
theorem C127_fractions {d : Obj (St (ℕ → Ω) ℝ) ℝ} {μ : Measure ℝ} (hd : Denotes S.primLaw d μ)
    {n : ℕ} (hn : 1 ≤ n) (left : ℕ → ℕ → Option (List (Scalar ℝ))) {ε : ℝ} (hε : 0 < ε) :
    (Measure.infinitePi fun _ : ℕ => S.law).real
      {ω | ¬ ∃ z s' xs, sampleObj E d n none none ⟨ω, left⟩ = (.ok z, s') ∧
        List.Forall₂ IsReal z.toList xs ∧ xs.length = n ∧ ∀ x,
          |((xs.countP fun y => decide (y < x) : ℕ) : ℝ) / n - μ.real (Set.Iio x)| < ε ∧
          |((xs.countP fun y => decide (y ≤ x) : ℕ) : ℝ) / n - μ.real (Set.Iic x)| < ε}
      ≤ 8 / ε * Real.exp (-n * ε ^ 2 / 2) := by
  obtain ⟨hp, X, hX, hae, hlaw, hind⟩ := C86_independent_samples S hE hU hd hn left
  have hb := uniform_frequency_bound hn hX hlaw hind hε
  refine le_trans (ENNReal.toReal_mono (measure_ne_top _ _) (measure_mono_ae ?_)) hb
  filter_upwards [hae] with ω hω hbad
  obtain ⟨z, s', hz, hR⟩ := hω
  intro hall
  exact hbad ⟨z, s', _, hz, hR.2, by simp, hall⟩

/-- **C127**: all percentiles at once: whatever `p` is asked for, the `p`-th percentile of the samples lies between
every `a` with at most `p/100 - 1/n - ε` of the law below it and every `b` with at most `1 - p/100 - 1/n - ε` above
it, except with probability at most `(8 / ε) exp(-n ε² / 2)`. -/
theorem C127_percentiles {d : Obj (St (ℕ → Ω) ℝ) ℝ} {μ : Measure ℝ} (hd : Denotes S.primLaw d μ)
    (argsort : List ℝ → List ℕ) {n : ℕ} (hn : 1 ≤ n) (left : ℕ → ℕ → Option (List (Scalar ℝ))) {ε : ℝ}
    (hε : 0 < ε) :
    (Measure.infinitePi fun _ : ℕ => S.law).real
      {ω | ¬ ∃ z s' xs, sampleObj E d n none none ⟨ω, left⟩ = (.ok z, s') ∧
        List.Forall₂ IsReal z.toList xs ∧ ∀ p a b, 0 ≤ p → p ≤ 100 →
          μ.real (Set.Iio a) ≤ p / 100 - 1 / n - ε → μ.real (Set.Ioi b) ≤ 1 - p / 100 - 1 / n - ε →
          ∃ v, getPercentiles argsort xs (.one p) = .ok (.one (.flt v)) ∧ a ≤ v ∧ v ≤ b}
      ≤ 8 / ε * Real.exp (-n * ε ^ 2 / 2) := by
  have hp : IsProbabilityMeasure μ := (C86_independent_samples S hE hU hd hn left).1
  refine le_trans (bad_mono _ fun ω h => ?_) (C127_fractions S hE hU hd hn left hε)
  obtain ⟨z, s', xs, hz, hR, hl, hall⟩ := h
  refine ⟨z, s', xs, hz, hR, fun p a b h0 h1 ha hb => ?_⟩
  have hn0 : (0 : ℝ) < n := by exact_mod_cast hn
  have e1 : (xs.countP fun x => decide (b < x)) + (xs.countP fun y => decide (y ≤ b)) = n := by
    rw [← hl, List.length_eq_countP_add_countP (fun x => decide (b < x))]
    congr 1
    apply List.countP_congr
    intro y _
    simp
  have e2 : μ.real (Set.Ioi b) = 1 - μ.real (Set.Iic b) := by
    rw [← probReal_compl_eq_one_sub measurableSet_Iic, Set.compl_Iic]
  have e3 : ((xs.countP fun x => decide (b < x) : ℕ) : ℝ) / n
      = 1 - ((xs.countP fun y => decide (y ≤ b) : ℕ) : ℝ) / n := by
    rw [eq_sub_iff_add_eq, ← add_div, div_eq_one_iff_eq hn0.ne']
    exact_mod_cast e1
  have f1 := abs_lt.1 (hall a).1
  have f2 := abs_lt.1 (hall b).2
  refine percentile_of_frequency argsort hn hl h0 h1 (by linarith [f1.2]) ?_
  rw [e3]
  linarith [f2.1]

/-- **C127**, the table `get_percentiles(samples, [p1, …, pk])`: with the same probability, which does not depend on
how many percentiles are asked for, every entry is in its place. -/
theorem C127_table {d : Obj (St (ℕ → Ω) ℝ) ℝ} {μ : Measure ℝ} (hd : Denotes S.primLaw d μ)
    (argsort : List ℝ → List ℕ) {n : ℕ} (hn : 1 ≤ n) (left : ℕ → ℕ → Option (List (Scalar ℝ))) {ε : ℝ}
    (hε : 0 < ε) (ps : List ℝ) (hps : 2 ≤ ps.length) (hp : ∀ p ∈ ps, 0 ≤ p ∧ p ≤ 100) (a b : ℝ → ℝ)
    (ha : ∀ p ∈ ps, μ.real (Set.Iio (a p)) ≤ p / 100 - 1 / n - ε)
    (hb : ∀ p ∈ ps, μ.real (Set.Ioi (b p)) ≤ 1 - p / 100 - 1 / n - ε) :
    (Measure.infinitePi fun _ : ℕ => S.law).real
      {ω | ¬ ∃ z s' xs t, sampleObj E d n none none ⟨ω, left⟩ = (.ok z, s') ∧
        List.Forall₂ IsReal z.toList xs ∧ getPercentiles argsort xs (.list ps) = .ok (.dict t) ∧
        ∀ p ∈ ps, ∃ v, dictGet t p = .ok (.flt v) ∧ a p ≤ v ∧ v ≤ b p}
      ≤ 8 / ε * Real.exp (-n * ε ^ 2 / 2) := by
  refine le_trans (bad_mono _ fun ω h => ?_) (C127_percentiles S hE hU hd argsort hn left hε)
  obtain ⟨z, s', xs, hz, hR, hall⟩ := h
  have hone : ∀ p ∈ ps, ∃ v, getPercentiles argsort xs (.one p) = .ok (.one (.flt v)) ∧ a p ≤ v ∧ v ≤ b p :=
    fun p hp' => hall p (a p) (b p) (hp p hp').1 (hp p hp').2 (ha p hp') (hb p hp')
  obtain ⟨rs, hrs⟩ : ∃ rs, List.Forall₂ (fun p s => getPercentiles argsort xs (.one p) none false none =
      .ok (.one s)) ps rs := by
    clear hps hp ha hb hall
    induction ps with
    | nil => exact ⟨[], .nil⟩
    | cons p ps ih =>
      obtain ⟨rs, hrs⟩ := ih fun q hq => hone q (by simp [hq])
      obtain ⟨v, hv, -⟩ := hone p (by simp)
      exact ⟨.flt v :: rs, .cons hv hrs⟩
  have htab := (getPercentiles_list argsort xs ps hps none false none _).2 ⟨rs, hrs, rfl⟩
  refine ⟨z, s', xs, _, hz, hR, htab, fun p hp' => ?_⟩
  obtain ⟨s, h1, h2⟩ := C63_entries argsort xs ps hps none none _ htab p hp'
  obtain ⟨v, hv, hav, hvb⟩ := hone p hp'
  rw [hv] at h2
  cases h2
  exact ⟨v, h1, hav, hvb⟩

/-- **C127**, limit: if the law has a continuous quantile function `Q` on `[c0, c1]`, then the percentiles of the
samples converge to it uniformly on every smaller range of percentiles. -/
theorem C127_limit {d : Obj (St (ℕ → Ω) ℝ) ℝ} {μ : Measure ℝ} (hd : Denotes S.primLaw d μ)
    (argsort : List ℝ → List ℕ) (left : ℕ → ℕ → Option (List (Scalar ℝ))) {Q : ℝ → ℝ} {c0 c1 p0 p1 : ℝ}
    (hc0 : 0 ≤ c0) (hc1 : c1 ≤ 1) (hp0 : c0 < p0 / 100) (hp1 : p1 / 100 < c1)
    (hQ : ContinuousOn Q (Set.Icc c0 c1))
    (hlt : ∀ c ∈ Set.Icc c0 c1, μ.real (Set.Iio (Q c)) ≤ c) (hgt : ∀ c ∈ Set.Icc c0 c1, μ.real (Set.Ioi (Q c)) ≤ 1 - c)
    {η : ℝ} (hη : 0 < η) :
    Tendsto (fun n => (Measure.infinitePi fun _ : ℕ => S.law).real
      {ω | ¬ ∃ z s' xs, sampleObj E d n none none ⟨ω, left⟩ = (.ok z, s') ∧
        List.Forall₂ IsReal z.toList xs ∧ ∀ p, p0 ≤ p → p ≤ p1 →
          ∃ v, getPercentiles argsort xs (.one p) = .ok (.one (.flt v)) ∧ |v - Q (p / 100)| ≤ η}) atTop (nhds 0) := by
  obtain ⟨δ, hδ, hunif⟩ := Metric.uniformContinuousOn_iff.1 (isCompact_Icc.uniformContinuousOn_of_continuous hQ) η hη
  set r := min (δ / 2) (min (p0 / 100 - c0) (c1 - p1 / 100)) with hr
  have hr0 : 0 < r := lt_min (half_pos hδ) (lt_min (by linarith) (by linarith))
  have hr1 : r ≤ δ / 2 := min_le_left _ _
  have hr2 : r ≤ p0 / 100 - c0 := (min_le_right _ _).trans (min_le_left _ _)
  have hr3 : r ≤ c1 - p1 / 100 := (min_le_right _ _).trans (min_le_right _ _)
  set ε := r / 2 with hε'
  have hε : 0 < ε := half_pos hr0
  have hlim : Tendsto (fun n : ℕ => 8 / ε * Real.exp (-n * ε ^ 2 / 2)) atTop (nhds 0) := by
    rw [← mul_zero (8 / ε)]
    refine Tendsto.const_mul _ (Real.tendsto_exp_atBot.comp ?_)
    have e : (fun n : ℕ => -(n : ℝ) * ε ^ 2 / 2) = fun n : ℕ => (n : ℝ) * (-(ε ^ 2 / 2)) := by
      ext n; ring
    rw [e]
    exact tendsto_natCast_atTop_atTop.atTop_mul_const_of_neg (by nlinarith [sq_pos_of_pos hε])
  refine tendsto_of_tendsto_of_tendsto_of_le_of_le' tendsto_const_nhds hlim
    (Eventually.of_forall fun n => measureReal_nonneg) ?_
  filter_upwards [eventually_ge_atTop 1, eventually_ge_atTop ⌈1 / ε⌉₊] with n hn hn'
  have hn0 : (0 : ℝ) < n := by exact_mod_cast hn
  have h1n : 1 / (n : ℝ) ≤ ε := by
    rw [div_le_iff₀ hn0, mul_comm, ← div_le_iff₀ hε]
    exact (Nat.le_ceil _).trans (by exact_mod_cast hn')
  refine le_trans (bad_mono _ fun ω h => ?_) (C127_percentiles S hE hU hd argsort hn left hε)
  obtain ⟨z, s', xs, hz, hR, hall⟩ := h
  refine ⟨z, s', xs, hz, hR, fun p h0 h1 => ?_⟩
  have hpp0 : p0 / 100 ≤ p / 100 := by linarith
  have hpp1 : p / 100 ≤ p1 / 100 := by linarith
  have ma : p / 100 - r ∈ Set.Icc c0 c1 := ⟨by linarith, by linarith⟩
  have mb : p / 100 + r ∈ Set.Icc c0 c1 := ⟨by linarith, by linarith⟩
  have mp : p / 100 ∈ Set.Icc c0 c1 := ⟨by linarith, by linarith⟩
  obtain ⟨v, hv, hav, hvb⟩ := hall p (Q (p / 100 - r)) (Q (p / 100 + r)) (by linarith) (by linarith)
    (by linarith [hlt _ ma]) (by linarith [hgt _ mb])
  refine ⟨v, hv, abs_le.2 ⟨?_, ?_⟩⟩
  · have := hunif _ ma _ mp (by
      rw [Real.dist_eq, show p / 100 - r - p / 100 = -r by ring, abs_neg, abs_of_pos hr0]
      linarith)
    rw [Real.dist_eq, abs_lt] at this
    linarith [this.1]
  · have := hunif _ mb _ mp (by
      rw [Real.dist_eq, show p / 100 + r - p / 100 = r by ring, abs_of_pos hr0]
      linarith)
    rw [Real.dist_eq, abs_lt] at this
    linarith [this.2]

omit hE hU [MeasurableSpace Ω] in
/-- The quantile function of the standard normal law is continuous and splits the law as it should. -/
theorem ppf_quantile {ppf : ℝ → ℝ} (hp : IsPpf ppf) :
    ContinuousOn ppf (Set.Ioo 0 1) ∧ ∀ c, 0 < c → c < 1 →
      (gaussianReal 0 1).real (Set.Iio (ppf c)) = c ∧ (gaussianReal 0 1).real (Set.Ioi (ppf c)) = 1 - c := by
  have hr : ∀ c, 0 < c → c < 1 → (gaussianReal 0 1).real (Set.Iic (ppf c)) = c := fun c h0 h1 => by
    rw [Measure.real, hp c h0 h1, ENNReal.toReal_ofReal h0.le]
  have hmono : StrictMonoOn ppf (Set.Ioo 0 1) := by
    intro a ha b hb hab
    by_contra hle
    have := measureReal_mono (μ := gaussianReal 0 1) (Set.Iic_subset_Iic.2 (not_lt.1 hle))
    rw [hr a ha.1 ha.2, hr b hb.1 hb.2] at this
    linarith
  have hpos : ∀ x : ℝ, 0 < (gaussianReal 0 1).real (Set.Iic x) ∧ (gaussianReal 0 1).real (Set.Iic x) < 1 := by
    intro x
    have h1 : 0 < gaussianReal 0 1 (Set.Ioo (x - 1) x) := std_pos_Ioo (by linarith)
    have h2 : 0 < gaussianReal 0 1 (Set.Ioo x (x + 1)) := std_pos_Ioo (by linarith)
    have h3 : 0 < (gaussianReal 0 1).real (Set.Ioo (x - 1) x) := ENNReal.toReal_pos h1.ne' (measure_ne_top _ _)
    have h4 : 0 < (gaussianReal 0 1).real (Set.Ioo x (x + 1)) := ENNReal.toReal_pos h2.ne' (measure_ne_top _ _)
    refine ⟨h3.trans_le (measureReal_mono fun y hy => hy.2.le), ?_⟩
    have h5 : (gaussianReal 0 1).real (Set.Ioo x (x + 1)) ≤ (gaussianReal 0 1).real (Set.Iic x)ᶜ :=
      measureReal_mono fun y hy => not_le.2 hy.1
    rw [probReal_compl_eq_one_sub measurableSet_Iic] at h5
    linarith
  have himg : ppf '' Set.Ioo 0 1 = Set.univ := by
    refine Set.eq_univ_of_forall fun x => ?_
    obtain ⟨h0, h1⟩ := hpos x
    refine ⟨_, ⟨h0, h1⟩, std_quantile_unique ?_⟩
    rw [hp _ h0 h1, ofReal_measureReal]
  refine ⟨fun c hc => ContinuousAt.continuousWithinAt ?_, fun c h0 h1 => ⟨?_, ?_⟩⟩
  · refine continuousAt_of_monotoneOn_of_image_mem_nhds hmono.monotoneOn (Ioo_mem_nhds hc.1 hc.2) ?_
    rw [himg]
    exact univ_mem
  · have : (gaussianReal 0 1).real (Set.Iio (ppf c)) = (gaussianReal 0 1).real (Set.Iic (ppf c)) := by
      have hna : NullSingletonClass (gaussianReal 0 1) := nullSingletonClass_gaussianReal one_ne_zero
      exact measureReal_congr Iio_ae_eq_Iic
    rw [this, hr c h0 h1]
  · rw [← Set.compl_Iic, probReal_compl_eq_one_sub measurableSet_Iic, hr c h0 h1]

/-- **C127**, normal distributions: the percentiles of the samples of `norm(mean=m, sd=s)` converge to
`m + s z(p/100)`, with `z` the quantile function of the standard normal law, uniformly over every range of
percentiles from above 0 to below 100. -/
theorem C127_norm (hN : ∀ m s, 0 < s → S.primLaw (.normal m s) = some (normalLaw m s)) {ppf : ℝ → ℝ}
    (hp : IsPpf ppf) {m s : ℝ} (hs : 0 < s) (argsort : List ℝ → List ℕ)
    (left : ℕ → ℕ → Option (List (Scalar ℝ))) {p0 p1 : ℝ} (h0 : 0 < p0) (h1 : p1 < 100) {η : ℝ} (hη : 0 < η) :
    Tendsto (fun n => (Measure.infinitePi fun _ : ℕ => S.law).real
      {ω | ¬ ∃ z s' xs, sampleObj E (.leaf (.normal m s) none none) n none none ⟨ω, left⟩ = (.ok z, s') ∧
        List.Forall₂ IsReal z.toList xs ∧ ∀ p, p0 ≤ p → p ≤ p1 →
          ∃ v, getPercentiles argsort xs (.one p) = .ok (.one (.flt v)) ∧ |v - (m + s * ppf (p / 100))| ≤ η})
      atTop (nhds 0) := by
  obtain ⟨hc, hq⟩ := ppf_quantile hp
  have hsub : Set.Icc (p0 / 200) ((1 + p1 / 100) / 2) ⊆ Set.Ioo 0 1 := fun c hc' =>
    ⟨lt_of_lt_of_le (by positivity) hc'.1, lt_of_le_of_lt hc'.2 (by linarith)⟩
  refine C127_limit S hE hU (denotes_normal (T := St (ℕ → Ω) ℝ) (hN m s hs)) argsort left
    (Q := fun c => m + s * ppf c) (c0 := p0 / 200) (c1 := (1 + p1 / 100) / 2) (by positivity) (by linarith)
    (by linarith) (by linarith) ((continuousOn_const.mul (hc.mono hsub)).const_add m) ?_ ?_ hη
  · intro c hc'
    have e : (fun z => m + s * z) ⁻¹' Set.Iio (m + s * ppf c) = Set.Iio (ppf c) := by
      ext z
      simp [hs]
    rw [normalLaw_eq, measureReal_def, Measure.map_apply (by fun_prop) measurableSet_Iio, e, ← measureReal_def,
      (hq c (hsub hc').1 (hsub hc').2).1]
  · intro c hc'
    have e : (fun z => m + s * z) ⁻¹' Set.Ioi (m + s * ppf c) = Set.Ioi (ppf c) := by
      ext z
      simp [hs]
    rw [normalLaw_eq, measureReal_def, Measure.map_apply (by fun_prop) measurableSet_Ioi, e, ← measureReal_def,
      (hq c (hsub hc').1 (hsub hc').2).2]

end

/-- A case: a million samples of `uniform(0, 1)`: all percentiles from the 2nd to the 98th are within 0.011 of their
values, except with probability below `800 exp(-50)`. -/
example (argsort : List ℝ → List ℕ) (left : ℕ → ℕ → Option (List (Scalar ℝ))) :
    (Measure.infinitePi fun _ : ℕ => demoSource.law).real
      {ω | ¬ ∃ z s' xs, sampleObj idealEnv (.leaf (.uniform 0 1) none none) 1000000 none none ⟨ω, left⟩ = (.ok z, s') ∧
        List.Forall₂ IsReal z.toList xs ∧ ∀ p, 2 ≤ p → p ≤ 98 →
          ∃ v, getPercentiles argsort xs (.one p) = .ok (.one (.flt v)) ∧ |v - p / 100| ≤ 0.011}
      ≤ 800 * Real.exp (-50) := by
  have hd : Denotes demoSource.primLaw (.leaf (.uniform 0 1) none none : Obj (St (ℕ → ℝ × ℝ) ℝ) ℝ) unitLaw := by
    have := Denotes.leaf (S := St (ℕ → ℝ × ℝ) ℝ) (L := demoSource.primLaw) (l := .uniform 0 1) (μ := unitLaw)
      (lc := none) (rc := none) (lo := none) (hi := none) demoSource_uniform trivial trivial
    have e : clamp none none = id := rfl
    rwa [e, Measure.map_id] at this
  have h := C127_percentiles demoSource (E := idealEnv) idealEnv_driven demoSource_uniform hd argsort
    (n := 1000000) (by norm_num) left (ε := 0.01) (by norm_num)
  refine le_trans (bad_mono _ fun ω hω => ?_) (h.trans (le_of_eq (by norm_num)))
  obtain ⟨z, s', xs, hz, hR, hall⟩ := hω
  refine ⟨z, s', xs, hz, hR, fun p h2 h98 => ?_⟩
  have e1 : ∀ a : ℝ, 0 ≤ a → a ≤ 1 → unitLaw.real (Set.Iio a) = a := by
    intro a ha0 ha1
    rw [measureReal_def, unitLaw, Measure.restrict_apply measurableSet_Iio,
      show Set.Iio a ∩ Set.Ico 0 1 = Set.Ico 0 a from by
        ext y
        simp only [Set.mem_inter_iff, Set.mem_Iio, Set.mem_Ico]
        constructor
        · rintro ⟨h1, h2, h3⟩; exact ⟨h2, h1⟩
        · rintro ⟨h1, h2⟩; exact ⟨h2, h1, by linarith⟩, Real.volume_Ico, sub_zero, ENNReal.toReal_ofReal ha0]
  have e2 : ∀ a : ℝ, 0 ≤ a → a ≤ 1 → unitLaw.real (Set.Ioi a) = 1 - a := by
    intro a ha0 ha1
    have : NullSingletonClass unitLaw := by unfold unitLaw; infer_instance
    rw [← Set.compl_Iic, probReal_compl_eq_one_sub measurableSet_Iic, ← measureReal_congr Iio_ae_eq_Iic, e1 a ha0 ha1]
  obtain ⟨v, hv, hav, hvb⟩ := hall p (p / 100 - 0.010001) (p / 100 + 0.010001) (by linarith) (by linarith)
    (by rw [e1 _ (by norm_num; linarith) (by norm_num; linarith)]; norm_num; linarith)
    (by rw [e2 _ (by norm_num; linarith) (by norm_num; linarith)]; norm_num; linarith)
  refine ⟨v, hv, abs_le.2 ⟨?_, ?_⟩⟩ <;> norm_num at * <;> linarith

/-- The hypotheses of `C127_norm` are met. -/
example (argsort : List ℝ → List ℕ) (left : ℕ → ℕ → Option (List (Scalar ℝ))) :
    ∃ ppf, IsPpf ppf ∧ ∀ η : ℝ, 0 < η → Tendsto (fun n => (Measure.infinitePi fun _ : ℕ => demoSource.law).real
      {ω | ¬ ∃ z s' xs, sampleObj idealEnv (.leaf (.normal 5 2) none none) n none none ⟨ω, left⟩ = (.ok z, s') ∧
        List.Forall₂ IsReal z.toList xs ∧ ∀ p, 1 ≤ p → p ≤ 99 →
          ∃ v, getPercentiles argsort xs (.one p) = .ok (.one (.flt v)) ∧ |v - (5 + 2 * ppf (p / 100))| ≤ η})
      atTop (nhds 0) := by
  obtain ⟨ppf, hp⟩ := exists_ppf
  exact ⟨ppf, hp, fun η hη => C127_norm demoSource (E := idealEnv) idealEnv_driven demoSource_uniform
    (fun m s hs => demoSource_normal m hs.le) hp (by norm_num) argsort left (by norm_num) (by norm_num) hη⟩

end Verif
