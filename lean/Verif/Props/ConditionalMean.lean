import Verif.Props.EventLaw
import Verif.Lemmas.AverageLimit

/-!
# C103: `bayesnet` with a numeric `find` estimates conditional expectations
-/

namespace Verif

open MeasureTheory ProbabilityTheory Spec

theorem mapExcept_meanValue_flt {K : Type} [Field K] :
    ∀ xs : List K, mapExcept (meanValue (K := K)) (xs.map Scalar.flt) = .ok xs
  | [] => rfl
  | x :: xs => by
    simp only [List.map_cons, mapExcept, mapExcept_meanValue_flt xs, bind, Except.bind, meanValue]

/-- **C103**: with a numeric `find` the result is the mean of `find` over the used events that meet the condition;
ValueError if none does. -/
theorem C103_average {S α ρ K : Type} [Field K] (B : BEnv S α) (o : BOpts) (fn : Option ℕ) (n : ℤ) (f : α → K)
    (c : α → Bool) (s s1 : BSt S α) (l : List α)
    (hl : bayesnet B o fn n (.reduceEvents .ok : Query α (List α) K) none s = (.ok (.reduced l), s1)) :
    (bayesnet B o fn n (.findReduce (fun e => .ok (.flt (f e))) none : Query α ρ K)
        (some fun e => .ok (c e)) s).1 =
      if l.countP c = 0 then .error .valueError
      else .ok (.mean (((l.filter c).map f).sum / (l.countP c : ℕ))) := by
  obtain ⟨h, -⟩ := C46_refines B o fn n
    (.findReduce (fun e => .ok (.flt (f e))) none : Query α ρ K) (some fun e => .ok (c e)) s s1 l hl
  have hspec : answerAbout (.findReduce (fun e => .ok (.flt (f e))) none : Query α ρ K)
      (some fun e => .ok (c e)) l =
      if l.countP c = 0 then .error .valueError
      else .ok (.mean (((l.filter c).map f).sum / (l.countP c : ℕ))) := by
    simp only [answerAbout, filterExcept_pure, bind, Except.bind]
    rw [List.countP_eq_length_filter (p := c)]
    cases hf : l.filter c with
    | nil => simp
    | cons a as =>
      have hne : ¬ (a :: as).length = 0 := by simp
      rw [if_neg hne]
      simp only [mapExcept_pure (fun e => Scalar.flt (K := K) (f e))]
      have hm : (a :: as).map (fun e => Scalar.flt (K := K) (f e))
          = ((a :: as).map f).map Scalar.flt := by rw [List.map_map]; rfl
      rw [hm, mapExcept_meanValue_flt]
      simp only [average, List.length_map]
  rw [hspec] at h
  revert h
  rcases bayesnet B o fn n (.findReduce (fun e => .ok (.flt (f e))) none : Query α ρ K)
    (some fun e => .ok (c e)) s with ⟨r, s2⟩
  intro h
  split_ifs at h ⊢ with h0
  · cases r with
    | error e => simpa [bind, Except.bind] using h
    | ok r => simp [bind, Except.bind] at h
  · cases r with
    | error e => simp [bind, Except.bind] at h
    | ok r =>
      cases r <;> simp [bind, Except.bind, BResult.seen] at h ⊢
      exact h

theorem sum_filter_ofFn {α : Type} (f : α → ℝ) (c : α → Bool) {n : ℕ} (x : Fin n → α) :
    (((List.ofFn x).filter c).map f).sum = ∑ i, if c (x i) = true then f (x i) else 0 := by
  have h : ∀ l : List α, ((l.filter c).map f).sum = (l.map fun e => if c e = true then f e else 0).sum := by
    intro l
    induction l with
    | nil => rfl
    | cons a l ih => by_cases hc : c a = true <;> simp [hc, ih]
  rw [h, List.map_ofFn, List.sum_ofFn]
  rfl

theorem countP_ofFn_sum {α : Type} (c : α → Bool) {n : ℕ} (x : Fin n → α) :
    (((List.ofFn x).countP c : ℕ) : ℝ) = ∑ i, if c (x i) = true then (1 : ℝ) else 0 := by
  rw [← sum_filter_ofFn (fun _ => (1 : ℝ)) c x, List.countP_eq_length_filter]
  simp

section

open Filter Topology

variable {Ω : Type} [MeasurableSpace Ω] (S : IdealSource Ω) {α : Type} [MeasurableSpace α]

/-- `bayesnet(event_fn, n, find=…, conditional_on=…)` with a numeric `find` tends to the conditional
expectation of `find` given the condition: for every `δ` the chance that the call fails or is `δ` or more off
tends to 0 as `n` grows. -/
theorem conditional_mean_of_draws {ρ : Type} {m : SM (ℕ → Ω) ℝ α} {μ : Measure α} [IsProbabilityMeasure μ]
    {B : BEnv (St (ℕ → Ω) ℝ) α} {g : ℕ} (hB : B.event g = m)
    {o : BOpts} (hcores : o.cores = 1) (hload : truthyName o.load = none)
    (hdump : truthyName o.dump = none) (s : BSt (St (ℕ → Ω) ℝ) α) (hd : DrawsLaw S.law s.inner.left m Eq μ)
    (hfresh : o.reload = true ∨ s.mem (some g) = none)
    {find : α → ℝ} {given : α → Bool} (hfind : Measurable find) (hgiven : Measurable given)
    (hint : Integrable find μ)
    (hpos : 0 < μ.real {e | given e = true}) {δ : ℝ} (hδ : 0 < δ) :
    Tendsto (fun n : ℕ => (Measure.infinitePi fun _ : ℕ => S.law)
      {ω | ¬ ∃ x s', bayesnet B o (some g) n
          (.findReduce (fun e => .ok (.flt (find e))) none : Query α ρ ℝ) (some fun e => .ok (given e))
          { s with inner := ⟨ω, s.inner.left⟩ } = (.ok (.mean x), s') ∧
        |x - ∫ e, find e ∂(cond μ {e | given e = true})| < δ}) atTop (𝓝 0) := by
  have hmg : MeasurableSet {e | given e = true} := hgiven (measurableSet_singleton true)
  set pc := μ.real {e | given e = true} with hpc
  set F : α → ℝ := fun e => if given e = true then find e else 0 with hF
  set G : α → ℝ := fun e => if given e = true then (1 : ℝ) else 0 with hG
  have hFm : Measurable F := Measurable.ite hmg hfind measurable_const
  have hGm : Measurable G := Measurable.ite hmg measurable_const measurable_const
  have hFe : F = Set.indicator {e | given e = true} find := by
    funext e
    simp only [hF, Set.indicator_apply, Set.mem_ofPred_eq]
  have hGe : G = Set.indicator {e | given e = true} fun _ => 1 := by
    funext e
    simp only [hG, Set.indicator_apply, Set.mem_ofPred_eq]
  have hFi : Integrable F μ := hFe ▸ hint.indicator hmg
  have hGi : Integrable G μ := hGe ▸ (integrable_const (1 : ℝ)).indicator hmg
  have hGint : ∫ e, G e ∂μ = pc := by
    rw [hGe, integral_indicator hmg, setIntegral_const, smul_eq_mul, mul_one]
  set I := ∫ e, F e ∂μ with hI
  have hcond : ∫ e, find e ∂(cond μ {e | given e = true}) = I / pc := by
    rw [hI, hFe, integral_indicator hmg, ProbabilityTheory.cond, integral_smul_measure, smul_eq_mul,
      ENNReal.toReal_inv, div_eq_inv_mul, hpc]
    rfl
  rw [hcond]
  -- small enough that the quotient is close
  set M := 1 + |I / pc| with hM
  have hM0 : 0 < M := by positivity
  set ε := min (pc / 2) (δ * pc / (4 * M)) with hε
  have hε0 : 0 < ε := lt_min (by positivity) (by positivity)
  have h3 := (average_limit_fn hGm hGi hε0).add (average_limit_fn hFm hFi hε0)
  rw [add_zero, hGint, ← hI] at h3
  refine tendsto_of_tendsto_of_tendsto_of_le_of_le' tendsto_const_nhds h3
    (Eventually.of_forall fun n => zero_le) ?_
  filter_upwards [eventually_ge_atTop 1] with n hn
  obtain ⟨X, hX, hae, hlaw, hind⟩ := events_of_draws S hB hcores hload hdump s hd hfresh hn
  set P := Measure.infinitePi fun _ : ℕ => S.law with hP
  have hn0 : (0 : ℝ) < n := by exact_mod_cast hn
  have hpi : P.map (fun ω i => X i ω) = Measure.pi fun _ : Fin n => μ := by
    rw [(iIndepFun_iff_map_fun_eq_pi_map fun i => (hX i).aemeasurable).1 hind]
    congr 1
    funext i
    exact hlaw i
  have hset : ∀ (H : α → ℝ) (c : ℝ), Measurable H →
      MeasurableSet {x : Fin n → α | ε ≤ |(∑ i, H (x i)) / (n : ℝ) - c|} := fun H c hH =>
    measurableSet_le measurable_const (continuous_abs.measurable.comp
      (((Finset.measurable_sum _ fun i _ => hH.comp (measurable_pi_apply i)).div_const _).sub_const _))
  have hXm : Measurable fun ω (i : Fin n) => X i ω := measurable_pi_lambda _ hX
  rw [← hpi, Measure.map_apply hXm (hset G pc hGm), Measure.map_apply hXm (hset F I hFm)]
  refine (measure_mono_ae ?_).trans (measure_union_le _ _)
  filter_upwards [hae] with ω hω hbad
  obtain ⟨s', hs'⟩ := hω
  by_contra hlt
  obtain ⟨g1, g2⟩ : ¬ (ε ≤ |(∑ i, G (X i ω)) / (n : ℝ) - pc|) ∧ ¬ (ε ≤ |(∑ i, F (X i ω)) / (n : ℝ) - I|) :=
    not_or.1 hlt
  have hfr := C103_average (ρ := ρ) B o (some g) n find given _ _ _ hs'
  have ha := countP_ofFn_sum given fun i => X i ω
  have hb := sum_filter_ofFn find given fun i => X i ω
  rw [hb] at hfr
  set l := List.ofFn fun i => X i ω with hl
  set a : ℝ := ∑ i, G (X i ω) with hade
  set b : ℝ := ∑ i, F (X i ω) with hbde
  have ha' : ((l.countP given : ℕ) : ℝ) = a := ha
  rw [not_le] at g1 g2
  set u := a / n with hu
  set v := b / n with hv
  have hε1 : ε ≤ pc / 2 := min_le_left _ _
  have hε2 : ε * (4 * M) ≤ δ * pc := (le_div_iff₀ (by positivity)).1 (min_le_right _ _)
  have hu0 : pc / 2 < u := by linarith [(abs_lt.1 g1).1]
  have hupos : 0 < u := by linarith
  have ha0 : 0 < a := by
    have := mul_pos hupos hn0
    rwa [hu, div_mul_cancel₀ _ hn0.ne'] at this
  have hne : ¬ l.countP given = 0 := by
    intro h
    rw [← ha', h] at ha0
    simp at ha0
  rw [if_neg hne, ha'] at hfr
  refine hbad ⟨b / a, _, Prod.ext hfr rfl, ?_⟩
  have hfrac : b / a = v / u := by rw [hu, hv]; field_simp
  have e : v / u - I / pc = ((v - I) - (u - pc) * (I / pc)) / u := by
    field_simp
    ring
  rw [hfrac, e, abs_div, abs_of_pos hupos, div_lt_iff₀ hupos]
  have h1 : |(v - I) - (u - pc) * (I / pc)| ≤ ε * M := by
    refine (abs_sub _ _).trans ?_
    rw [abs_mul, hM, mul_add, mul_one]
    exact add_le_add g2.le (mul_le_mul_of_nonneg_right g1.le (abs_nonneg _))
  nlinarith

end

section

open Filter Topology

variable {Ω : Type} [MeasurableSpace Ω] (S : IdealSource Ω) {E : Env (ℕ → Ω) ℝ} (hE : S.Drives E)
  (hU : S.primLaw (.uniform 0 1) = some (volume.restrict (Set.Ico 0 1)))
  {α : Type} [MeasurableSpace α]

include hE hU

/-- **C103**: `bayesnet(event_fn, n, find=…, conditional_on=…)` with a numeric `find` tends to the conditional
expectation of `find` given the condition: for every `δ` the chance that the call fails or is `δ` or more off
tends to 0 as `n` grows. -/
theorem C103_conditional_mean {ρ : Type} {f : EventFn (St (ℕ → Ω) ℝ) α Unit} {κ : Unit → Measure α}
    (hf : EventLaw S.primLaw f κ) {B : BEnv (St (ℕ → Ω) ℝ) α} {g : ℕ} (hB : B.event g = f.run E ())
    {o : BOpts} (hcores : o.cores = 1) (hload : truthyName o.load = none)
    (hdump : truthyName o.dump = none) (s : BSt (St (ℕ → Ω) ℝ) α)
    (hfresh : o.reload = true ∨ s.mem (some g) = none)
    {find : α → ℝ} {given : α → Bool} (hfind : Measurable find) (hgiven : Measurable given)
    (hint : Integrable find (κ ()))
    (hpos : 0 < (κ ()).real {e | given e = true}) {δ : ℝ} (hδ : 0 < δ) :
    Tendsto (fun n : ℕ => (Measure.infinitePi fun _ : ℕ => S.law)
      {ω | ¬ ∃ x s', bayesnet B o (some g) n
          (.findReduce (fun e => .ok (.flt (find e))) none : Query α ρ ℝ) (some fun e => .ok (given e))
          { s with inner := ⟨ω, s.inner.left⟩ } = (.ok (.mean x), s') ∧
        |x - ∫ e, find e ∂(cond (κ ()) {e | given e = true})| < δ}) atTop (𝓝 0) := by
  have hd := eventLaw_draws S (left := s.inner.left) hE hU hf
  have hp : IsProbabilityMeasure (κ ()) := hd.2.1 ()
  exact conditional_mean_of_draws S hB hcores hload hdump s (hd.at ()) hfresh hfind hgiven hint hpos hδ

end

/-- The mean cost of a positive test, when a patient with the illness costs 100 and one without costs 20. -/
example {E : Env (ℕ → ℝ × ℝ) ℝ} (hE : demoSource.Drives E) {δ : ℝ} (hδ : 0 < δ) :
    Filter.Tendsto (fun n : ℕ => (Measure.infinitePi fun _ : ℕ => demoSource.law)
      {ω | ¬ ∃ x s', bayesnet (mammography E) {} (some 0) n
          (.findReduce (fun e => .ok (.flt (if e.1 then 100 else 20))) none : Query (Bool × Bool) Unit ℝ)
          (some fun e => .ok e.2)
          ⟨⟨ω, fun _ _ => none⟩, fun _ => [], 0, fun _ => none, fun _ => none, fun _ => none⟩
            = (.ok (.mean x), s') ∧
        |x - ∫ e, (if e.1 then 100 else 20)
          ∂(cond (twoStepLaw (8 / 10) (96 / 1000) (1 / 100)) {e | e.2 = true})| < δ})
      Filter.atTop (nhds 0) := by
  have hlaw := twoStep_law (S := St (ℕ → ℝ × ℝ) ℝ) demoSource.primLaw (lh := 8 / 10) (ln := 96 / 1000)
    (prior := 1 / 100) (by norm_num) (by norm_num) (by norm_num)
  have hm : Measurable fun e : Bool × Bool => if e.1 then (100 : ℝ) else 20 := measurable_of_finite _
  have hp : IsProbabilityMeasure (twoStepLaw (8 / 10) (96 / 1000) (1 / 100)) :=
    (C89_events demoSource hE demoSource_uniform hlaw (B := mammography E) (g := 0) rfl (o := {}) rfl rfl rfl
      ⟨⟨fun _ => 0, fun _ _ => none⟩, fun _ => [], 0, fun _ => none, fun _ => none, fun _ => none⟩ (Or.inr rfl)
      (n := 1) le_rfl).1
  exact C103_conditional_mean demoSource hE demoSource_uniform hlaw
    (B := mammography E) (g := 0) rfl (o := {}) rfl rfl rfl
    ⟨⟨fun _ => 0, fun _ _ => none⟩, fun _ => [], 0, fun _ => none, fun _ => none, fun _ => none⟩ (Or.inr rfl)
    hm (given := fun e => e.2) measurable_snd
    (Integrable.of_bound hm.aestronglyMeasurable 100 (.of_forall fun e => by cases e.1 <;> norm_num))
    (by rw [(twoStepLaw_real (by norm_num) (by norm_num) (by norm_num)).1]; norm_num) hδ

end Verif
