import Verif.Lemmas.EventLaw
import Verif.Lemmas.Frequency
import Verif.Lemmas.DemoSource
import Verif.Props.Bayesnet
import Verif.Model.Update
import Mathlib.Probability.ConditionalProbability

/-!
# C89: `bayesnet` estimates conditional probabilities

The generator is an ideal source of randomness (`Model/IdealSource.lean`).  `EventLaw`
(`Spec/EventLaw.lean`) says which law the value of an event function has.
-/

namespace Verif

open MeasureTheory ProbabilityTheory Spec

theorem repeatEvent_replicateL {σ α : Type} (m : SM σ ℝ α) (n : ℕ) (s : St σ ℝ) :
    repeatEvent m n s = SM.replicateL m n s := by
  induction n generalizing s with
  | zero => rfl
  | succ n ih =>
    simp only [repeatEvent, SM.replicateL, SM.bind]
    cases m s with
    | mk r s' =>
      cases r with
      | error e => rfl
      | ok a =>
        simp only [ih]
        cases SM.replicateL m n s' with
        | mk r' s'' => cases r' <;> rfl

/-- Without cached events and without cache files the events used are new ones. -/
theorem bayesnet_new {S α K : Type} [Field K] {B : BEnv S α} {o : BOpts} {g n : ℕ} {s : BSt S α}
    (hfresh : o.reload = true ∨ s.mem (some g) = none) (hcores : o.cores = 1)
    (hload : truthyName o.load = none) (hdump : truthyName o.dump = none) {l : List α} {si : S}
    (hl : repeatEvent (B.event g) n s.inner = (.ok l, si)) (hne : 1 ≤ l.length) :
    ∃ s1, bayesnet (K := K) B o (some g) n (.reduceEvents .ok : Query α (List α) K) none s
      = (.ok (.reduced l), s1) := by
  have hc : cachedEvents o (some g) n s = (.ok none, s) := by
    unfold cachedEvents
    rcases hfresh with h | h
    · simp [h]
    · simp [hload, h]
  have hg : generateEvents B o g n s = (.ok l, { s with inner := si }) := by
    simp [generateEvents, hcores, hl]
  simp only [bayesnet, hc, hg, finishBayes, saveEvents, hdump, answerEvents]
  have hlists : ∀ c : Bool, (if c = true then
      { ((({ s with inner := si } : BSt S α).alloc l).2) with
        mem := fun k => if k = some g then
          some ⟨(({ s with inner := si } : BSt S α).alloc l).1, n⟩
          else (({ s with inner := si } : BSt S α).alloc l).2.mem k }
      else (({ s with inner := si } : BSt S α).alloc l).2).lists
        (({ s with inner := si } : BSt S α).alloc l).1 = l := by
    intro c
    cases c <;> simp [BSt.alloc]
  simp only [hlists, if_neg (not_lt.2 hne), bind, Except.bind]
  exact ⟨_, rfl⟩

section

variable {Ω : Type} [MeasurableSpace Ω] (S : IdealSource Ω) {α : Type} [MeasurableSpace α]

/-- Without cached events, the events `bayesnet` uses are independent and each has the law of the event function's
value. -/
theorem events_of_draws {m : SM (ℕ → Ω) ℝ α} {μ : Measure α} [IsProbabilityMeasure μ]
    {B : BEnv (St (ℕ → Ω) ℝ) α} {g : ℕ} (hB : B.event g = m)
    {o : BOpts} (hcores : o.cores = 1) (hload : truthyName o.load = none)
    (hdump : truthyName o.dump = none) (s : BSt (St (ℕ → Ω) ℝ) α) (hd : DrawsLaw S.law s.inner.left m Eq μ)
    (hfresh : o.reload = true ∨ s.mem (some g) = none) {n : ℕ} (hn : 1 ≤ n) :
    ∃ X : Fin n → (ℕ → Ω) → α, (∀ i, Measurable (X i)) ∧
      (∀ᵐ ω ∂(Measure.infinitePi fun _ : ℕ => S.law), ∃ s',
        bayesnet B o (some g) n (.reduceEvents .ok : Query α (List α) ℝ) none
          { s with inner := ⟨ω, s.inner.left⟩ } = (.ok (.reduced (List.ofFn fun i => X i ω)), s')) ∧
      (∀ i, (Measure.infinitePi fun _ : ℕ => S.law).map (X i) = μ) ∧
      iIndepFun X (Measure.infinitePi fun _ : ℕ => S.law) := by
  obtain ⟨F, hF, hmap, hae⟩ := hd.replicateL n
  have hX : (streamLaw S.law).map (fun ω => (F ω).1) = Measure.pi fun _ : Fin n => μ := by
    have : (fun ω => (F ω).1) = Prod.fst ∘ F := rfl
    rw [this, ← Measure.map_map measurable_fst hF, hmap, Measure.map_fst_prod]
    simp
  obtain ⟨hlaw, hind⟩ := iIndep_of_pi (P := streamLaw S.law) (X := fun ω => (F ω).1) (by fun_prop) hX
  refine ⟨fun i ω => (F ω).1 i, fun i => by fun_prop, ?_, hlaw, hind⟩
  filter_upwards [hae] with ω hω
  obtain ⟨l, hl, hR⟩ := hω
  have hR' : l = List.ofFn (F ω).1 := by simpa using hR
  subst hR'
  exact bayesnet_new (s := { s with inner := (⟨ω, s.inner.left⟩ : St (ℕ → Ω) ℝ) }) hfresh hcores hload hdump
    (by rw [hB, repeatEvent_replicateL]; exact hl) (by simpa using hn)

/-- `bayesnet(event_fn, n, find=…, conditional_on=…)` is within `δ` of the conditional probability of
`find` given the condition, except with a probability that decreases exponentially with `n`. -/
theorem conditional_of_draws {ρ : Type} {m : SM (ℕ → Ω) ℝ α} {μ : Measure α} [IsProbabilityMeasure μ]
    {B : BEnv (St (ℕ → Ω) ℝ) α} {g : ℕ} (hB : B.event g = m)
    {o : BOpts} (hcores : o.cores = 1) (hload : truthyName o.load = none)
    (hdump : truthyName o.dump = none) (s : BSt (St (ℕ → Ω) ℝ) α) (hd : DrawsLaw S.law s.inner.left m Eq μ)
    (hfresh : o.reload = true ∨ s.mem (some g) = none) {n : ℕ} (hn : 1 ≤ n)
    {find given : α → Bool} (hfind : Measurable find) (hgiven : Measurable given)
    (hpos : 0 < μ.real {e | given e = true}) {δ : ℝ} (hδ : 0 < δ) :
    (Measure.infinitePi fun _ : ℕ => S.law).real
      {ω | ¬ ∃ x s', bayesnet B o (some g) n
          (.findReduce (fun e => .ok (.bool (find e))) none : Query α ρ ℝ) (some fun e => .ok (given e))
          { s with inner := ⟨ω, s.inner.left⟩ } = (.ok (.mean x), s') ∧
        |x - (cond μ {e | given e = true}).real {e | find e = true}| < δ}
      ≤ 4 * Real.exp (-2 * n * (δ * μ.real {e | given e = true} / (2 + δ)) ^ 2) := by
  obtain ⟨X, hX, hae, hlaw, hind⟩ := events_of_draws S hB hcores hload hdump s hd hfresh hn
  set P := Measure.infinitePi fun _ : ℕ => S.law with hP
  have hn0 : (0 : ℝ) < n := by exact_mod_cast hn
  have hmg : MeasurableSet {e | given e = true} := hgiven (measurableSet_singleton true)
  have hmf : MeasurableSet {e | find e = true} := hfind (measurableSet_singleton true)
  have hset : {e | (given e && find e) = true} = {e | given e = true} ∩ {e | find e = true} := by
    ext e; simp
  set pc := μ.real {e | given e = true} with hpc
  set pb := μ.real {e | (given e && find e) = true} with hpb
  have hcond : (cond μ {e | given e = true}).real {e | find e = true} = pb / pc := by
    rw [Measure.real, cond_apply hmg, ENNReal.toReal_mul, ENNReal.toReal_inv, hpb, hset, hpc, div_eq_inv_mul]
    rfl
  have hpb0 : 0 ≤ pb := measureReal_nonneg
  have hpbc : pb ≤ pc := by
    rw [hpb, hset]
    exact measureReal_mono Set.inter_subset_left
  have hε : 0 < δ * pc / (2 + δ) := by positivity
  have b1 := frequency_bound hn hX hlaw hind given hmg hε
  have b2 := frequency_bound hn hX hlaw hind (fun e => given e && find e) (by rw [hset]; exact hmg.inter hmf) hε
  rw [← hpc] at b1
  rw [← hpb] at b2
  set ε := δ * pc / (2 + δ) with hεd
  have h4 : 4 * Real.exp (-2 * n * ε ^ 2)
      = 2 * Real.exp (-2 * n * ε ^ 2) + 2 * Real.exp (-2 * n * ε ^ 2) := by ring
  rw [h4]
  refine le_trans ?_ ((measureReal_union_le _ _).trans (add_le_add b1 b2))
  refine ENNReal.toReal_mono (measure_ne_top _ _) (measure_mono_ae ?_)
  filter_upwards [hae] with ω hω hbad
  obtain ⟨s', hs'⟩ := hω
  by_contra hlt
  have hlt' : ¬ (ε ≤ |(((List.ofFn fun i => X i ω).countP given : ℕ) : ℝ) / n - pc|) ∧
      ¬ (ε ≤ |(((List.ofFn fun i => X i ω).countP fun e => given e && find e : ℕ) : ℝ) / n - pb|) :=
    not_or.1 hlt
  obtain ⟨g1, g2⟩ := hlt'
  have hfr := C46_frequency (ρ := ρ) B o (some g) n find given _ _ _ hs'
  set l := List.ofFn fun i => X i ω with hl
  set a := ((l.countP given : ℕ) : ℝ) with ha
  set b := ((l.countP fun e => given e && find e : ℕ) : ℝ) with hb
  rw [not_le, abs_lt] at g1 g2
  have h2δ : (0 : ℝ) < 2 + δ := by linarith
  have hε2 : ε * (2 + δ) = δ * pc := by rw [hεd]; field_simp
  have hεpc : ε < pc := by
    by_contra h
    nlinarith
  have haN : 0 < a / n := by linarith [g1.1]
  have ha0 : 0 < a := by
    have := mul_pos haN hn0
    rwa [div_mul_cancel₀ _ hn0.ne'] at this
  have hne : ¬ l.countP given = 0 := by
    intro h
    rw [ha, h] at ha0
    simp at ha0
  rw [if_neg hne] at hfr
  refine hbad ⟨b / a, _, Prod.ext hfr rfl, ?_⟩
  rw [hcond]
  have hfrac : b / a = (b / n) / (a / n) := by field_simp
  rw [hfrac]
  set u := a / n
  set v := b / n
  have hq : pb / pc ≤ 1 := (div_le_one hpos).2 hpbc
  have hq0 : 0 ≤ pb / pc := by positivity
  have e : v / u - pb / pc = ((v - pb) - (u - pc) * (pb / pc)) / u := by
    field_simp
    ring
  have hbound : |(v - pb) - (u - pc) * (pb / pc)| < 2 * ε := by
    have h1 : |v - pb| < ε := abs_lt.2 g2
    have h2 : |(u - pc) * (pb / pc)| ≤ ε := by
      rw [abs_mul, abs_of_nonneg hq0]
      have : |u - pc| < ε := abs_lt.2 g1
      nlinarith [abs_nonneg (u - pc)]
    calc _ ≤ |v - pb| + |(u - pc) * (pb / pc)| := abs_sub _ _
      _ < 2 * ε := by linarith
  rw [e, abs_div, abs_of_pos haN, div_lt_iff₀ haN]
  nlinarith [g1.1]

end

section

variable {Ω : Type} [MeasurableSpace Ω] (S : IdealSource Ω) {E : Env (ℕ → Ω) ℝ} (hE : S.Drives E)
  (hU : S.primLaw (.uniform 0 1) = some (volume.restrict (Set.Ico 0 1)))
  {α : Type} [MeasurableSpace α]

include hE hU

/-- **C89**: without cached events, the `n` events `bayesnet` uses are independent and each has the law of the
event function's value. -/
theorem C89_events {f : EventFn (St (ℕ → Ω) ℝ) α Unit} {κ : Unit → Measure α}
    (hf : EventLaw S.primLaw f κ) {B : BEnv (St (ℕ → Ω) ℝ) α} {g : ℕ} (hB : B.event g = f.run E ())
    {o : BOpts} (hcores : o.cores = 1) (hload : truthyName o.load = none)
    (hdump : truthyName o.dump = none) (s : BSt (St (ℕ → Ω) ℝ) α)
    (hfresh : o.reload = true ∨ s.mem (some g) = none) {n : ℕ} (hn : 1 ≤ n) :
    IsProbabilityMeasure (κ ()) ∧ ∃ X : Fin n → (ℕ → Ω) → α, (∀ i, Measurable (X i)) ∧
      (∀ᵐ ω ∂(Measure.infinitePi fun _ : ℕ => S.law), ∃ s',
        bayesnet B o (some g) n (.reduceEvents .ok : Query α (List α) ℝ) none
          { s with inner := ⟨ω, s.inner.left⟩ } = (.ok (.reduced (List.ofFn fun i => X i ω)), s')) ∧
      (∀ i, (Measure.infinitePi fun _ : ℕ => S.law).map (X i) = κ ()) ∧
      iIndepFun X (Measure.infinitePi fun _ : ℕ => S.law) := by
  have hd := eventLaw_draws S (left := s.inner.left) hE hU hf
  have hp : IsProbabilityMeasure (κ ()) := hd.2.1 ()
  exact ⟨hp, events_of_draws S hB hcores hload hdump s (hd.at ()) hfresh hn⟩

/-- **C89**: `bayesnet(event_fn, n, find=…, conditional_on=…)` is within `δ` of the conditional probability of
`find` given the condition, except with a probability that decreases exponentially with `n`. -/
theorem C89_conditional {ρ : Type} {f : EventFn (St (ℕ → Ω) ℝ) α Unit} {κ : Unit → Measure α}
    (hf : EventLaw S.primLaw f κ) {B : BEnv (St (ℕ → Ω) ℝ) α} {g : ℕ} (hB : B.event g = f.run E ())
    {o : BOpts} (hcores : o.cores = 1) (hload : truthyName o.load = none)
    (hdump : truthyName o.dump = none) (s : BSt (St (ℕ → Ω) ℝ) α)
    (hfresh : o.reload = true ∨ s.mem (some g) = none) {n : ℕ} (hn : 1 ≤ n)
    {find given : α → Bool} (hfind : Measurable find) (hgiven : Measurable given)
    (hpos : 0 < (κ ()).real {e | given e = true}) {δ : ℝ} (hδ : 0 < δ) :
    (Measure.infinitePi fun _ : ℕ => S.law).real
      {ω | ¬ ∃ x s', bayesnet B o (some g) n
          (.findReduce (fun e => .ok (.bool (find e))) none : Query α ρ ℝ) (some fun e => .ok (given e))
          { s with inner := ⟨ω, s.inner.left⟩ } = (.ok (.mean x), s') ∧
        |x - (cond (κ ()) {e | given e = true}).real {e | find e = true}| < δ}
      ≤ 4 * Real.exp (-2 * n * (δ * (κ ()).real {e | given e = true} / (2 + δ)) ^ 2) := by
  have hd := eventLaw_draws S (left := s.inner.left) hE hU hf
  have hp : IsProbabilityMeasure (κ ()) := hd.2.1 ()
  exact conditional_of_draws S hB hcores hload hdump s (hd.at ()) hfresh hn hfind hgiven hpos hδ

end

/-! ## Bayes' rule -/

/-- `h = event(prior); e = event(likelihood_h if h else likelihood_not_h); return (h, e)`. -/
def twoStep (S : Type) (lh ln prior : ℝ) : EventFn S (Bool × Bool) Unit :=
  .happens (fun _ => prior) measurable_const
    (.happens (fun γ => if γ.2 then lh else ln)
      (Measurable.ite (measurable_snd (measurableSet_singleton true)) measurable_const measurable_const)
      (.ret (fun γ => (γ.1.2, γ.2)) (by fun_prop)))

/-- Its law. -/
noncomputable def twoStepLaw (lh ln prior : ℝ) : Measure (Bool × Bool) :=
  ENNReal.ofReal prior • (ENNReal.ofReal lh • Measure.dirac (true, true)
      + ENNReal.ofReal (1 - lh) • Measure.dirac (true, false))
    + ENNReal.ofReal (1 - prior) • (ENNReal.ofReal ln • Measure.dirac (false, true)
      + ENNReal.ofReal (1 - ln) • Measure.dirac (false, false))

theorem twoStep_law {S : Type} (L : Prim ℝ → Option (Measure ℝ)) {lh ln prior : ℝ} (h1 : 0 ≤ lh ∧ lh ≤ 1)
    (h2 : 0 ≤ ln ∧ ln ≤ 1) (h3 : 0 ≤ prior ∧ prior ≤ 1) :
    EventLaw L (twoStep S lh ln prior) fun _ => twoStepLaw lh ln prior := by
  have h := EventLaw.happens (S := S) (α := Bool × Bool) (L := L) (Γ := Unit) (p := fun _ => prior)
    measurable_const (fun _ => h3)
    (EventLaw.happens (p := fun γ : Unit × Bool => if γ.2 then lh else ln)
      (Measurable.ite (measurable_snd (measurableSet_singleton true)) measurable_const measurable_const)
      (fun γ => by rcases γ with ⟨u, b⟩; cases b <;> simpa) (EventLaw.ret
        (g := fun γ : (Unit × Bool) × Bool => (γ.1.2, γ.2)) (by fun_prop)))
  exact h

theorem twoStepLaw_real {lh ln prior : ℝ} (h1 : 0 ≤ lh) (h2 : 0 ≤ ln) (h3 : 0 ≤ prior ∧ prior ≤ 1) :
    (twoStepLaw lh ln prior).real {e | e.2 = true} = lh * prior + ln * (1 - prior) ∧
    (twoStepLaw lh ln prior).real ({e | e.2 = true} ∩ {e | e.1 = true}) = lh * prior := by
  have h4 : 0 ≤ 1 - prior := by linarith
  constructor
  · simp only [Measure.real, twoStepLaw]
    simp only [Measure.add_apply, Measure.smul_apply, smul_eq_mul,
      Measure.dirac_apply' _ (Set.toFinite _).measurableSet]
    simp [← ENNReal.ofReal_mul, h3.1, h4]
    have p1 := mul_nonneg h3.1 h1
    have p2 := mul_nonneg h4 h2
    rw [← ENNReal.ofReal_add p1 p2, ENNReal.toReal_ofReal (add_nonneg p1 p2)]
    ring
  · simp only [Measure.real, twoStepLaw]
    simp only [Measure.add_apply, Measure.smul_apply, smul_eq_mul,
      Measure.dirac_apply' _ (Set.toFinite _).measurableSet]
    simp [h1, h3.1]
    ring

section

variable {Ω : Type} [MeasurableSpace Ω] (S : IdealSource Ω) {E : Env (ℕ → Ω) ℝ} (hE : S.Drives E)
  (hU : S.primLaw (.uniform 0 1) = some (volume.restrict (Set.Ico 0 1)))

include hE hU

/-- **C89**: for the event function `h = event(prior); e = event(likelihood_h if h else likelihood_not_h)`,
`bayesnet(…, find=h, conditional_on=e)` comes within `δ` of `simple_bayes(likelihood_h, likelihood_not_h,
prior)`, except with a probability that decreases exponentially with `n`. -/
theorem C89_simple_bayes {ρ : Type} {lh ln prior : ℝ} (h1 : 0 ≤ lh ∧ lh ≤ 1) (h2 : 0 ≤ ln ∧ ln ≤ 1)
    (h3 : 0 ≤ prior ∧ prior ≤ 1) (hpos : 0 < lh * prior + ln * (1 - prior))
    {B : BEnv (St (ℕ → Ω) ℝ) (Bool × Bool)} {g : ℕ} (hB : B.event g = (twoStep _ lh ln prior).run E ())
    {o : BOpts} (hcores : o.cores = 1) (hload : truthyName o.load = none)
    (hdump : truthyName o.dump = none) (s : BSt (St (ℕ → Ω) ℝ) (Bool × Bool))
    (hfresh : o.reload = true ∨ s.mem (some g) = none) {n : ℕ} (hn : 1 ≤ n) {δ : ℝ} (hδ : 0 < δ) :
    ∃ p, simpleBayes lh ln prior = .ok p ∧
    (Measure.infinitePi fun _ : ℕ => S.law).real
      {ω | ¬ ∃ x s', bayesnet B o (some g) n
          (.findReduce (fun e => .ok (.bool e.1)) none : Query (Bool × Bool) ρ ℝ) (some fun e => .ok e.2)
          { s with inner := ⟨ω, s.inner.left⟩ } = (.ok (.mean x), s') ∧ |x - p| < δ}
      ≤ 4 * Real.exp (-2 * n * (δ * (lh * prior + ln * (1 - prior)) / (2 + δ)) ^ 2) := by
  obtain ⟨e1, e2⟩ := twoStepLaw_real h1.1 h2.1 h3
  refine ⟨lh * prior / (lh * prior + ln * (1 - prior)), by simp [simpleBayes, pyDiv, hpos.ne'], ?_⟩
  have h := C89_conditional S hE hU (ρ := ρ) (twoStep_law S.primLaw h1 h2 h3) hB hcores hload hdump s hfresh hn
    (find := fun e => e.1) (given := fun e => e.2) measurable_fst measurable_snd (by rw [e1]; exact hpos) hδ
  have hc : (cond (twoStepLaw lh ln prior) {e : Bool × Bool | e.2 = true}).real {e | e.1 = true}
      = lh * prior / (lh * prior + ln * (1 - prior)) := by
    rw [Measure.real, cond_apply (Set.toFinite _).measurableSet, ENNReal.toReal_mul, ENNReal.toReal_inv,
      ← Measure.real, ← Measure.real, e1, e2, div_eq_inv_mul]
  rw [hc, e1] at h
  exact h

end

/-! ## Example -/

/-- The breast cancer example of the README: prior 1%, hit rate 80%, false alarm rate 9.6%. -/
noncomputable def mammography (E : Env (ℕ → ℝ × ℝ) ℝ) : BEnv (St (ℕ → ℝ × ℝ) ℝ) (Bool × Bool) where
  event _ := (twoStep _ (8 / 10) (96 / 1000) (1 / 100)).run E ()
  codec := some

example {E : Env (ℕ → ℝ × ℝ) ℝ} (hE : demoSource.Drives E) :
    ∃ p, simpleBayes (8 / 10) (96 / 1000) (1 / 100) = .ok p ∧
    (Measure.infinitePi fun _ : ℕ => demoSource.law).real
      {ω | ¬ ∃ x s', bayesnet (mammography E) {} (some 0) (1000000 : ℕ)
          (.findReduce (fun e => .ok (.bool e.1)) none : Query (Bool × Bool) Unit ℝ) (some fun e => .ok e.2)
          ⟨⟨ω, fun _ _ => none⟩, fun _ => [], 0, fun _ => none, fun _ => none, fun _ => none⟩
            = (.ok (.mean x), s') ∧ |x - p| < 1 / 10}
      ≤ 4 * Real.exp (-2 * (1000000 : ℕ) * (1 / 10 * (8 / 10 * (1 / 100) + 96 / 1000 * (1 - 1 / 100))
        / (2 + 1 / 10)) ^ 2) :=
  C89_simple_bayes demoSource hE demoSource_uniform (by norm_num) (by norm_num) (by norm_num) (by norm_num)
    (B := mammography E) (g := 0) rfl (o := {}) rfl rfl rfl
    ⟨⟨fun _ => 0, fun _ _ => none⟩, fun _ => [], 0, fun _ => none, fun _ => none, fun _ => none⟩ (Or.inr rfl)
    (n := 1000000) (by norm_num) (by norm_num)

/-- An event function that also samples a distribution: `x = ~d; h = event(0.3) if x > 0 else event(0.6)`. -/
example {μ : Measure ℝ} {d : Obj (St (ℕ → ℝ × ℝ) ℝ) ℝ} (hd : Denotes demoSource.primLaw d μ) :
    ∃ (f : EventFn (St (ℕ → ℝ × ℝ) ℝ) Bool Unit) (κ : Unit → Measure Bool),
      EventLaw demoSource.primLaw f κ :=
  ⟨_, _, .draw (Γ := Unit) hd (.ite (c := fun γ => decide (0 < γ.2))
      (measurable_to_bool (by
        have : (fun γ : Unit × ℝ => decide (0 < γ.2)) ⁻¹' {true} = {γ | 0 < γ.2} := by ext; simp
        rw [this]; exact measurableSet_lt measurable_const measurable_snd))
    (.happens (p := fun _ => 3 / 10) measurable_const (fun _ => by norm_num)
      (.ret (g := fun γ => γ.2) measurable_snd))
    (.happens (p := fun _ => 6 / 10) measurable_const (fun _ => by norm_num)
      (.ret (g := fun γ => γ.2) measurable_snd)))⟩

end Verif
