import Verif.Spec.EventLaw
import Verif.Lemmas.DenoteInduct
import Verif.Lemmas.TextLaw

/-!
# Helper lemmas: the law of the value a user's function returns
-/

namespace Verif

open MeasureTheory Spec

section DrawsFrom

variable {Ω Γ A B : Type} [MeasurableSpace Ω] [MeasurableSpace Γ] [MeasurableSpace A] [MeasurableSpace B]
  (μ₀ : Measure Ω) [IsProbabilityMeasure μ₀] (left : ℕ → ℕ → Option (List (Scalar ℝ)))

/-- A program with a parameter, whose result has a law that depends on the parameter. -/
def DrawsFrom (m : Γ → SM (ℕ → Ω) ℝ A) (κ : Γ → Measure A) : Prop :=
  Measurable κ ∧ (∀ γ, IsProbabilityMeasure (κ γ)) ∧
  ∃ (F : Γ × (ℕ → Ω) → A × (ℕ → Ω)) (bad : Set (Γ × (ℕ → Ω))), Measurable F ∧ MeasurableSet bad ∧
    (∀ γ, (streamLaw μ₀).map (fun ω => F (γ, ω)) = (κ γ).prod (streamLaw μ₀)) ∧
    (∀ γ, streamLaw μ₀ {ω | (γ, ω) ∈ bad} = 0) ∧
    ∀ γ ω, (γ, ω) ∉ bad → m γ ⟨ω, left⟩ = (.ok (F (γ, ω)).1, ⟨(F (γ, ω)).2, left⟩)

variable {μ₀ left}

theorem DrawsLaw.from {m : SM (ℕ → Ω) ℝ A} {μ : Measure A} [IsProbabilityMeasure μ]
    (h : DrawsLaw μ₀ left m Eq μ) : DrawsFrom μ₀ left (fun _ : Γ => m) fun _ => μ := by
  obtain ⟨F, h1, h2, h3⟩ := h
  refine ⟨measurable_const, fun _ => inferInstance, fun p => F p.2,
    {p | p.2 ∈ toMeasurable (streamLaw μ₀) {ω | ¬ m ⟨ω, left⟩ = (.ok (F ω).1, ⟨(F ω).2, left⟩)}},
    by fun_prop, measurable_snd (measurableSet_toMeasurable _ _), fun _ => h2, fun γ => ?_, fun γ ω hω => ?_⟩
  · show streamLaw μ₀ (toMeasurable _ _) = 0
    rw [measure_toMeasurable]
    refine ae_iff.1 (h3.mono fun ω hω => ?_)
    obtain ⟨a, ha, rfl⟩ := hω
    exact ha
  · by_contra hne
    exact hω (subset_toMeasurable _ _ hne)

theorem DrawsFrom.at {m : Γ → SM (ℕ → Ω) ℝ A} {κ : Γ → Measure A} (h : DrawsFrom μ₀ left m κ) (γ : Γ) :
    DrawsLaw μ₀ left (m γ) Eq (κ γ) := by
  obtain ⟨-, -, F, bad, h1, -, h3, h4, h5⟩ := h
  refine ⟨fun ω => F (γ, ω), by fun_prop, h3 γ, ?_⟩
  have : ∀ᵐ ω ∂(streamLaw μ₀), (γ, ω) ∉ bad := by
    rw [ae_iff]
    simpa using h4 γ
  filter_upwards [this] with ω hω
  exact ⟨_, h5 γ ω hω, rfl⟩

theorem DrawsFrom.pure {g : Γ → A} (hg : Measurable g) :
    DrawsFrom μ₀ left (fun γ => SM.pure (g γ)) fun γ => Measure.dirac (g γ) := by
  refine ⟨Measure.measurable_dirac.comp hg, fun _ => inferInstance, fun p => (g p.1, p.2), ∅, by fun_prop,
    MeasurableSet.empty, fun γ => ?_, fun γ => by simp, fun γ ω _ => rfl⟩
  rw [Measure.dirac_prod]

theorem DrawsFrom.bind {m : Γ → SM (ℕ → Ω) ℝ A} {κ : Γ → Measure A} (hm : DrawsFrom μ₀ left m κ)
    {k : Γ × A → SM (ℕ → Ω) ℝ B} {κ' : Γ × A → Measure B} (hk : DrawsFrom μ₀ left k κ') :
    DrawsFrom μ₀ left (fun γ => SM.bind (m γ) fun a => k (γ, a))
      fun γ => (κ γ).bind fun a => κ' (γ, a) := by
  obtain ⟨hκ, hp, F, bad, h1, h2, h3, h4, h5⟩ := hm
  obtain ⟨hκ', hp', F', bad', h1', h2', h3', h4', h5'⟩ := hk
  have hsec : ∀ γ, Measurable fun a => κ' (γ, a) := fun γ => hκ'.comp measurable_prodMk_left
  have hstep : Measurable fun p : Γ × (ℕ → Ω) => ((p.1, (F p).1), (F p).2) := by fun_prop
  refine ⟨?_, ?_, fun p => F' ((p.1, (F p).1), (F p).2),
    bad ∪ (fun p : Γ × (ℕ → Ω) => ((p.1, (F p).1), (F p).2)) ⁻¹' bad', h1'.comp hstep,
    h2.union (hstep h2'), fun γ => ?_, fun γ => ?_, fun γ ω hω => ?_⟩
  · refine Measure.measurable_of_measurable_coe _ fun s hs => ?_
    have e : (fun γ => ((κ γ).bind fun a => κ' (γ, a)) s) = fun γ => ∫⁻ a, κ' (γ, a) s ∂(κ γ) := by
      ext γ
      rw [Measure.bind_apply hs (hsec γ).aemeasurable]
    rw [e]
    let K : ProbabilityTheory.Kernel Γ A := ⟨κ, hκ⟩
    have : ProbabilityTheory.IsMarkovKernel K := ⟨hp⟩
    exact Measurable.lintegral_kernel_prod_right' (κ := K)
      (f := fun p : Γ × A => κ' p s) ((Measure.measurable_coe hs).comp hκ')
  · intro γ
    have := hp γ
    refine ⟨?_⟩
    rw [Measure.bind_apply MeasurableSet.univ (hsec γ).aemeasurable]
    have : ∀ a, κ' (γ, a) Set.univ = 1 := fun a => (hp' (γ, a)).measure_univ
    simp [this]
  · have := hp γ
    have : ∀ a, IsProbabilityMeasure (κ' (γ, a)) := fun a => hp' (γ, a)
    have : IsProbabilityMeasure ((κ γ).bind fun a => κ' (γ, a)) := by
      refine ⟨?_⟩
      rw [Measure.bind_apply MeasurableSet.univ (hsec γ).aemeasurable]
      have : ∀ a, κ' (γ, a) Set.univ = 1 := fun a => (hp' (γ, a)).measure_univ
      simp [this]
    have hG : Measurable fun q : A × (ℕ → Ω) => F' ((γ, q.1), q.2) := by fun_prop
    have e : (fun ω => F' ((γ, (F (γ, ω)).1), (F (γ, ω)).2))
        = (fun q : A × (ℕ → Ω) => F' ((γ, q.1), q.2)) ∘ fun ω => F (γ, ω) := rfl
    show (streamLaw μ₀).map (fun ω => F' ((γ, (F (γ, ω)).1), (F (γ, ω)).2)) = _
    rw [e, ← Measure.map_map hG (by fun_prop), h3 γ]
    ext s hs
    rw [Measure.map_apply hG hs, Measure.prod_apply (hG hs), Measure.prod_apply hs,
      Measure.lintegral_bind (hsec γ).aemeasurable (measurable_measure_prodMk_left hs).aemeasurable]
    refine lintegral_congr fun a => ?_
    rw [← Measure.prod_apply hs, ← h3' (γ, a), Measure.map_apply (by fun_prop) hs]
    rfl
  · have := hp γ
    have hsub : {ω | (γ, ω) ∈ bad ∪ (fun p : Γ × (ℕ → Ω) => ((p.1, (F p).1), (F p).2)) ⁻¹' bad'}
        = {ω | (γ, ω) ∈ bad} ∪ (fun ω => F (γ, ω)) ⁻¹' {q | ((γ, q.1), q.2) ∈ bad'} := rfl
    rw [hsub]
    refine measure_union_null (h4 γ) ?_
    have hm : MeasurableSet {q : A × (ℕ → Ω) | ((γ, q.1), q.2) ∈ bad'} := by
      have : Measurable fun q : A × (ℕ → Ω) => ((γ, q.1), q.2) := by fun_prop
      exact this h2'
    rw [← Measure.map_apply (by fun_prop) hm, h3 γ, Measure.prod_apply hm]
    have : ∀ a, (streamLaw μ₀) (Prod.mk a ⁻¹' {q : A × (ℕ → Ω) | ((γ, q.1), q.2) ∈ bad'}) = 0 :=
      fun a => h4' (γ, a)
    rw [lintegral_congr this, lintegral_zero]
  · simp only [Set.mem_union, Set.mem_preimage, not_or] at hω
    simp only [SM.bind, h5 γ ω hω.1]
    exact h5' _ _ hω.2

theorem DrawsFrom.congr {m m' : Γ → SM (ℕ → Ω) ℝ A} {κ κ' : Γ → Measure A} (h : DrawsFrom μ₀ left m κ)
    (hm : ∀ γ ω, m' γ ⟨ω, left⟩ = m γ ⟨ω, left⟩) (hκ : ∀ γ, κ' γ = κ γ) : DrawsFrom μ₀ left m' κ' := by
  have e : κ' = κ := funext hκ
  subst e
  obtain ⟨hκ, hp, F, bad, h1, h2, h3, h4, h5⟩ := h
  exact ⟨hκ, hp, F, bad, h1, h2, h3, h4, fun γ ω hω => by rw [hm, h5 γ ω hω]⟩

theorem DrawsFrom.ite {c : Γ → Bool} (hc : Measurable c) {m₁ m₂ : Γ → SM (ℕ → Ω) ℝ A}
    {κ₁ κ₂ : Γ → Measure A} (h₁ : DrawsFrom μ₀ left m₁ κ₁) (h₂ : DrawsFrom μ₀ left m₂ κ₂) :
    DrawsFrom μ₀ left (fun γ => if c γ then m₁ γ else m₂ γ) fun γ => if c γ then κ₁ γ else κ₂ γ := by
  obtain ⟨hκ, hp, F, bad, h1, h2, h3, h4, h5⟩ := h₁
  obtain ⟨hκ', hp', F', bad', h1', h2', h3', h4', h5'⟩ := h₂
  have hset : MeasurableSet {γ | c γ = true} := hc (measurableSet_singleton true)
  have hset' : MeasurableSet {p : Γ × (ℕ → Ω) | c p.1 = true} := measurable_fst hset
  refine ⟨Measurable.ite hset hκ hκ', fun γ => ?_, fun p => if c p.1 then F p else F' p,
    {p | if c p.1 then p ∈ bad else p ∈ bad'}, Measurable.ite hset' h1 h1', ?_, fun γ => ?_, fun γ => ?_,
    fun γ ω hω => ?_⟩
  · by_cases h : c γ = true
    · simp only [h, if_true]; exact hp γ
    · simp only [h]; exact hp' γ
  · have : {p : Γ × (ℕ → Ω) | if c p.1 then p ∈ bad else p ∈ bad'}
        = ({p | c p.1 = true} ∩ bad) ∪ ({p | c p.1 = true}ᶜ ∩ bad') := by
      ext p
      by_cases h : c p.1 = true <;> simp [h]
    rw [this]
    exact (hset'.inter h2).union (hset'.compl.inter h2')
  · by_cases h : c γ = true
    · simp only [h, if_true]; exact h3 γ
    · simp only [h]; exact h3' γ
  · by_cases h : c γ = true
    · simp only [Set.mem_setOf_eq, h, if_true]; exact h4 γ
    · simp only [Set.mem_setOf_eq, h]; exact h4' γ
  · by_cases h : c γ = true
    · simp only [Set.mem_setOf_eq, h, if_true] at hω ⊢; exact h5 γ ω hω
    · simp only [Set.mem_setOf_eq, h] at hω ⊢; exact h5' γ ω hω

/-- A program chosen by something with countably many values. -/
theorem DrawsFrom.countable {ι : Type} [MeasurableSpace ι] [Countable ι] [DiscreteMeasurableSpace ι] {c : Γ → ι}
    (hc : Measurable c) {m : ι → SM (ℕ → Ω) ℝ A} {κ : ι → Measure A} (hp : ∀ i, IsProbabilityMeasure (κ i))
    (h : ∀ i, DrawsLaw μ₀ left (m i) Eq (κ i)) : DrawsFrom μ₀ left (fun γ => m (c γ)) fun γ => κ (c γ) := by
  have hall : ∀ i, DrawsFrom μ₀ left (fun _ : Unit => m i) fun _ => κ i := fun i => (h i).from
  choose h0 h1 F bad hF hbad hlaw hnull hrun using hall
  have hpair : Measurable fun p : Γ × (ℕ → Ω) => (c p.1, p.2) := by fun_prop
  have hFm : Measurable fun p : ι × (ℕ → Ω) => F p.1 ((), p.2) :=
    measurable_from_prod_countable_right fun i => (hF i).comp (measurable_const.prodMk measurable_id)
  have hbm : MeasurableSet {p : ι × (ℕ → Ω) | ((), p.2) ∈ bad p.1} := by
    have : {p : ι × (ℕ → Ω) | ((), p.2) ∈ bad p.1} = ⋃ i, {p | p.1 = i} ∩ {p | ((), p.2) ∈ bad i} := by
      ext p; simp
    rw [this]
    refine MeasurableSet.iUnion fun i => (measurable_fst (measurableSet_singleton i)).inter ?_
    exact (measurable_const.prodMk measurable_snd : Measurable fun p : ι × (ℕ → Ω) => ((), p.2)) (hbad i)
  exact ⟨(measurable_of_countable κ).comp hc, fun γ => hp (c γ), fun p => F (c p.1) ((), p.2),
    {p | ((), p.2) ∈ bad (c p.1)}, hFm.comp hpair, hpair hbm, fun γ => hlaw (c γ) (), fun γ => hnull (c γ) (),
    fun γ ω hω => hrun (c γ) () ω hω⟩

end DrawsFrom

section Run

variable {Ω : Type} [MeasurableSpace Ω] (S : IdealSource Ω)
  {left : ℕ → ℕ → Option (List (Scalar ℝ))} {E : Env (ℕ → Ω) ℝ} (hE : S.Drives E)
  (hU : S.primLaw (.uniform 0 1) = some unitLaw)

/-- One uniform number. -/
noncomputable def drawUnit (E : Env (ℕ → Ω) ℝ) : SM (ℕ → Ω) ℝ ℝ :=
  SM.bind (drawSM E (.uniform 0 1) 1) fun us => SM.lift (match us with
    | [.flt u] => .ok u
    | _ => .error .unmodelled)

include hE hU in
theorem drawUnit_law : DrawsLaw S.law left (drawUnit E) Eq unitLaw := by
  have h := (drawSM_law S (left := left) hE.gen hU 1).bind_lift (h := fun us => match us with
    | [.flt u] => .ok u
    | _ => .error .unmodelled) (R' := Eq) (fun x => x 0) (measurable_pi_apply 0)
    (Filter.Eventually.of_forall fun x us hx => by
      simp only [List.ofFn_succ, List.ofFn_zero, List.forall₂_cons_right_iff,
        List.forall₂_nil_right_iff] at hx
      obtain ⟨v, l, ⟨⟨u, rfl, -⟩, hu⟩, rfl, rfl⟩ := hx
      refine ⟨u, rfl, ?_⟩
      rcases hu with e | ⟨z, e, -⟩
      · cases e; rfl
      · cases e)
  rw [pi_map_eval] at h
  exact h

theorem eventOccurs_unit (p : ℝ) (s : St (ℕ → Ω) ℝ) :
    eventOccurs E (.lit (.flt p)) s = SM.bind (drawUnit E) (fun u => SM.pure (decide (u < p))) s := by
  simp only [eventOccurs, drawBelow, drawUnit, SM.bind]
  cases drawSM E (.uniform 0 1) 1 s with
  | mk r s' =>
    cases r with
    | error e => rfl
    | ok us =>
      rcases us with _ | ⟨v, _ | ⟨_, _⟩⟩
      · rfl
      · cases v <;> rfl
      · cases v <;> rfl

theorem unit_below {p : ℝ} (h0 : 0 ≤ p) (h1 : p ≤ 1) :
    (unitLaw.bind fun u => Measure.dirac (decide (u < p)))
      = ENNReal.ofReal p • Measure.dirac true + ENNReal.ofReal (1 - p) • Measure.dirac false := by
  have hm : Measurable fun u : ℝ => decide (u < p) :=
    measurable_to_bool (by
      have : (fun u : ℝ => decide (u < p)) ⁻¹' {true} = Set.Iio p := by ext u; simp
      rw [this]; exact measurableSet_Iio)
  rw [Measure.bind_dirac_eq_map _ hm]
  refine Measure.ext_of_singleton fun b => ?_
  rw [Measure.map_apply hm (measurableSet_singleton b)]
  cases b
  · have : (fun u : ℝ => decide (u < p)) ⁻¹' {false} = Set.Ici p := by ext u; simp
    rw [this, unitLaw, Measure.restrict_apply measurableSet_Ici]
    have : Set.Ici p ∩ Set.Ico 0 1 = Set.Ico p 1 := by
      ext u; simp only [Set.mem_inter_iff, Set.mem_Ici, Set.mem_Ico]
      constructor
      · rintro ⟨h, -, h'⟩; exact ⟨h, h'⟩
      · rintro ⟨h, h'⟩; exact ⟨h, h0.trans h, h'⟩
    rw [this]
    simp
  · have : (fun u : ℝ => decide (u < p)) ⁻¹' {true} = Set.Iio p := by ext u; simp
    rw [this, unitLaw, Measure.restrict_apply measurableSet_Iio]
    have : Set.Iio p ∩ Set.Ico 0 1 = Set.Ico 0 p := by
      ext u; simp only [Set.mem_inter_iff, Set.mem_Iio, Set.mem_Ico]
      constructor
      · rintro ⟨h, h', -⟩; exact ⟨h', h⟩
      · rintro ⟨h, h'⟩; exact ⟨h', h, h'.trans_le h1⟩
    rw [this]
    simp

theorem eventChance_mem (x : ℝ) : 0 ≤ eventChance x ∧ eventChance x ≤ 1 :=
  ⟨le_max_left _ _, max_le zero_le_one (min_le_right _ _)⟩

theorem eventChance_of {x : ℝ} (h0 : 0 ≤ x) (h1 : x ≤ 1) : eventChance x = x := by
  rw [eventChance, min_eq_left h1, max_eq_right h0]

theorem unit_below_chance (p : ℝ) :
    (unitLaw.bind fun u => Measure.dirac (decide (u < p)))
      = ENNReal.ofReal (eventChance p) • Measure.dirac true + ENNReal.ofReal (1 - eventChance p) • Measure.dirac false := by
  rw [← unit_below (eventChance_mem p).1 (eventChance_mem p).2]
  have hm : ∀ p : ℝ, Measurable fun u : ℝ => decide (u < p) := fun p =>
    measurable_to_bool (by
      have : (fun u : ℝ => decide (u < p)) ⁻¹' {true} = Set.Iio p := by ext u; simp
      rw [this]; exact measurableSet_Iio)
  rw [Measure.bind_dirac_eq_map _ (hm _), Measure.bind_dirac_eq_map _ (hm _)]
  refine Measure.map_congr ?_
  have : ∀ᵐ u ∂unitLaw, u ∈ Set.Ico (0 : ℝ) 1 := ae_restrict_mem measurableSet_Ico
  filter_upwards [this] with u hu
  refine decide_eq_decide.2 ?_
  rw [eventChance, lt_max_iff, lt_min_iff]
  constructor
  · exact fun h => Or.inr ⟨h, hu.2⟩
  · rintro (h | h)
    · exact absurd hu.1 (not_le.2 h)
    · exact h.1

include hE hU in
theorem eventLaw_draws {α Γ : Type} [MeasurableSpace α] [MeasurableSpace Γ]
    {f : EventFn (St (ℕ → Ω) ℝ) α Γ} {κ : Γ → Measure α} (h : EventLaw S.primLaw f κ) :
    DrawsFrom S.law left (f.run E) κ := by
  induction h with
  | ret hg => exact DrawsFrom.pure hg
  | @event Γ _ p hp k κ hk ih =>
    have hd : Measurable fun q : Γ × ℝ => decide (q.2 < p q.1) :=
      measurable_to_bool (by
        have : (fun q : Γ × ℝ => decide (q.2 < p q.1)) ⁻¹' {true} = {q | q.2 < p q.1} := by ext u; simp
        rw [this]; exact measurableSet_lt measurable_snd (hp.comp measurable_fst))
    have h1 := ((drawUnit_law S (left := left) hE hU).from (Γ := Γ)).bind (DrawsFrom.pure hd)
    have h2 := h1.bind ih
    refine h2.congr (fun γ ω => ?_) fun γ => ?_
    · simp only [EventFn.run, SM.bind, eventOccurs_unit]
    · rw [unit_below_chance (p γ)]
      ext s hs
      have hm : Measurable fun a => κ (γ, a) := measurable_of_countable _
      rw [Measure.bind_apply hs hm.aemeasurable]
      simp [lintegral_add_measure]
  | @draw Γ _ d μ k κ hd hk ih =>
    obtain ⟨hp, hdr⟩ := denotes_draws S (left := left) hE hU hd
    have h1 := (hdr 1 le_rfl).bind_lift (h := Samples.real?) (R' := Eq) (fun x => x 0)
      (measurable_pi_apply 0) (Filter.Eventually.of_forall fun x z hz => by
        obtain ⟨v, rfl, hv⟩ := reads_one hz
        rcases hv with rfl | ⟨i, rfl, hi⟩
        · exact ⟨_, rfl, rfl⟩
        · exact ⟨_, rfl, hi.symm⟩)
    rw [pi_map_eval] at h1
    refine ((h1.from (Γ := Γ)).bind ih).congr (fun γ ω => ?_) fun γ => rfl
    simp only [EventFn.run, sampleObj, SM.bind]
    cases withClips E d.clips (rawObj E d) 1 none none ⟨ω, left⟩ with
    | mk r s' =>
      cases r with
      | error e => rfl
      | ok z =>
        simp only [SM.lift]
  | @drawFrom Γ ι _ _ _ _ c hc d μ k κ hd hk ih =>
    have hp : ∀ i, IsProbabilityMeasure (μ i) := fun i => (denotes_draws S (left := left) hE hU (hd i)).1
    have h1 : ∀ i, DrawsLaw S.law left (SM.bind (sampleObj E (d i) 1 none none) fun z => SM.lift z.real?) Eq (μ i) := by
      intro i
      have := hp i
      have h1 := ((denotes_draws S (left := left) hE hU (hd i)).2 1 le_rfl).bind_lift (h := Samples.real?)
        (R' := Eq) (fun x => x 0) (measurable_pi_apply 0) (Filter.Eventually.of_forall fun x z hz => by
          obtain ⟨v, rfl, hv⟩ := reads_one hz
          rcases hv with rfl | ⟨i, rfl, hi⟩
          · exact ⟨_, rfl, rfl⟩
          · exact ⟨_, rfl, hi.symm⟩)
      rw [pi_map_eval] at h1
      exact h1
    refine ((DrawsFrom.countable hc hp h1).bind ih).congr (fun γ ω => ?_) fun γ => rfl
    simp only [EventFn.run, SM.bind]
    cases sampleObj E (d (c γ)) 1 none none ⟨ω, left⟩ with
    | mk r s' => cases r <;> rfl
  | @text Γ ι _ _ _ _ c hc d t k κ hd hk ih =>
    have hp : ∀ i, IsProbabilityMeasure (pointsLaw (t i)) := fun i =>
      pointsLaw_prob (textLaw_draws S (left := left) hE hU (hd i)).1 (textLaw_draws S (left := left) hE hU (hd i)).2.1
    refine ((DrawsFrom.countable hc hp fun i => (textLaw_draws S hE hU (hd i)).2.2).bind ih).congr
      (fun γ ω => ?_) fun γ => (pointsLaw_bind _ (ih.1.comp measurable_prodMk_left)).symm
    simp only [EventFn.run, SM.bind]
    cases sampleObj E (d (c γ)) 1 none none ⟨ω, left⟩ with
    | mk r s' => cases r <;> rfl
  | ite hc h₁ h₂ ih₁ ih₂ => exact (ih₁.ite hc ih₂).congr (fun γ ω => by simp only [EventFn.run]) fun γ => rfl

end Run

end Verif
