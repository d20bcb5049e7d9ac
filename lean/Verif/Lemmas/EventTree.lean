import Verif.Spec.EventTree
import Verif.Lemmas.EventLaw
import Verif.Props.Outcomes

/-!
# Helper lemmas: the law of an event function with finitely many branches
-/

namespace Verif

open MeasureTheory Spec

theorem pointsLaw_ae {α : Type} [MeasurableSpace α] [MeasurableSingletonClass α] (t : List (α × ℝ)) :
    ∀ᵐ x ∂(pointsLaw t), x ∈ t.map Prod.fst := by
  induction t with
  | nil => simp [pointsLaw_nil]
  | cons p t ih =>
    rw [pointsLaw_cons, ae_add_measure_iff]
    constructor
    · refine Measure.ae_smul_measure ?_ _
      rw [ae_dirac_eq]
      exact List.mem_cons_self
    · filter_upwards [ih] with x hx
      exact List.mem_cons_of_mem _ hx

section

variable {Ω A B : Type} [MeasurableSpace Ω] [MeasurableSpace A] [MeasurableSingletonClass A] [MeasurableSpace B]
  {μ₀ : Measure Ω} [IsProbabilityMeasure μ₀] {left : ℕ → ℕ → Option (List (Scalar ℝ))}

/-- A choice among finitely many values, then a program for each. -/
theorem DrawsLaw.bind_points {m : SM (ℕ → Ω) ℝ A} {u : List (A × ℝ)} (hu : ∀ p ∈ u, 0 ≤ p.2)
    (hs : (u.map Prod.snd).sum = 1) (hm : DrawsLaw μ₀ left m Eq (pointsLaw u)) {k : A → SM (ℕ → Ω) ℝ B}
    {t : A → List (B × ℝ)} (hp : ∀ p ∈ u, IsProbabilityMeasure (pointsLaw (t p.1)))
    (hk : ∀ p ∈ u, DrawsLaw μ₀ left (k p.1) Eq (pointsLaw (t p.1))) :
    DrawsLaw μ₀ left (SM.bind m k) Eq
      (pointsLaw (u.flatMap fun p => (t p.1).map fun e => (e.1, p.2 * e.2))) := by
  classical
  have hpu := pointsLaw_prob hu hs
  have hne : u.map Prod.fst ≠ [] := by
    intro h
    have : u = [] := List.map_eq_nil_iff.1 h
    subst this
    simp at hs
  obtain ⟨v0, hv0⟩ := List.exists_mem_of_ne_nil _ hne
  let V := {v : A // v ∈ u.map Prod.fst}
  have hVf : Finite V := List.finite_toSet _
  let _ : MeasurableSpace V := ⊤
  have : DiscreteMeasurableSpace V := ⟨fun _ => trivial⟩
  let c : A → V := fun a => if h : a ∈ u.map Prod.fst then ⟨a, h⟩ else ⟨v0, hv0⟩
  have hVm : MeasurableSet {a : A | a ∈ u.map Prod.fst} := (List.finite_toSet (u.map Prod.fst)).measurableSet
  have hc : Measurable c := by
    refine measurable_to_countable' fun x => ?_
    by_cases h : x.1 = v0
    · have : c ⁻¹' {x} = {x.1} ∪ {a | a ∈ u.map Prod.fst}ᶜ := by
        ext a
        simp only [Set.mem_preimage, Set.mem_singleton_iff, Set.mem_union, Set.mem_compl_iff, c]
        by_cases ha : a ∈ u.map Prod.fst
        · rw [dif_pos ha]
          constructor
          · rintro rfl; exact Or.inl rfl
          · rintro (rfl | h')
            · rfl
            · exact absurd ha h'
        · rw [dif_neg ha]
          exact ⟨fun _ => Or.inr ha, fun _ => Subtype.ext h.symm⟩
      rw [this]
      exact (measurableSet_singleton _).union hVm.compl
    · have : c ⁻¹' {x} = {x.1} := by
        ext a
        simp only [Set.mem_preimage, Set.mem_singleton_iff, c]
        by_cases ha : a ∈ u.map Prod.fst
        · rw [dif_pos ha]
          exact ⟨fun e => congrArg Subtype.val e, fun e => Subtype.ext e⟩
        · rw [dif_neg ha]
          constructor
          · intro e; exact absurd (congrArg Subtype.val e).symm h
          · rintro rfl; exact absurd x.2 ha
      rw [this]
      exact measurableSet_singleton _
  have hcv : ∀ a ∈ u.map Prod.fst, (c a).1 = a := fun a ha => by simp only [c, dif_pos ha]
  have hV : ∀ v : V, ∃ p ∈ u, p.1 = v.1 := fun v => by
    obtain ⟨p, hp, e⟩ := List.mem_map.1 v.2
    exact ⟨p, hp, e⟩
  have hk' : ∀ v : V, DrawsLaw μ₀ left (k v.1) Eq (pointsLaw (t v.1)) := fun v => by
    obtain ⟨p, hp', e⟩ := hV v
    rw [← e]
    exact hk p hp'
  have hp'' : ∀ v : V, IsProbabilityMeasure (pointsLaw (t v.1)) := fun v => by
    obtain ⟨p, hp', e⟩ := hV v
    rw [← e]
    exact hp p hp'
  have h1 := DrawsFrom.countable (Γ := Unit × A) (c := fun q => c q.2) (hc.comp measurable_snd) hp'' hk'
  have h2 := ((hm.from (Γ := Unit)).bind h1).at ()
  have hmeas : Measurable fun a => pointsLaw (t (c a).1) :=
    (measurable_of_countable fun v : V => pointsLaw (t v.1)).comp hc
  have elaw : ((pointsLaw u).bind fun a => pointsLaw (t (c a).1))
      = pointsLaw (u.flatMap fun p => (t p.1).map fun e => (e.1, p.2 * e.2)) := by
    rw [pointsLaw_bind _ hmeas, pointsLaw_flatMap]
    congr 1
    refine List.map_congr_left fun p hp' => ?_
    rw [hcv p.1 (List.mem_map_of_mem hp'), pointsLaw_smul (hu p hp')]
  rw [elaw] at h2
  obtain ⟨F, hF, hmap, hae⟩ := h2
  obtain ⟨G, hG, hGmap, hGae⟩ := hm
  have hin : ∀ᵐ ω ∂(streamLaw μ₀), (G ω).1 ∈ u.map Prod.fst := by
    have hfst : (streamLaw μ₀).map (fun ω => (G ω).1) = pointsLaw u := by
      have e : (fun ω => (G ω).1) = Prod.fst ∘ G := rfl
      rw [e, ← Measure.map_map measurable_fst hG, hGmap, Measure.map_fst_prod]
      simp
    have := pointsLaw_ae u
    rw [← hfst] at this
    exact ae_of_ae_map (by fun_prop) this
  refine ⟨F, hF, hmap, ?_⟩
  filter_upwards [hae, hGae, hin] with ω h3 h4 h5
  obtain ⟨b, hb, hR⟩ := h3
  obtain ⟨a, ha, rfl⟩ := h4
  refine ⟨b, ?_, hR⟩
  rw [← hb]
  simp only [SM.bind, ha, hcv _ h5]

end

section

theorem textLaw_mono {T : Type} {L L' : Prim ℝ → Option (Measure ℝ)} (hL : ∀ p μ, L p = some μ → L' p = some μ)
    {d : Obj T ℝ} {t : List (String × ℝ)} (h : TextLaw L d t) : TextLaw L' d t := by
  cases h with
  | coin h => exact .coin (hL _ _ h)
  | items h => exact .items h
  | table h1 h2 h3 => exact .table h1 h2 h3

variable {Ω : Type} [MeasurableSpace Ω] (S : IdealSource Ω) (hS : Documented S)
  {left : ℕ → ℕ → Option (List (Scalar ℝ))} {E : Env (ℕ → Ω) ℝ} (hE : S.Drives E)

include hS hE

theorem leavesAre_draws {α Γ : Type} [MeasurableSpace α] [MeasurableSpace Γ]
    {f : EventFn (St (ℕ → Ω) ℝ) α Γ} {γ : Γ} {t : List (α × ℝ)} (h : LeavesAre f γ t) :
    (∀ e ∈ t, 0 ≤ e.2) ∧ (t.map Prod.snd).sum = 1 ∧ DrawsLaw S.law left (f.run E γ) Eq (pointsLaw t) := by
  have hU := documented_uniform S hS
  have tree : ∀ {A : Type} (u : List (A × ℝ)) (t : A → List (α × ℝ)), (∀ x ∈ u, 0 ≤ x.2) →
      (u.map Prod.snd).sum = 1 → (∀ x ∈ u, (∀ e ∈ t x.1, 0 ≤ e.2) ∧ ((t x.1).map Prod.snd).sum = 1) →
      (∀ e ∈ u.flatMap fun x => (t x.1).map fun e => (e.1, x.2 * e.2), 0 ≤ e.2) ∧
      ((u.flatMap fun x => (t x.1).map fun e => (e.1, x.2 * e.2)).map Prod.snd).sum = 1 := by
    intro A u t h0 h1 h2
    constructor
    · intro e he
      obtain ⟨x, hx, he⟩ := List.mem_flatMap.1 he
      obtain ⟨e', he', rfl⟩ := List.mem_map.1 he
      exact mul_nonneg (h0 x hx) ((h2 x hx).1 e' he')
    · rw [← h1]
      clear h0 h1
      induction u with
      | nil => rfl
      | cons x u ih =>
        rw [List.flatMap_cons, List.map_append, List.sum_append, ih fun y hy => h2 y (List.mem_cons_of_mem _ hy),
          List.map_cons, List.sum_cons, List.map_map]
        congr 1
        have := (h2 x List.mem_cons_self).2
        rw [show (Prod.snd ∘ fun e : α × ℝ => (e.1, x.2 * e.2)) = fun e => x.2 * e.2 from rfl,
          List.sum_map_mul_left]
        rw [this, mul_one]
  induction h with
  | @ret Γ _ g hg γ => 
    refine ⟨by simp, by simp, ?_⟩
    rw [pointsLaw_one]
    exact DrawsLaw.pure rfl
  | @happens Γ _ p hp k γ t h0 h1 hk ih =>
    have hu : ∀ x ∈ [(true, p γ), (false, 1 - p γ)], 0 ≤ x.2 := by
      intro x hx
      simp only [List.mem_cons, List.not_mem_nil, or_false] at hx
      rcases hx with rfl | rfl
      · exact h0
      · exact sub_nonneg.2 h1
    have hs : ([(true, p γ), (false, 1 - p γ)].map Prod.snd).sum = 1 := by simp
    have hd : DrawsLaw S.law left (eventOccurs E (.lit (.flt (p γ)))) Eq
        (pointsLaw [(true, p γ), (false, 1 - p γ)]) := by
      have hmd : Measurable fun u : ℝ => decide (u < p γ) :=
        measurable_to_bool (by
          have : (fun u : ℝ => decide (u < p γ)) ⁻¹' {true} = Set.Iio (p γ) := by ext u; simp
          rw [this]; exact measurableSet_Iio)
      have h := (((drawUnit_law S (left := left) hE hU).from (Γ := Unit)).bind
        (DrawsFrom.pure (g := fun q : Unit × ℝ => decide (q.2 < p γ)) (hmd.comp measurable_snd))).at ()
      have e := unit_below h0 h1
      have e' : (pointsLaw [(true, p γ), (false, 1 - p γ)])
          = ENNReal.ofReal (p γ) • Measure.dirac true + ENNReal.ofReal (1 - p γ) • Measure.dirac false := by
        rw [pointsLaw_cons, pointsLaw_cons, pointsLaw_nil, add_zero]
      rw [e', ← e]
      exact h.congr fun ω => eventOccurs_unit (p γ) _
    obtain ⟨a1, a2⟩ := tree [(true, p γ), (false, 1 - p γ)] t hu hs fun x _ => ⟨(ih x.1).1, (ih x.1).2.1⟩
    have h := DrawsLaw.bind_points hu hs hd (k := fun b => k.run E (γ, b)) (t := t)
      (fun x _ => pointsLaw_prob (ih x.1).1 (ih x.1).2.1) fun x _ => (ih x.1).2.2
    simp only [List.flatMap_cons, List.flatMap_nil, List.append_nil] at a1 a2 h
    exact ⟨a1, a2, h⟩
  | @draw Γ _ d u k γ t hd hk ih =>
    obtain ⟨h0, hden⟩ := outcomesAre_law S hS hd
    have h1 : (u.map Prod.snd).sum = 1 := C113_total S hS hE hd
    have hp : IsProbabilityMeasure (finiteLaw u) := (denotes_draws S (left := left) hE hU hden).1
    have hdr : DrawsLaw S.law left (SM.bind (sampleObj E d 1 none none) fun z => SM.lift z.real?) Eq (pointsLaw u) := by
      have h1 := ((denotes_draws S (left := left) hE hU hden).2 1 le_rfl).bind_lift (h := Samples.real?)
        (R' := Eq) (fun x => x 0) (measurable_pi_apply 0) (Filter.Eventually.of_forall fun x z hz => by
          obtain ⟨v, rfl, hv⟩ := reads_one hz
          rcases hv with rfl | ⟨i, rfl, hi⟩
          · exact ⟨_, rfl, rfl⟩
          · exact ⟨_, rfl, hi.symm⟩)
      rw [pi_map_eval] at h1
      exact h1
    obtain ⟨a1, a2⟩ := tree u t h0 h1 fun x hx => ⟨(ih x.1 x.2 hx).1, (ih x.1 x.2 hx).2.1⟩
    refine ⟨a1, a2, (DrawsLaw.bind_points h0 h1 hdr (k := fun x => k.run E (γ, x)) (t := t)
      (fun x hx => pointsLaw_prob (ih x.1 x.2 hx).1 (ih x.1 x.2 hx).2.1) fun x hx => (ih x.1 x.2 hx).2.2).congr fun ω => ?_⟩
    simp only [EventFn.run, SM.bind]
    cases sampleObj E d 1 none none ⟨ω, left⟩ with
    | mk r s' => cases r <;> rfl
  | @drawFrom Γ ι _ _ _ _ c hc d u k γ t hd hk ih =>
    obtain ⟨h0, hden⟩ := outcomesAre_law S hS hd
    have h1 : (u.map Prod.snd).sum = 1 := C113_total S hS hE hd
    have hp : IsProbabilityMeasure (finiteLaw u) := (denotes_draws S (left := left) hE hU hden).1
    have hdr : DrawsLaw S.law left (SM.bind (sampleObj E (d (c γ)) 1 none none) fun z => SM.lift z.real?) Eq
        (pointsLaw u) := by
      have h1 := ((denotes_draws S (left := left) hE hU hden).2 1 le_rfl).bind_lift (h := Samples.real?)
        (R' := Eq) (fun x => x 0) (measurable_pi_apply 0) (Filter.Eventually.of_forall fun x z hz => by
          obtain ⟨v, rfl, hv⟩ := reads_one hz
          rcases hv with rfl | ⟨i, rfl, hi⟩
          · exact ⟨_, rfl, rfl⟩
          · exact ⟨_, rfl, hi.symm⟩)
      rw [pi_map_eval] at h1
      exact h1
    obtain ⟨a1, a2⟩ := tree u t h0 h1 fun x hx => ⟨(ih x.1 x.2 hx).1, (ih x.1 x.2 hx).2.1⟩
    refine ⟨a1, a2, (DrawsLaw.bind_points h0 h1 hdr (k := fun x => k.run E (γ, x)) (t := t)
      (fun x hx => pointsLaw_prob (ih x.1 x.2 hx).1 (ih x.1 x.2 hx).2.1) fun x hx => (ih x.1 x.2 hx).2.2).congr fun ω => ?_⟩
    simp only [EventFn.run, SM.bind]
    cases sampleObj E (d (c γ)) 1 none none ⟨ω, left⟩ with
    | mk r s' => cases r <;> rfl
  | @text Γ ι _ _ _ _ c hc d u k γ t hd hk ih =>
    obtain ⟨h0, h1, hdr⟩ := textLaw_draws S (left := left) hE hU (textLaw_mono hS hd)
    obtain ⟨a1, a2⟩ := tree u t h0 h1 fun x hx => ⟨(ih x.1 x.2 hx).1, (ih x.1 x.2 hx).2.1⟩
    refine ⟨a1, a2, (DrawsLaw.bind_points h0 h1 hdr (k := fun x => k.run E (γ, x)) (t := t)
      (fun x hx => pointsLaw_prob (ih x.1 x.2 hx).1 (ih x.1 x.2 hx).2.1) fun x hx => (ih x.1 x.2 hx).2.2).congr fun ω => ?_⟩
    simp only [EventFn.run, SM.bind]
    cases sampleObj E (d (c γ)) 1 none none ⟨ω, left⟩ with
    | mk r s' => cases r <;> rfl
  | @ite Γ _ c hc k₁ k₂ γ t hk ih =>
    refine ⟨ih.1, ih.2.1, ih.2.2.congr fun ω => ?_⟩
    simp only [EventFn.run]
    by_cases h : c γ = true <;> simp [h]

end

end Verif
