import Verif.Model.Sample
import Verif.Lemmas.Sample
import Mathlib.Probability.ProductMeasure
import Mathlib.MeasureTheory.Constructions.Pi

/-!
# Programs that read an infinite stream of independent random inputs
-/

namespace Verif

open MeasureTheory

section Measures

variable {Ω : Type} [MeasurableSpace Ω]

/-- Independent inputs, all with law `μ₀`. -/
noncomputable def streamLaw (μ₀ : Measure Ω) [IsProbabilityMeasure μ₀] : Measure (ℕ → Ω) :=
  Measure.infinitePi fun _ => μ₀

instance (μ₀ : Measure Ω) [IsProbabilityMeasure μ₀] : IsProbabilityMeasure (streamLaw μ₀) := by
  unfold streamLaw; infer_instance

/-- The first input, and the stream after it. -/
def headTail (ω : ℕ → Ω) : Ω × (ℕ → Ω) := (ω 0, fun i => ω (i + 1))

theorem measurable_headTail : Measurable (headTail : (ℕ → Ω) → Ω × (ℕ → Ω)) := by
  unfold headTail; fun_prop

/-- Put an input in front of a stream. -/
def pushHead (p : Ω × (ℕ → Ω)) : ℕ → Ω
  | 0 => p.1
  | i + 1 => p.2 i

theorem measurable_pushHead : Measurable (pushHead : Ω × (ℕ → Ω) → ℕ → Ω) := by
  refine measurable_pi_lambda _ fun i => ?_
  cases i with
  | zero => exact measurable_fst
  | succ i => exact (measurable_pi_apply i).comp measurable_snd

theorem map_pushHead (μ₀ : Measure Ω) [IsProbabilityMeasure μ₀] :
    (μ₀.prod (streamLaw μ₀)).map pushHead = streamLaw μ₀ := by
  refine Measure.eq_infinitePi (μ := fun _ => μ₀) fun s t ht => ?_
  classical
  have hms : MeasurableSet (Set.pi (s : Set ℕ) t) := MeasurableSet.pi s.countable_toSet fun i _ => ht i
  rw [Measure.map_apply measurable_pushHead hms]
  let s' : Finset ℕ := (s.erase 0).image Nat.pred
  have hpre : pushHead ⁻¹' (Set.pi (s : Set ℕ) t)
      = (if 0 ∈ s then t 0 else Set.univ) ×ˢ Set.pi (s' : Set ℕ) fun i => t (i + 1) := by
    ext ⟨x, ω⟩
    simp only [Set.mem_preimage, Set.mem_pi, Set.mem_prod, Finset.mem_coe]
    constructor
    · intro h
      refine ⟨?_, fun i hi => ?_⟩
      · split_ifs with h0
        · exact h 0 h0
        · trivial
      · obtain ⟨j, hj, rfl⟩ := Finset.mem_image.1 hi
        obtain ⟨hj0, hjs⟩ := Finset.mem_erase.1 hj
        obtain ⟨i, rfl⟩ := Nat.exists_eq_succ_of_ne_zero hj0
        exact h (i + 1) hjs
    · rintro ⟨h1, h2⟩ i hi
      cases i with
      | zero => rw [if_pos hi] at h1; exact h1
      | succ i =>
        exact h2 i (Finset.mem_image.2 ⟨i + 1, Finset.mem_erase.2 ⟨by omega, hi⟩, rfl⟩)
  rw [hpre, Measure.prod_prod]
  unfold streamLaw
  rw [Measure.infinitePi_pi _ fun i _ => ht (i + 1)]
  have himg : ∏ i ∈ s', μ₀ (t (i + 1)) = ∏ i ∈ s.erase 0, μ₀ (t i) := by
    refine (Finset.prod_image ?_).trans (Finset.prod_congr rfl fun i hi => ?_)
    · intro a ha b hb hab
      have := (Finset.mem_erase.1 ha).1
      have := (Finset.mem_erase.1 hb).1
      simp only [Nat.pred_eq_sub_one] at hab
      omega
    · have := (Finset.mem_erase.1 hi).1
      rw [show i.pred + 1 = i by simp only [Nat.pred_eq_sub_one]; omega]
  rw [himg]
  split_ifs with h0
  · exact Finset.mul_prod_erase s (fun i => μ₀ (t i)) h0
  · rw [Finset.erase_eq_of_notMem h0]; simp

/-- The first input is independent of the rest of the stream, which is again a stream of independent
inputs. -/
theorem map_headTail (μ₀ : Measure Ω) [IsProbabilityMeasure μ₀] :
    (streamLaw μ₀).map headTail = μ₀.prod (streamLaw μ₀) := by
  conv_lhs => rw [← map_pushHead μ₀]
  rw [Measure.map_map measurable_headTail measurable_pushHead]
  have : (headTail ∘ pushHead : Ω × (ℕ → Ω) → Ω × (ℕ → Ω)) = id := rfl
  rw [this, Measure.map_id]

/-- One more independent value in front of `n` of them. -/
theorem map_cons_pi {X : Type} [MeasurableSpace X] (n : ℕ) (μ : Fin (n + 1) → Measure X)
    [∀ i, IsProbabilityMeasure (μ i)] :
    ((μ 0).prod (Measure.pi fun i => μ i.succ)).map (fun p => (Fin.cons p.1 p.2 : Fin (n + 1) → X))
      = Measure.pi μ := by
  have h := (measurePreserving_piFinSuccAbove μ 0).symm
  have := h.map_eq
  simp only [Fin.succAbove_zero] at this
  convert this using 2
  ext p i
  simp [MeasurableEquiv.piFinSuccAbove]

theorem measurable_cons {X : Type} [MeasurableSpace X] (n : ℕ) :
    Measurable fun p : X × (Fin n → X) => (Fin.cons p.1 p.2 : Fin (n + 1) → X) := by
  refine measurable_pi_lambda _ fun i => ?_
  refine Fin.cases ?_ (fun j => ?_) i
  · exact measurable_fst
  · exact (measurable_pi_apply j).comp measurable_snd

/-- Two independent vectors of independent values, combined entry by entry. -/
theorem map_zip_pi {X Y Z : Type} [MeasurableSpace X] [MeasurableSpace Y] [MeasurableSpace Z] (n : ℕ)
    (μ : Measure X) (ν : Measure Y) [IsProbabilityMeasure μ] [IsProbabilityMeasure ν] (g : X × Y → Z)
    (hg : Measurable g) :
    ((Measure.pi fun _ : Fin n => μ).prod (Measure.pi fun _ : Fin n => ν)).map
        (fun p i => g (p.1 i, p.2 i))
      = Measure.pi fun _ : Fin n => (μ.prod ν).map g := by
  rw [← (measurePreserving_arrowProdEquivProdArrow X Y (Fin n) (fun _ => μ) fun _ => ν).map_eq,
    Measure.map_map (by fun_prop) (MeasurableEquiv.measurable _)]
  have hp : IsProbabilityMeasure ((μ.prod ν).map g) := Measure.isProbabilityMeasure_map hg.aemeasurable
  exact Measure.pi_map_pi (μ := fun _ : Fin n => μ.prod ν) (f := fun _ => g) fun _ => hg.aemeasurable

/-- Independent values, each transformed. -/
theorem map_map_pi {X Z : Type} [MeasurableSpace X] [MeasurableSpace Z] (n : ℕ) (μ : Measure X)
    [IsProbabilityMeasure μ] (g : X → Z) (hg : Measurable g) :
    (Measure.pi fun _ : Fin n => μ).map (fun x i => g (x i)) = Measure.pi fun _ : Fin n => μ.map g := by
  have hp : IsProbabilityMeasure (μ.map g) := Measure.isProbabilityMeasure_map hg.aemeasurable
  exact Measure.pi_map_pi (μ := fun _ : Fin n => μ) (f := fun _ => g) fun _ => hg.aemeasurable

end Measures

section DrawsLaw

variable {Ω : Type} [MeasurableSpace Ω] {A B C X Y Z : Type} [MeasurableSpace X] [MeasurableSpace Y]
  [MeasurableSpace Z]

/-- The program `m` almost surely succeeds; its result, read by `R`, has the law `μ`; and the stream it
leaves behind is again a stream of independent inputs, independent of the result. -/
def DrawsLaw (μ₀ : Measure Ω) [IsProbabilityMeasure μ₀] (left : ℕ → ℕ → Option (List (Scalar ℝ)))
    (m : SM (ℕ → Ω) ℝ A) (R : A → X → Prop) (μ : Measure X) : Prop :=
  ∃ F : (ℕ → Ω) → X × (ℕ → Ω), Measurable F ∧ (streamLaw μ₀).map F = μ.prod (streamLaw μ₀) ∧
    ∀ᵐ ω ∂(streamLaw μ₀), ∃ a, m ⟨ω, left⟩ = (.ok a, ⟨(F ω).2, left⟩) ∧ R a (F ω).1

variable {μ₀ : Measure Ω} [IsProbabilityMeasure μ₀] {left : ℕ → ℕ → Option (List (Scalar ℝ))}
  {m : SM (ℕ → Ω) ℝ A} {R : A → X → Prop} {μ : Measure X} {R' : B → Y → Prop} {ν : Measure Y}

theorem DrawsLaw.congr {m' : SM (ℕ → Ω) ℝ A} (h : DrawsLaw μ₀ left m R μ)
    (hm : ∀ ω, m' ⟨ω, left⟩ = m ⟨ω, left⟩) : DrawsLaw μ₀ left m' R μ := by
  obtain ⟨F, h1, h2, h3⟩ := h
  refine ⟨F, h1, h2, h3.mono fun ω hω => ?_⟩
  obtain ⟨a, ha, hR⟩ := hω
  exact ⟨a, by rw [hm, ha], hR⟩

theorem DrawsLaw.mono {R₂ : A → X → Prop} (h : DrawsLaw μ₀ left m R μ)
    (hR : ∀ a x, R a x → R₂ a x) : DrawsLaw μ₀ left m R₂ μ := by
  obtain ⟨F, h1, h2, h3⟩ := h
  refine ⟨F, h1, h2, h3.mono fun ω hω => ?_⟩
  obtain ⟨a, ha, hR'⟩ := hω
  exact ⟨a, ha, hR _ _ hR'⟩

theorem DrawsLaw.pure {a : A} {x : X} (h : R a x) : DrawsLaw μ₀ left (SM.pure a) R (Measure.dirac x) := by
  refine ⟨fun ω => (x, ω), by fun_prop, ?_, Filter.Eventually.of_forall fun ω => ⟨a, rfl, h⟩⟩
  rw [Measure.dirac_prod]

/-- Sequencing. -/
theorem DrawsLaw.bind (hm : DrawsLaw μ₀ left m R μ) {f : A → SM (ℕ → Ω) ℝ B}
    (G : X × (ℕ → Ω) → Y × (ℕ → Ω)) (hG : Measurable G)
    (hmap : (μ.prod (streamLaw μ₀)).map G = ν.prod (streamLaw μ₀))
    (hae : ∀ᵐ p ∂(μ.prod (streamLaw μ₀)), ∀ a, R a p.1 →
      ∃ b, f a ⟨p.2, left⟩ = (.ok b, ⟨(G p).2, left⟩) ∧ R' b (G p).1) :
    DrawsLaw μ₀ left (SM.bind m f) R' ν := by
  obtain ⟨F, h1, h2, h3⟩ := hm
  refine ⟨G ∘ F, hG.comp h1, ?_, ?_⟩
  · rw [← Measure.map_map hG h1, h2, hmap]
  · rw [← h2] at hae
    have hae' := ae_of_ae_map h1.aemeasurable hae
    filter_upwards [h3, hae'] with ω hω hω'
    obtain ⟨a, ha, hR⟩ := hω
    obtain ⟨b, hb, hR'⟩ := hω' a hR
    exact ⟨b, SM.bind_ok.2 ⟨a, _, ha, hb⟩, hR'⟩

/-- A pure function of the result. -/
theorem DrawsLaw.bind_lift [SFinite μ] (hm : DrawsLaw μ₀ left m R μ) {h : A → Except PyErr B} (g : X → Y)
    (hg : Measurable g) (hae : ∀ᵐ x ∂μ, ∀ a, R a x → ∃ b, h a = .ok b ∧ R' b (g x)) :
    DrawsLaw μ₀ left (SM.bind m fun a => SM.lift (h a)) R' (μ.map g) := by
  refine hm.bind (fun p => (g p.1, p.2)) (by fun_prop) ?_ ?_
  · have := Measure.map_prod_map μ (streamLaw μ₀) hg measurable_id
    rw [Measure.map_id] at this
    exact this.symm
  · have := (Measure.quasiMeasurePreserving_fst (μ := μ) (ν := streamLaw μ₀)).ae hae
    filter_upwards [this] with p hp a ha
    obtain ⟨b, hb, hR⟩ := hp a ha
    exact ⟨b, by simp only [SM.lift, hb], hR⟩

/-- Two programs one after the other: independent results. -/
theorem DrawsLaw.pair [SFinite μ] [SFinite ν] (hm : DrawsLaw μ₀ left m R μ) {m' : SM (ℕ → Ω) ℝ B}
    (hm' : DrawsLaw μ₀ left m' R' ν) :
    DrawsLaw μ₀ left (SM.bind m fun a => SM.bind m' fun b => SM.pure (a, b))
      (fun c p => R c.1 p.1 ∧ R' c.2 p.2) (μ.prod ν) := by
  obtain ⟨F', h1, h2, h3⟩ := hm'
  refine hm.bind (fun p => ((p.1, (F' p.2).1), (F' p.2).2)) (by fun_prop) ?_ ?_
  · have e : (fun p : X × (ℕ → Ω) => ((p.1, (F' p.2).1), (F' p.2).2))
        = MeasurableEquiv.prodAssoc.symm ∘ Prod.map id F' := rfl
    rw [e, ← Measure.map_map (MeasurableEquiv.measurable _) (by fun_prop),
      ← Measure.map_prod_map μ (streamLaw μ₀) measurable_id h1, Measure.map_id, h2,
      ← Measure.prodAssoc_prod, Measure.map_map (MeasurableEquiv.measurable _)
      (MeasurableEquiv.measurable _)]
    simp
  · have := (Measure.quasiMeasurePreserving_snd (μ := μ) (ν := streamLaw μ₀)).ae h3
    filter_upwards [this] with p hp a ha
    obtain ⟨b, hb, hR⟩ := hp
    exact ⟨(a, b), SM.bind_ok.2 ⟨b, _, hb, rfl⟩, ha, hR⟩

/-- Two programs and a pure function of both results. -/
theorem DrawsLaw.bind₂ [SFinite μ] [SFinite ν] (hm : DrawsLaw μ₀ left m R μ) {m' : SM (ℕ → Ω) ℝ B}
    (hm' : DrawsLaw μ₀ left m' R' ν) {h : A → B → Except PyErr C} {R'' : C → Z → Prop} (g : X × Y → Z)
    (hg : Measurable g)
    (hae : ∀ᵐ p ∂(μ.prod ν), ∀ a b, R a p.1 → R' b p.2 → ∃ c, h a b = .ok c ∧ R'' c (g p)) :
    DrawsLaw μ₀ left (SM.bind m fun a => SM.bind m' fun b => SM.lift (h a b)) R'' ((μ.prod ν).map g) := by
  have hp := (hm.pair hm').bind_lift (R' := R'') (h := fun c : A × B => h c.1 c.2) g hg
    (hae.mono fun p hp c hc => hp c.1 c.2 hc.1 hc.2)
  refine hp.congr fun ω => ?_
  simp only [SM.bind, SM.pure, SM.lift]
  cases m ⟨ω, left⟩ with
  | mk r s =>
    cases r with
    | error e => rfl
    | ok a =>
      dsimp only
      cases m' s with
      | mk r' s' => cases r' <;> rfl

/-- A random choice among finitely many programs. -/
theorem DrawsLaw.choose {ι : Type} [Fintype ι] [MeasurableSpace ι] [MeasurableSingletonClass ι]
    {μ : Measure ι} [SFinite μ] {R : A → ι → Prop}
    (hm : DrawsLaw μ₀ left m R μ) {f : A → SM (ℕ → Ω) ℝ B} {g : ι → SM (ℕ → Ω) ℝ B}
    {ν : ι → Measure Y} [∀ i, SFinite (ν i)] (hg : ∀ i, DrawsLaw μ₀ left (g i) R' (ν i))
    (hf : ∀ a i, R a i → ∀ ω, f a ⟨ω, left⟩ = g i ⟨ω, left⟩) :
    DrawsLaw μ₀ left (SM.bind m f) R' (∑ i, μ {i} • ν i) := by
  choose F h1 h2 h3 using hg
  have hGm : Measurable fun p : ι × (ℕ → Ω) => F p.1 p.2 :=
    measurable_from_prod_countable_right fun i => h1 i
  refine hm.bind (fun p => F p.1 p.2) hGm ?_ ?_
  · ext s hs
    rw [Measure.map_apply hGm hs, Measure.prod_apply (hGm hs)]
    rw [lintegral_fintype]
    have : ∀ i, (streamLaw μ₀) (Prod.mk i ⁻¹' ((fun p : ι × (ℕ → Ω) => F p.1 p.2) ⁻¹' s))
        = ((ν i).prod (streamLaw μ₀)) s := by
      intro i
      rw [← h2 i, Measure.map_apply (h1 i) hs]
      rfl
    simp_rw [this]
    rw [Measure.prod_apply hs, lintegral_finset_sum_measure]
    refine Finset.sum_congr rfl fun i _ => ?_
    rw [lintegral_smul_measure, Measure.prod_apply hs, smul_eq_mul, mul_comm]
  · have hall : ∀ᵐ ω ∂(streamLaw μ₀), ∀ i, ∃ b, g i ⟨ω, left⟩ = (.ok b, ⟨(F i ω).2, left⟩) ∧
        R' b (F i ω).1 := ae_all_iff.2 h3
    have := (Measure.quasiMeasurePreserving_snd (μ := μ) (ν := streamLaw μ₀)).ae hall
    filter_upwards [this] with p hp a ha
    rw [hf a p.1 ha]
    exact hp p.1

/-- `n` runs of the same program: `n` independent results. -/
theorem DrawsLaw.replicateL [IsProbabilityMeasure μ] (hm : DrawsLaw μ₀ left m R μ) (n : ℕ) :
    DrawsLaw μ₀ left (SM.replicateL m n) (fun as x => List.Forall₂ R as (List.ofFn x))
      (Measure.pi fun _ : Fin n => μ) := by
  induction n with
  | zero =>
    have h : DrawsLaw μ₀ left (SM.pure ([] : List A))
        (fun as (x : Fin 0 → X) => List.Forall₂ R as (List.ofFn x)) (Measure.dirac Fin.elim0) :=
      DrawsLaw.pure (by simp)
    rw [Measure.pi_of_empty (fun _ : Fin 0 => μ) Fin.elim0]
    exact h
  | succ n ih =>
    have := (hm.pair ih).bind_lift (h := fun c : A × List A => .ok (c.1 :: c.2))
      (R' := fun as (x : Fin (n + 1) → X) => List.Forall₂ R as (List.ofFn x))
      (fun p => (Fin.cons p.1 p.2 : Fin (n + 1) → X)) (measurable_cons n)
      (Filter.Eventually.of_forall fun p c hc => ⟨_, rfl, by
        rw [List.ofFn_succ]; simpa using hc⟩)
    rw [map_cons_pi n fun _ => μ] at this
    refine this.congr fun ω => ?_
    simp only [SM.replicateL, SM.bind, SM.pure, SM.lift]
    cases m ⟨ω, left⟩ with
    | mk r s =>
      cases r with
      | error e => rfl
      | ok a =>
        dsimp only
        cases SM.replicateL m n s with
        | mk r' s' => cases r' <;> rfl

end DrawsLaw

end Verif
