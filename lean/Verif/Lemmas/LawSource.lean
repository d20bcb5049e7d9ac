import Verif.Model.IdealSource
import Verif.Lemmas.LawMomentsBounded
import Verif.Lemmas.LawMomentsDiscrete
import Mathlib.Probability.ProductMeasure

/-!
# An ideal source for given laws

For every choice of laws on the documented ranges there is a source whose numbers have these laws: one input
consists of one number for every request.
-/

namespace Verif

open MeasureTheory ProbabilityTheory Spec

/-- The number numpy returns for the value `x`: integers for the counting requests, floats otherwise. -/
noncomputable def Prim.scalar : Prim ℝ → ℝ → Scalar ℝ
  | .binomial _ _, x => .int ⌊x⌋
  | .poisson _, x => .int ⌊x⌋
  | .geometric _, x => .int ⌊x⌋
  | .integers _ _, x => .int ⌊x⌋
  | _, x => .flt x

/-- The values in the documented range. -/
def Prim.range (p : Prim ℝ) : Set ℝ := {x | p.support (p.scalar x) ∧ realVal (p.scalar x) = x}

theorem Prim.measurable_scalar (p : Prim ℝ) : Measurable fun x => realVal (p.scalar x) := by
  cases p <;> simp only [Prim.scalar, realVal] <;>
    first
      | exact measurable_id'
      | exact (measurable_of_countable (fun z : ℤ => (z : ℝ))).comp Int.measurable_floor

theorem measurableSet_ints (P : ℤ → Prop) : MeasurableSet {x : ℝ | P ⌊x⌋ ∧ (⌊x⌋ : ℝ) = x} := by
  have : {x : ℝ | P ⌊x⌋ ∧ (⌊x⌋ : ℝ) = x} ⊆ Set.range fun z : ℤ => (z : ℝ) := fun x hx => ⟨⌊x⌋, hx.2⟩
  exact ((Set.countable_range _).mono this).measurableSet

theorem Prim.measurableSet_range (p : Prim ℝ) : MeasurableSet p.range := by
  cases p with
  | uniform a b =>
    have : (Prim.uniform a b).range = if a < b then Set.Ico a b else Set.Icc a b := by
      ext x
      simp only [Prim.range, Prim.scalar, Prim.support, realVal, Scalar.flt.injEq, Set.mem_ofPred_eq]
      split_ifs with h
      · simp only [Set.mem_Ico]
        exact ⟨fun ⟨⟨y, e, h1, h2, h3⟩, _⟩ => by subst e; exact ⟨h1, h3 h⟩,
          fun ⟨h1, h2⟩ => ⟨⟨x, rfl, h1, h2.le, fun _ => h2⟩, trivial⟩⟩
      · simp only [Set.mem_Icc]
        exact ⟨fun ⟨⟨y, e, h1, h2, h3⟩, _⟩ => by subst e; exact ⟨h1, h2⟩,
          fun ⟨h1, h2⟩ => ⟨⟨x, rfl, h1, h2, fun g => absurd g h⟩, trivial⟩⟩
    rw [this]
    split_ifs
    · exact measurableSet_Ico
    · exact measurableSet_Icc
  | binomial n p =>
    simp only [Prim.range, Prim.scalar, Prim.support, realVal, Scalar.int.injEq, exists_eq_left']
    exact measurableSet_ints fun z => 0 ≤ z ∧ z ≤ n
  | poisson l =>
    simp only [Prim.range, Prim.scalar, Prim.support, realVal, Scalar.int.injEq, exists_eq_left']
    exact measurableSet_ints fun z => 0 ≤ z
  | geometric p =>
    simp only [Prim.range, Prim.scalar, Prim.support, realVal, Scalar.int.injEq, exists_eq_left']
    exact measurableSet_ints fun z => 1 ≤ z
  | integers lo hi =>
    simp only [Prim.range, Prim.scalar, Prim.support, realVal, Scalar.int.injEq, exists_eq_left']
    exact measurableSet_ints fun z => lo ≤ z ∧ z < hi
  | normal | standardT =>
    have : ∀ x : ℝ, (∃ y, (Scalar.flt x : Scalar ℝ) = .flt y) := fun x => ⟨x, rfl⟩
    simp [Prim.range, Prim.scalar, Prim.support, realVal]
  | lognormal | chisquare =>
    simp only [Prim.range, Prim.scalar, Prim.support, realVal, Scalar.flt.injEq, exists_eq_left', and_true]
    exact measurableSet_Ioi
  | beta | triangular =>
    simp only [Prim.range, Prim.scalar, Prim.support, realVal, Scalar.flt.injEq, exists_eq_left', and_true]
    exact measurableSet_Icc
  | exponential | gamma | pareto =>
    simp only [Prim.range, Prim.scalar, Prim.support, realVal, Scalar.flt.injEq, exists_eq_left', and_true]
    exact measurableSet_Ici

/-- The laws are probability laws on the documented ranges. -/
structure InRange (L : Prim ℝ → Option (Measure ℝ)) : Prop where
  prob : ∀ p μ, L p = some μ → IsProbabilityMeasure μ
  range : ∀ p μ, L p = some μ → ∀ᵐ x ∂μ, x ∈ p.range

theorem InRange.nonempty {L : Prim ℝ → Option (Measure ℝ)} (h : InRange L) {p : Prim ℝ} {μ : Measure ℝ}
    (hp : L p = some μ) : p.range.Nonempty := by
  have := h.prob p μ hp
  exact (h.range p μ hp).exists

open Classical in
/-- The value, moved into the range if it is outside. -/
noncomputable def Prim.inside (p : Prim ℝ) (x : ℝ) : ℝ :=
  if x ∈ p.range then x else if h : p.range.Nonempty then h.choose else 0

theorem Prim.inside_mem {p : Prim ℝ} (h : p.range.Nonempty) (x : ℝ) : p.inside x ∈ p.range := by
  unfold Prim.inside
  split_ifs with hx
  · exact hx
  · exact h.choose_spec

theorem Prim.measurable_inside (p : Prim ℝ) : Measurable p.inside := by
  unfold Prim.inside
  exact Measurable.ite p.measurableSet_range measurable_id' measurable_const

/-- The law of one coordinate of the inputs. -/
noncomputable def coordLaw (L : Prim ℝ → Option (Measure ℝ)) (p : Prim ℝ) : Measure ℝ :=
  (L p).getD (Measure.dirac 0)

theorem coordLaw_prob {L : Prim ℝ → Option (Measure ℝ)} (h : InRange L) (p : Prim ℝ) :
    IsProbabilityMeasure (coordLaw L p) := by
  unfold coordLaw
  rcases e : L p with _ | μ
  · simp only [Option.getD_none]; infer_instance
  · exact h.prob p μ e

/-- A source with the laws `L`. -/
noncomputable def lawSource (L : Prim ℝ → Option (Measure ℝ)) (h : InRange L) : IdealSource (Prim ℝ → ℝ) where
  law := have := coordLaw_prob h; Measure.infinitePi (coordLaw L)
  prob := by have := coordLaw_prob h; infer_instance
  answer p := (L p).map fun _ ω => p.scalar (p.inside (ω p))
  support := by
    intro p q hq ω
    simp only [Option.map_eq_some_iff] at hq
    obtain ⟨μ, hμ, rfl⟩ := hq
    exact (Prim.inside_mem (h.nonempty hμ) _).1
  meas := by
    intro p q hq
    simp only [Option.map_eq_some_iff] at hq
    obtain ⟨μ, hμ, rfl⟩ := hq
    exact p.measurable_scalar.comp (p.measurable_inside.comp (measurable_pi_apply p))

theorem lawSource_primLaw (L : Prim ℝ → Option (Measure ℝ)) (h : InRange L) : (lawSource L h).primLaw = L := by
  have := coordLaw_prob h
  funext p
  rcases e : L p with _ | μ
  · simp [IdealSource.primLaw, lawSource, e]
  · have hprob := h.prob p μ e
    have ha : (lawSource L h).answer p = some fun ω => p.scalar (p.inside (ω p)) := by
      simp [lawSource, e]
    simp only [IdealSource.primLaw, ha, Option.map_some, Option.some.injEq]
    have hl : (lawSource L h).law.map (fun ω => ω p) = μ := by
      have h1 : (Measure.infinitePi (coordLaw L)).map (fun ω => ω p) = coordLaw L p :=
        Measure.infinitePi_map_eval (coordLaw L) p
      have h2 : coordLaw L p = μ := by simp [coordLaw, e]
      rw [← h2, ← h1]
      rfl
    have hc : (fun ω : Prim ℝ → ℝ => realVal (p.scalar (p.inside (ω p))))
        = (fun x => realVal (p.scalar (p.inside x))) ∘ fun ω => ω p := rfl
    have hm : Measurable fun x => realVal (p.scalar (p.inside x)) := p.measurable_scalar.comp p.measurable_inside
    rw [hc, ← Measure.map_map hm (measurable_pi_apply p), hl]
    have hid : (fun x => realVal (p.scalar (p.inside x))) =ᵐ[μ] id := by
      filter_upwards [h.range p μ e] with x hx
      have : p.inside x = x := if_pos hx
      rw [this]
      exact hx.2
    rw [Measure.map_congr hid, Measure.map_id]

/-! ## numpy's laws -/

theorem ae_map_range {μ : Measure ℝ} {g : ℝ → ℝ} (hg : Measurable g) {p : Prim ℝ} (h : ∀ᵐ x ∂μ, g x ∈ p.range) :
    ∀ᵐ x ∂(μ.map g), x ∈ p.range := by
  have := p.measurableSet_range
  exact (ae_map_iff hg.aemeasurable this).2 h

theorem ae_map_nat {μ : Measure ℕ} {g : ℕ → ℝ} {P : ℝ → Prop} (hP : MeasurableSet {x | P x}) (h : ∀ᵐ k ∂μ, P (g k)) :
    ∀ᵐ x ∂(μ.map g), P x := by
  rwa [ae_map_iff (by fun_prop) hP]

theorem int_range {P : ℤ → Prop} (z : ℤ) (h : P z) : ∃ z', (Scalar.int ⌊(z : ℝ)⌋ : Scalar ℝ) = .int z' ∧ P z' :=
  ⟨z, by rw [Int.floor_intCast], h⟩

theorem chisquareLaw_prob {df : ℝ} (h : 0 < df) : IsProbabilityMeasure (chisquareLaw df) :=
  isProbabilityMeasure_gammaMeasure (by linarith) (by norm_num)

theorem gamma_ae_pos {a r : ℝ} : ∀ᵐ x ∂(gammaMeasure a r), 0 < x := by
  rw [gammaMeasure, ae_withDensity_iff (measurable_gammaPDF a r)]
  have h0 : ∀ᵐ x : ℝ, x ≠ 0 := measure_eq_zero_iff_ae_notMem.1 Real.volume_singleton
  filter_upwards [h0] with x hx h
  by_contra hneg
  exact h (gammaPDF_of_neg (lt_of_le_of_ne (not_lt.1 hneg) hx))

theorem numpyLaw_inRange : InRange numpyLaw where
  prob := by
    intro p μ h
    cases p with
    | uniform a b =>
      simp only [numpyLaw, Option.ite_none_right_eq_some, Option.some.injEq] at h
      obtain ⟨h, rfl⟩ := h
      exact uniformLaw_prob h
    | normal m s | lognormal m s =>
      simp only [numpyLaw, Option.ite_none_right_eq_some, Option.some.injEq] at h
      obtain ⟨h, rfl⟩ := h
      infer_instance
    | binomial n p =>
      simp only [numpyLaw, Option.dite_none_right_eq_some, Option.some.injEq] at h
      obtain ⟨h, rfl⟩ := h
      exact Measure.isProbabilityMeasure_map (by fun_prop)
    | beta a b =>
      simp only [numpyLaw, Option.ite_none_right_eq_some, Option.some.injEq] at h
      obtain ⟨h, rfl⟩ := h
      exact isProbabilityMeasureBeta h.1 h.2
    | triangular l m r =>
      simp only [numpyLaw, Option.ite_none_right_eq_some, Option.some.injEq] at h
      obtain ⟨h, rfl⟩ := h
      exact triangularLaw_prob h.1 h.2.1 h.2.2
    | poisson lam =>
      simp only [numpyLaw, Option.dite_none_right_eq_some, Option.some.injEq] at h
      obtain ⟨h, rfl⟩ := h
      exact Measure.isProbabilityMeasure_map (by fun_prop)
    | exponential s =>
      simp only [numpyLaw, Option.ite_none_right_eq_some, Option.some.injEq] at h
      obtain ⟨h, rfl⟩ := h
      exact isProbabilityMeasure_expMeasure (by positivity)
    | gamma a s =>
      simp only [numpyLaw, Option.ite_none_right_eq_some, Option.some.injEq] at h
      obtain ⟨⟨h1, h2⟩, rfl⟩ := h
      exact isProbabilityMeasure_gammaMeasure h1 (by positivity)
    | pareto a =>
      simp only [numpyLaw, Option.ite_none_right_eq_some, Option.some.injEq] at h
      obtain ⟨h, rfl⟩ := h
      have := isProbabilityMeasure_paretoMeasure one_pos h
      exact Measure.isProbabilityMeasure_map (by fun_prop)
    | chisquare df =>
      simp only [numpyLaw, Option.ite_none_right_eq_some, Option.some.injEq] at h
      obtain ⟨h, rfl⟩ := h
      exact chisquareLaw_prob h
    | standardT df =>
      simp only [numpyLaw, Option.ite_none_right_eq_some, Option.some.injEq] at h
      obtain ⟨h, rfl⟩ := h
      have := chisquareLaw_prob h
      exact Measure.isProbabilityMeasure_map (by fun_prop)
    | geometric p =>
      simp only [numpyLaw, Option.dite_none_right_eq_some, Option.some.injEq] at h
      obtain ⟨h, rfl⟩ := h
      exact Measure.isProbabilityMeasure_map (by fun_prop)
    | integers lo hi =>
      simp only [numpyLaw, Option.ite_none_right_eq_some, Option.some.injEq] at h
      obtain ⟨h, rfl⟩ := h
      exact integersLaw_prob h
  range := by
    intro p μ h
    cases p with
    | uniform a b =>
      simp only [numpyLaw, Option.ite_none_right_eq_some, Option.some.injEq] at h
      obtain ⟨h, rfl⟩ := h
      refine Measure.ae_smul_measure ?_ _
      filter_upwards [ae_restrict_mem measurableSet_Ico] with x hx
      exact ⟨⟨x, rfl, hx.1, hx.2.le, fun _ => hx.2⟩, rfl⟩
    | normal m s | standardT df =>
      exact .of_forall fun x => ⟨⟨x, rfl⟩, rfl⟩
    | lognormal m s =>
      simp only [numpyLaw, Option.ite_none_right_eq_some, Option.some.injEq] at h
      obtain ⟨-, rfl⟩ := h
      refine ae_map_range (by fun_prop) (.of_forall fun x => ⟨⟨_, rfl, Real.exp_pos x⟩, rfl⟩)
    | binomial n p =>
      simp only [numpyLaw, Option.dite_none_right_eq_some, Option.some.injEq] at h
      obtain ⟨h, rfl⟩ := h
      refine ae_map_nat (Prim.measurableSet_range _) ?_
      have := ae_le_of_hasLaw_binomial (X := id) (n := n.toNat) (p := ⟨p, h.2⟩) HasLaw.id
      filter_upwards [this] with k hk
      refine ⟨?_, ?_⟩
      · refine int_range (k : ℤ) ⟨by positivity, ?_⟩
        have : ((n.toNat : ℕ) : ℤ) = n := Int.toNat_of_nonneg h.1
        rw [← this]
        exact_mod_cast hk
      · simp [Prim.scalar, realVal]
    | beta a b =>
      simp only [numpyLaw, Option.ite_none_right_eq_some, Option.some.injEq] at h
      obtain ⟨h, rfl⟩ := h
      rw [betaMeasure, ae_withDensity_iff (measurable_betaPDF a b)]
      refine .of_forall fun x hx => ?_
      refine ⟨⟨x, rfl, ?_, ?_⟩, rfl⟩
      · by_contra hneg
        exact hx (betaPDF_eq_zero_of_nonpos (not_le.1 hneg).le)
      · by_contra hneg
        exact hx (betaPDF_eq_zero_of_one_le (not_le.1 hneg).le)
    | triangular l m r =>
      simp only [numpyLaw, Option.ite_none_right_eq_some, Option.some.injEq] at h
      obtain ⟨h, rfl⟩ := h
      rw [triangularLaw, ae_withDensity_iff (measurable_triangularPDF l m r).ennreal_ofReal]
      refine .of_forall fun x hx => ?_
      refine ⟨⟨x, rfl, ?_⟩, rfl⟩
      unfold triangularPDF at hx
      split_ifs at hx with h1 h2
      · exact ⟨h1.1, h1.2.le.trans h.2.1⟩
      · exact ⟨h.1.trans h2.1, h2.2⟩
      · simp at hx
    | poisson lam =>
      simp only [numpyLaw, Option.dite_none_right_eq_some, Option.some.injEq] at h
      obtain ⟨h, rfl⟩ := h
      refine ae_map_nat (Prim.measurableSet_range _) (.of_forall fun k => ⟨int_range (k : ℤ) (by positivity), ?_⟩)
      simp [Prim.scalar, realVal]
    | exponential s =>
      simp only [numpyLaw, Option.ite_none_right_eq_some, Option.some.injEq] at h
      obtain ⟨h, rfl⟩ := h
      filter_upwards [gamma_ae_pos] with x hx
      exact ⟨⟨x, rfl, hx.le⟩, rfl⟩
    | gamma a s =>
      simp only [numpyLaw, Option.ite_none_right_eq_some, Option.some.injEq] at h
      obtain ⟨h, rfl⟩ := h
      filter_upwards [gamma_ae_pos] with x hx
      exact ⟨⟨x, rfl, hx.le⟩, rfl⟩
    | pareto a =>
      simp only [numpyLaw, Option.ite_none_right_eq_some, Option.some.injEq] at h
      obtain ⟨h, rfl⟩ := h
      refine ae_map_range (by fun_prop) ?_
      rw [paretoMeasure, ae_withDensity_iff (measurable_paretoPDF 1 a)]
      refine .of_forall fun x hx => ⟨⟨_, rfl, ?_⟩, rfl⟩
      by_contra hneg
      exact hx (paretoPDF_of_lt (by linarith))
    | chisquare df =>
      simp only [numpyLaw, Option.ite_none_right_eq_some, Option.some.injEq] at h
      obtain ⟨h, rfl⟩ := h
      filter_upwards [gamma_ae_pos] with x hx
      exact ⟨⟨x, rfl, hx⟩, rfl⟩
    | geometric p =>
      simp only [numpyLaw, Option.dite_none_right_eq_some, Option.some.injEq] at h
      obtain ⟨h, rfl⟩ := h
      refine ae_map_nat (Prim.measurableSet_range _) (.of_forall fun k => ?_)
      have e : ((k : ℝ) + 1) = (((k : ℤ) + 1 : ℤ) : ℝ) := by push_cast; rfl
      rw [e]
      exact ⟨int_range ((k : ℤ) + 1) (by omega), by simp [Prim.scalar, realVal]⟩
    | integers lo hi =>
      simp only [numpyLaw, Option.ite_none_right_eq_some, Option.some.injEq] at h
      obtain ⟨h, rfl⟩ := h
      rw [integersLaw, ae_finsetSum_measure_iff]
      intro t ht
      refine Measure.ae_smul_measure ?_ _
      have hr := Prim.measurableSet_range (.integers lo hi)
      refine (ae_dirac_iff hr).2 ?_
      rw [Finset.mem_Ico] at ht
      exact ⟨int_range t ht, by simp [Prim.scalar, realVal]⟩

/-- A source with numpy's documented laws. -/
noncomputable def numpySource : IdealSource (Prim ℝ → ℝ) := lawSource numpyLaw numpyLaw_inRange

theorem numpySource_primLaw : numpySource.primLaw = numpyLaw := lawSource_primLaw _ _

end Verif
