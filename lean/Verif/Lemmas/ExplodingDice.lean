import Verif.Spec.ExplodingDice
import Verif.Lemmas.Stream
import Mathlib.MeasureTheory.Integral.Lebesgue.Basic
import Mathlib.Analysis.SpecificLimits.Basic

/-!
# Helper lemmas: rolling an exploding die with a stream of random inputs
-/

namespace Verif

open MeasureTheory Spec

section

variable {Ω : Type} [MeasurableSpace Ω] (μ₀ : Measure Ω) [IsProbabilityMeasure μ₀] (face : Ω → ℤ) (s : ℤ)
  (l : List ℤ)

/-- Fair faces. -/
structure FairFaces : Prop where
  meas : Measurable face
  mem : ∀ x, face x ∈ Finset.Icc 1 s
  fair : ∀ t ∈ Finset.Icc 1 s, μ₀ (face ⁻¹' {t}) = ENNReal.ofReal (1 / s)

variable {μ₀ face s l}

/-- Conditioning on the first face. -/
theorem FairFaces.split (h : FairFaces μ₀ face s) {U : Set (ℕ → Ω)} (hU : MeasurableSet U)
    (V : ℤ → Set (ℕ → Ω)) (hUV : ∀ x ω, pushHead (x, ω) ∈ U ↔ ω ∈ V (face x)) :
    streamLaw μ₀ U = ∑ t ∈ Finset.Icc 1 s, ENNReal.ofReal (1 / s) * streamLaw μ₀ (V t) := by
  have hpre : pushHead ⁻¹' U = ⋃ t ∈ Finset.Icc 1 s, (face ⁻¹' {t}) ×ˢ V t := by
    ext ⟨x, ω⟩
    simp only [Set.mem_preimage, Set.mem_iUnion, Set.mem_prod, Set.mem_singleton_iff, exists_prop, hUV]
    constructor
    · intro hv; exact ⟨_, h.mem x, rfl, hv⟩
    · rintro ⟨t, -, rfl, hv⟩; exact hv
  have hmeasV : ∀ t ∈ Finset.Icc 1 s, (face ⁻¹' {t}).Nonempty → MeasurableSet (V t) := by
    rintro t - ⟨x, hx⟩
    have : V t = (fun ω => pushHead (x, ω)) ⁻¹' U := by
      ext ω
      rw [Set.mem_preimage, hUV]
      rw [show face x = t from hx]
    rw [this]
    exact (measurable_pushHead.comp (by fun_prop)) hU
  have hms : ∀ t ∈ Finset.Icc 1 s, MeasurableSet ((face ⁻¹' {t}) ×ˢ V t) := by
    intro t ht
    rcases Set.eq_empty_or_nonempty (face ⁻¹' {t}) with he | hne
    · rw [he, Set.empty_prod]; exact MeasurableSet.empty
    · exact (h.meas (measurableSet_singleton t)).prod (hmeasV t ht hne)
  conv_lhs => rw [← map_pushHead μ₀]
  rw [Measure.map_apply measurable_pushHead hU, hpre, measure_biUnion_finset _ hms]
  · refine Finset.sum_congr rfl fun t ht => ?_
    rw [Measure.prod_prod, h.fair t ht]
  · intro a _ b _ hab
    refine Set.disjoint_left.2 ?_
    rintro ⟨x, ω⟩ ⟨h1, -⟩ ⟨h2, -⟩
    exact hab (h1.symm.trans h2)

variable (face l)

/-- Some face does not explode. -/
abbrev Ends (ω : ℕ → Ω) : Prop := ∃ i, face (ω i) ∉ l

open Classical in
/-- How often the die explodes. -/
noncomputable def runLen (ω : ℕ → Ω) : ℕ := if h : Ends face l ω then Nat.find h else 0

/-- The total. -/
noncomputable def runTotal (ω : ℕ → Ω) : ℤ := ∑ i ∈ Finset.range (runLen face l ω + 1), face (ω i)

/-- The inputs not used. -/
noncomputable def runRest (ω : ℕ → Ω) : ℕ → Ω := fun i => ω (i + (runLen face l ω + 1))

variable {face l}

theorem runLen_stop {ω : ℕ → Ω} (h : face (ω 0) ∉ l) : runLen face l ω = 0 := by
  unfold runLen
  rw [dif_pos ⟨0, h⟩, Nat.find_eq_zero]
  exact h

theorem ends_push {x : Ω} {ω : ℕ → Ω} (h : face x ∈ l) : Ends face l (pushHead (x, ω)) ↔ Ends face l ω := by
  constructor
  · rintro ⟨i, hi⟩
    cases i with
    | zero => exact absurd h hi
    | succ i => exact ⟨i, hi⟩
  · rintro ⟨i, hi⟩
    exact ⟨i + 1, hi⟩

theorem runLen_push {x : Ω} {ω : ℕ → Ω} (h : face x ∈ l) (he : Ends face l ω) :
    runLen face l (pushHead (x, ω)) = runLen face l ω + 1 := by
  unfold runLen
  rw [dif_pos ((ends_push h).2 he), dif_pos he]
  rw [Nat.find_eq_iff]
  refine ⟨Nat.find_spec he, fun n hn => ?_⟩
  cases n with
  | zero => exact not_not.2 h
  | succ n => exact Nat.find_min he (by omega)

theorem runTotal_push {x : Ω} {ω : ℕ → Ω} (h : face x ∈ l) (he : Ends face l ω) :
    runTotal face l (pushHead (x, ω)) = face x + runTotal face l ω := by
  unfold runTotal
  rw [runLen_push h he, Finset.sum_range_succ', add_comm]
  rfl

theorem runRest_push {x : Ω} {ω : ℕ → Ω} (h : face x ∈ l) (he : Ends face l ω) :
    runRest face l (pushHead (x, ω)) = runRest face l ω := by
  unfold runRest
  rw [runLen_push h he]
  rfl

theorem runTotal_stop {x : Ω} {ω : ℕ → Ω} (h : face x ∉ l) : runTotal face l (pushHead (x, ω)) = face x := by
  unfold runTotal
  rw [runLen_stop (by exact h)]
  simp [pushHead]

theorem runRest_stop {x : Ω} {ω : ℕ → Ω} (h : face x ∉ l) : runRest face l (pushHead (x, ω)) = ω := by
  unfold runRest
  rw [runLen_stop (by exact h)]
  rfl

omit [MeasurableSpace Ω] in
theorem ends_stop {x : Ω} {ω : ℕ → Ω} (h : face x ∉ l) : Ends face l (pushHead (x, ω)) := ⟨0, h⟩

theorem measurable_runLen (hm : Measurable face) : Measurable (runLen face l) := by
  classical
  have hfi : ∀ i, MeasurableSet {ω : ℕ → Ω | face (ω i) ∉ l} := fun i =>
    (hm.comp (measurable_pi_apply i)) (Set.Countable.measurableSet (Set.to_countable {t : ℤ | t ∉ l}))
  refine measurable_to_countable' fun n => ?_
  have hend : MeasurableSet {ω : ℕ → Ω | Ends face l ω} := by
    have : {ω : ℕ → Ω | Ends face l ω} = ⋃ i, {ω | face (ω i) ∉ l} := by
      ext ω; simp [Ends]
    rw [this]
    exact MeasurableSet.iUnion hfi
  have hset : runLen face l ⁻¹' {n} = ({ω | Ends face l ω} ∩ ({ω | face (ω n) ∉ l} ∩
      ⋂ i ∈ Finset.range n, {ω | face (ω i) ∉ l}ᶜ)) ∪ ({ω | Ends face l ω}ᶜ ∩ {ω | n = 0}) := by
    ext ω
    simp only [Set.mem_preimage, Set.mem_singleton_iff, Set.mem_union, Set.mem_inter_iff, Set.mem_ofPred_eq,
      Set.mem_iInter, Set.mem_compl_iff, Finset.mem_range]
    unfold runLen
    split_ifs with h
    · rw [Nat.find_eq_iff]
      simp [h]
    · simp [h, eq_comm]
  rw [hset]
  exact (hend.inter ((hfi n).inter (Finset.measurableSet_biInter _ fun i _ => (hfi i).compl))).union
    (hend.compl.inter (MeasurableSet.const _))

theorem measurable_runTotal (hm : Measurable face) : Measurable (runTotal face l) := by
  have hg : Measurable fun p : ℕ × (ℕ → Ω) => ∑ i ∈ Finset.range (p.1 + 1), face (p.2 i) := by
    refine measurable_from_prod_countable_right fun n => ?_
    have : Measurable fun ω : ℕ → Ω => ∑ i ∈ Finset.range (n + 1), face (ω i) :=
      Finset.measurable_sum (Finset.range (n + 1)) fun i _ => hm.comp (measurable_pi_apply i)
    exact this
  have h2 : Measurable fun ω : ℕ → Ω => (runLen face l ω, ω) := (measurable_runLen hm).prodMk measurable_id
  exact hg.comp h2

theorem measurable_runRest (hm : Measurable face) : Measurable (runRest face l) := by
  have hg : Measurable fun p : ℕ × (ℕ → Ω) => (fun i => p.2 (i + (p.1 + 1)) : ℕ → Ω) :=
    measurable_from_prod_countable_right fun n => measurable_pi_lambda _ fun i =>
      measurable_pi_apply (i + (n + 1))
  have h2 : Measurable fun ω : ℕ → Ω => (runLen face l ω, ω) := (measurable_runLen hm).prodMk measurable_id
  exact hg.comp h2

/-- Total and rest. -/
theorem measurable_run (hm : Measurable face) :
    Measurable fun ω => ((runTotal face l ω : ℝ), runRest face l ω) :=
  ((measurable_of_countable (fun z : ℤ => (z : ℝ))).comp (measurable_runTotal hm)).prodMk (measurable_runRest hm)

theorem measurable_ends (hm : Measurable face) : MeasurableSet {ω : ℕ → Ω | Ends face l ω} := by
  have hfi : ∀ i, MeasurableSet {ω : ℕ → Ω | face (ω i) ∉ l} := fun i =>
    (hm.comp (measurable_pi_apply i)) (Set.Countable.measurableSet (Set.to_countable {t : ℤ | t ∉ l}))
  have : {ω : ℕ → Ω | Ends face l ω} = ⋃ i, {ω | face (ω i) ∉ l} := by
    ext ω; simp [Ends]
  rw [this]
  exact MeasurableSet.iUnion hfi

/-- The exploding faces. -/
noncomputable def hot (s : ℤ) (l : List ℤ) : Finset ℤ := (Finset.Icc 1 s).filter (· ∈ l)

/-- The chance that the first `n` faces all explode. -/
theorem prob_explodes (h : FairFaces μ₀ face s) (n : ℕ) :
    streamLaw μ₀ {ω | ∀ i, i < n → face (ω i) ∈ l} = ENNReal.ofReal (((hot s l).card : ℝ) / s) ^ n := by
  induction n with
  | zero => simp
  | succ n ih =>
    have hms : MeasurableSet {ω : ℕ → Ω | ∀ i, i < n + 1 → face (ω i) ∈ l} := by
      have : {ω : ℕ → Ω | ∀ i, i < n + 1 → face (ω i) ∈ l}
          = ⋂ i ∈ Finset.range (n + 1), {ω | face (ω i) ∈ l} := by ext ω; simp
      rw [this]
      exact Finset.measurableSet_biInter _ fun i _ =>
        (h.meas.comp (measurable_pi_apply i)) (Set.Countable.measurableSet (Set.to_countable {t : ℤ | t ∈ l}))
    rw [h.split hms (fun t => if t ∈ l then {ω | ∀ i, i < n → face (ω i) ∈ l} else ∅)]
    · have : ∀ t ∈ Finset.Icc 1 s, ENNReal.ofReal (1 / s) * streamLaw μ₀
          (if t ∈ l then {ω | ∀ i, i < n → face (ω i) ∈ l} else ∅)
          = if t ∈ l then ENNReal.ofReal (1 / s) * ENNReal.ofReal (((hot s l).card : ℝ) / s) ^ n else 0 := by
        intro t _
        split_ifs
        · rw [ih]
        · simp
      rw [Finset.sum_congr rfl this, ← Finset.sum_filter]
      change ∑ t ∈ hot s l, _ = _
      rw [Finset.sum_const, nsmul_eq_mul, pow_succ', ← mul_assoc]
      congr 1
      rw [div_eq_mul_one_div ((hot s l).card : ℝ), ENNReal.ofReal_mul (by positivity), ENNReal.ofReal_natCast]
    · intro x ω
      by_cases hx : face x ∈ l
      · rw [if_pos hx]
        constructor
        · intro hU i hi; exact hU (i + 1) (by omega)
        · intro hU i hi
          cases i with
          | zero => exact hx
          | succ i => exact hU i (by omega)
      · rw [if_neg hx]
        simp only [Set.mem_empty_iff_false, iff_false]
        intro hU
        exact hx (hU 0 (by omega))

theorem FairFaces.pos (h : FairFaces μ₀ face s) : 1 ≤ s := by
  have : Nonempty Ω := by
    by_contra hne
    rw [not_nonempty_iff] at hne
    have := measure_univ (μ := μ₀)
    rw [Set.univ_eq_empty_iff.2 hne] at this
    simp at this
  have := Finset.mem_Icc.1 (h.mem (Classical.arbitrary Ω))
  omega

/-- It stops, unless it explodes on all faces. -/
theorem ends_ae (h : FairFaces μ₀ face s) (hk : (hot s l).card < s) : ∀ᵐ ω ∂(streamLaw μ₀), Ends face l ω := by
  have hs : (0 : ℝ) < s := by exact_mod_cast h.pos
  set r : ENNReal := ENNReal.ofReal (((hot s l).card : ℝ) / s) with hr
  have hr1 : r < 1 := by
    rw [hr, ENNReal.ofReal_lt_one, div_lt_one hs]
    exact_mod_cast hk
  have hle : ∀ n, streamLaw μ₀ {ω | ¬ Ends face l ω} ≤ r ^ n := by
    intro n
    rw [hr, ← prob_explodes (l := l) h n]
    refine measure_mono fun ω hω i _ => ?_
    by_contra hc
    exact hω ⟨i, hc⟩
  rw [ae_iff]
  refine le_antisymm (ge_of_tendsto' (ENNReal.tendsto_pow_atTop_nhds_zero_of_lt_one hr1) hle) zero_le

/-- A bounded set function that reproduces itself on the exploding faces vanishes. -/
theorem vanishes (hs : 1 ≤ s) (hk : (hot s l).card < s) (g : Set ℝ → ℝ)
    (hb : ∀ A, MeasurableSet A → |g A| ≤ 1)
    (hg : ∀ A, MeasurableSet A → g A = ∑ t ∈ hot s l, 1 / (s : ℝ) * g ((fun x => (t : ℝ) + x) ⁻¹' A)) :
    ∀ A, MeasurableSet A → g A = 0 := by
  have hs' : (0 : ℝ) < s := by exact_mod_cast hs
  have key : ∀ n : ℕ, ∀ A, MeasurableSet A → |g A| ≤ (((hot s l).card : ℝ) / s) ^ n := by
    intro n
    induction n with
    | zero => intro A hA; simpa using hb A hA
    | succ n ih =>
      intro A hA
      rw [hg A hA]
      refine (Finset.abs_sum_le_sum_abs _ _).trans ?_
      refine (Finset.sum_le_card_nsmul _ _ (1 / (s : ℝ) * (((hot s l).card : ℝ) / s) ^ n) fun t _ => ?_).trans
        (le_of_eq ?_)
      · rw [abs_mul, abs_of_pos (by positivity)]
        exact mul_le_mul_of_nonneg_left (ih _ ((by fun_prop : Measurable fun x : ℝ => (t : ℝ) + x) hA))
          (by positivity)
      · rw [nsmul_eq_mul, pow_succ']
        ring
  intro A hA
  have hr1 : ((hot s l).card : ℝ) / s < 1 := by
    rw [div_lt_one hs']
    exact_mod_cast hk
  have := ge_of_tendsto' (tendsto_pow_atTop_nhds_zero_of_lt_one (by positivity) hr1) fun n => key n A hA
  exact abs_eq_zero.1 (le_antisymm this (abs_nonneg _))

/-- The chance of a total in `A` with a rest in `B`. -/
noncomputable def runProb (μ₀ : Measure Ω) [IsProbabilityMeasure μ₀] (face : Ω → ℤ) (l : List ℤ) (A : Set ℝ)
    (B : Set (ℕ → Ω)) : ℝ :=
  (streamLaw μ₀).real {ω | (runTotal face l ω : ℝ) ∈ A ∧ runRest face l ω ∈ B}

theorem runProb_split (h : FairFaces μ₀ face s) (hk : (hot s l).card < s) {A : Set ℝ} (hA : MeasurableSet A)
    {B : Set (ℕ → Ω)} (hB : MeasurableSet B) :
    runProb μ₀ face l A B = ∑ t ∈ Finset.Icc 1 s, 1 / (s : ℝ) *
      (if t ∈ l then runProb μ₀ face l ((fun x => (t : ℝ) + x) ⁻¹' A) B
        else (streamLaw μ₀).real {ω | (t : ℝ) ∈ A ∧ ω ∈ B}) := by
  have hs : (0 : ℝ) < s := by exact_mod_cast h.pos
  have hends : ∀ (A : Set ℝ) (B : Set (ℕ → Ω)), (streamLaw μ₀).real {ω | (runTotal face l ω : ℝ) ∈ A ∧ runRest face l ω ∈ B}
      = (streamLaw μ₀).real {ω | Ends face l ω ∧ (runTotal face l ω : ℝ) ∈ A ∧ runRest face l ω ∈ B} := by
    intro A B
    refine measureReal_congr ?_
    filter_upwards [ends_ae (l := l) h hk] with ω hω
    have : ({ω | (runTotal face l ω : ℝ) ∈ A ∧ runRest face l ω ∈ B} : Set (ℕ → Ω)) ω
      = ({ω | Ends face l ω ∧ (runTotal face l ω : ℝ) ∈ A ∧ runRest face l ω ∈ B} : Set (ℕ → Ω)) ω := by
      refine propext ?_
      change ((runTotal face l ω : ℝ) ∈ A ∧ runRest face l ω ∈ B) ↔
        (Ends face l ω ∧ (runTotal face l ω : ℝ) ∈ A ∧ runRest face l ω ∈ B)
      exact ⟨fun x => ⟨hω, x⟩, fun x => x.2⟩
    exact this
  have hms : MeasurableSet {ω : ℕ → Ω | Ends face l ω ∧ (runTotal face l ω : ℝ) ∈ A ∧ runRest face l ω ∈ B} :=
    (measurable_ends h.meas).inter ((measurable_run h.meas) (hA.prod hB))
  have hsplit := h.split hms (fun t => if t ∈ l then
      {ω | Ends face l ω ∧ (runTotal face l ω : ℝ) ∈ (fun x => (t : ℝ) + x) ⁻¹' A ∧ runRest face l ω ∈ B}
    else {ω | (t : ℝ) ∈ A ∧ ω ∈ B}) (by
      intro x ω
      by_cases hx : face x ∈ l
      · rw [if_pos hx]
        change (Ends face l (pushHead (x, ω)) ∧ (runTotal face l (pushHead (x, ω)) : ℝ) ∈ A ∧
          runRest face l (pushHead (x, ω)) ∈ B) ↔
          (Ends face l ω ∧ (face x : ℝ) + (runTotal face l ω : ℝ) ∈ A ∧ runRest face l ω ∈ B)
        rw [ends_push hx]
        refine and_congr_right fun he => ?_
        rw [runTotal_push hx he, runRest_push hx he, Int.cast_add]
      · rw [if_neg hx]
        change (Ends face l (pushHead (x, ω)) ∧ (runTotal face l (pushHead (x, ω)) : ℝ) ∈ A ∧
          runRest face l (pushHead (x, ω)) ∈ B) ↔ ((face x : ℝ) ∈ A ∧ ω ∈ B)
        rw [runTotal_stop hx, runRest_stop hx]
        exact ⟨fun y => y.2, fun y => ⟨ends_stop hx, y⟩⟩)
  unfold runProb
  rw [hends]
  have := congrArg ENNReal.toReal hsplit
  rw [ENNReal.toReal_sum (fun t _ => ENNReal.mul_ne_top ENNReal.ofReal_ne_top (measure_ne_top _ _))] at this
  refine this.trans (Finset.sum_congr rfl fun t _ => ?_)
  rw [ENNReal.toReal_mul, ENNReal.toReal_ofReal (by positivity)]
  congr 1
  split_ifs
  · exact (hends _ _).symm
  · rfl

/-- The law of the total. -/
noncomputable def runLaw (μ₀ : Measure Ω) [IsProbabilityMeasure μ₀] (face : Ω → ℤ) (l : List ℤ) : Measure ℝ :=
  (streamLaw μ₀).map fun ω => (runTotal face l ω : ℝ)

theorem measurable_total (hm : Measurable face) : Measurable fun ω => (runTotal face l ω : ℝ) :=
  (measurable_of_countable (fun z : ℤ => (z : ℝ))).comp (measurable_runTotal hm)

theorem runLaw_prob (h : FairFaces μ₀ face s) : IsProbabilityMeasure (runLaw μ₀ face l) :=
  Measure.isProbabilityMeasure_map (measurable_total h.meas).aemeasurable

theorem runLaw_real (h : FairFaces μ₀ face s) {A : Set ℝ} (hA : MeasurableSet A) :
    (runLaw μ₀ face l).real A = runProb μ₀ face l A Set.univ := by
  unfold runLaw runProb Measure.real
  rw [Measure.map_apply (measurable_total h.meas) hA]
  congr 2
  ext ω
  simp

/-- Total and rest are independent; the rest is again a stream of independent inputs. -/
theorem run_law (h : FairFaces μ₀ face s) (hk : (hot s l).card < s) :
    (streamLaw μ₀).map (fun ω => ((runTotal face l ω : ℝ), runRest face l ω))
      = (runLaw μ₀ face l).prod (streamLaw μ₀) := by
  have hp := runLaw_prob (l := l) h
  have hmap : IsProbabilityMeasure ((streamLaw μ₀).map fun ω => ((runTotal face l ω : ℝ), runRest face l ω)) :=
    Measure.isProbabilityMeasure_map (measurable_run h.meas).aemeasurable
  refine (Measure.prod_eq fun A B hA hB => ?_).symm
  rw [Measure.map_apply (measurable_run h.meas) (hA.prod hB)]
  have hq : ∀ A, MeasurableSet A → runProb μ₀ face l A B - (runLaw μ₀ face l).real A * (streamLaw μ₀).real B = 0 := by
    refine vanishes h.pos hk _ (fun A hA => ?_) (fun A hA => ?_)
    · rw [abs_le]
      have h1 : 0 ≤ runProb μ₀ face l A B := measureReal_nonneg
      have h2 : runProb μ₀ face l A B ≤ 1 := measureReal_le_one
      have h3 : 0 ≤ (runLaw μ₀ face l).real A := measureReal_nonneg
      have h4 : (runLaw μ₀ face l).real A ≤ 1 := measureReal_le_one
      have h5 : 0 ≤ (streamLaw μ₀).real B := measureReal_nonneg
      have h6 : (streamLaw μ₀).real B ≤ 1 := measureReal_le_one
      constructor <;> nlinarith [mul_le_one₀ h4 h5 h6, mul_nonneg h3 h5]
    · rw [runProb_split h hk hA hB, runLaw_real h hA, runProb_split h hk hA MeasurableSet.univ, Finset.sum_mul,
        ← Finset.sum_sub_distrib]
      unfold hot
      rw [Finset.sum_filter]
      refine Finset.sum_congr rfl fun t _ => ?_
      split_ifs with ht
      · rw [runLaw_real h ((by fun_prop : Measurable fun x : ℝ => (t : ℝ) + x) hA)]
        ring
      · have : (streamLaw μ₀).real {ω | (t : ℝ) ∈ A ∧ ω ∈ B}
            = (streamLaw μ₀).real {ω | (t : ℝ) ∈ A ∧ ω ∈ (Set.univ : Set (ℕ → Ω))} * (streamLaw μ₀).real B := by
          by_cases hc : (t : ℝ) ∈ A
          · simp [hc]
          · simp [hc]
        rw [this]; ring
  have h1 := sub_eq_zero.1 (hq A hA)
  have h2 : ((streamLaw μ₀) ((fun ω => ((runTotal face l ω : ℝ), runRest face l ω)) ⁻¹' A ×ˢ B)).toReal
      = ((runLaw μ₀ face l) A * (streamLaw μ₀) B).toReal := by
    rw [ENNReal.toReal_mul]
    exact h1
  exact (ENNReal.toReal_eq_toReal_iff' (measure_ne_top _ _)
    (ENNReal.mul_ne_top (measure_ne_top _ _) (measure_ne_top _ _))).1 h2

theorem explodingLaw_real {μ : Measure ℝ} (hs : 1 ≤ s) (h : IsExplodingLaw s l μ) {A : Set ℝ} (hA : MeasurableSet A) :
    μ.real A = ∑ t ∈ Finset.Icc 1 s, 1 / (s : ℝ) *
      (if t ∈ l then μ.real ((fun x => (t : ℝ) + x) ⁻¹' A) else (Measure.dirac (t : ℝ)).real A) := by
  have hp := h.prob
  have hs' : (0 : ℝ) < s := by exact_mod_cast hs
  have e := congrArg (fun ν : Measure ℝ => ν A) h.eq
  have hterm : ∀ t ∈ Finset.Icc 1 s, (ENNReal.ofReal (1 / s) •
      (if t ∈ l then μ.map fun x => (t : ℝ) + x else Measure.dirac (t : ℝ))) A
      = ENNReal.ofReal (1 / s) * (if t ∈ l then μ ((fun x => (t : ℝ) + x) ⁻¹' A) else Measure.dirac (t : ℝ) A) := by
    intro t _
    rw [Measure.smul_apply, smul_eq_mul]
    split_ifs
    · rw [Measure.map_apply (by fun_prop) hA]
    · rfl
  have e2 : μ A = ∑ t ∈ Finset.Icc 1 s, ENNReal.ofReal (1 / s) *
      (if t ∈ l then μ ((fun x => (t : ℝ) + x) ⁻¹' A) else Measure.dirac (t : ℝ) A) := by
    refine e.trans ?_
    rw [Measure.finsetSum_apply]
    exact Finset.sum_congr rfl hterm
  have := congrArg ENNReal.toReal e2
  rw [ENNReal.toReal_sum] at this
  · refine this.trans (Finset.sum_congr rfl fun t _ => ?_)
    rw [ENNReal.toReal_mul, ENNReal.toReal_ofReal (by positivity)]
    congr 1
    split_ifs <;> rfl
  · intro t _
    refine ENNReal.mul_ne_top ENNReal.ofReal_ne_top ?_
    split_ifs <;> exact measure_ne_top _ _

/-- There is at most one such law. -/
theorem explodingLaw_unique {μ ν : Measure ℝ} (hs : 1 ≤ s) (hk : (hot s l).card < s) (hμ : IsExplodingLaw s l μ)
    (hν : IsExplodingLaw s l ν) : μ = ν := by
  have hp := hμ.prob
  have hq := hν.prob
  have key : ∀ A, MeasurableSet A → μ.real A - ν.real A = 0 := by
    refine vanishes hs hk _ (fun A hA => ?_) (fun A hA => ?_)
    · have h1 : 0 ≤ μ.real A := measureReal_nonneg
      have h2 : μ.real A ≤ 1 := measureReal_le_one
      have h3 : 0 ≤ ν.real A := measureReal_nonneg
      have h4 : ν.real A ≤ 1 := measureReal_le_one
      rw [abs_le]
      constructor <;> linarith
    · rw [explodingLaw_real hs hμ hA, explodingLaw_real hs hν hA, ← Finset.sum_sub_distrib]
      unfold hot
      rw [Finset.sum_filter]
      refine Finset.sum_congr rfl fun t _ => ?_
      split_ifs <;> ring
  ext A hA
  exact (ENNReal.toReal_eq_toReal_iff' (measure_ne_top _ _) (measure_ne_top _ _)).1 (sub_eq_zero.1 (key A hA))

/-- The total has such a law. -/
theorem runLaw_exploding (h : FairFaces μ₀ face s) (hk : (hot s l).card < s) :
    IsExplodingLaw s l (runLaw μ₀ face l) := by
  have hp := runLaw_prob (l := l) h
  have hs : (0 : ℝ) < s := by exact_mod_cast h.pos
  refine ⟨hp, ?_⟩
  ext A hA
  have e := runProb_split h hk hA MeasurableSet.univ
  rw [← runLaw_real h hA] at e
  rw [Measure.finsetSum_apply, ← ENNReal.ofReal_toReal (measure_ne_top (runLaw μ₀ face l) A)]
  change ENNReal.ofReal ((runLaw μ₀ face l).real A) = _
  rw [e, ENNReal.ofReal_sum_of_nonneg]
  · refine Finset.sum_congr rfl fun t _ => ?_
    rw [Measure.smul_apply, smul_eq_mul, ENNReal.ofReal_mul (by positivity)]
    congr 1
    split_ifs
    · rw [Measure.map_apply (by fun_prop) hA, ← runLaw_real h ((by fun_prop : Measurable fun x : ℝ => (t : ℝ) + x) hA)]
      exact ENNReal.ofReal_toReal (measure_ne_top _ _)
    · by_cases hc : (t : ℝ) ∈ A
      · simp [hc]
      · simp [hc, Measure.dirac_apply' _ hA]
  · intro t _
    refine mul_nonneg (by positivity) ?_
    split_ifs <;> exact measureReal_nonneg

end

end Verif
