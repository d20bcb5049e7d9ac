import Verif.Lemmas.ExplodeDraw
import Verif.Lemmas.DenoteInduct
import Verif.Lemmas.DemoSource
import Verif.Props.Dice
import Mathlib.MeasureTheory.Integral.Bochner.Basic

/-!
# C94: the law of an exploding die

The generator is an ideal source whose dice are fair.  The Python loop has no bound; `Drives` says that the
model's loop is carried out to its end whenever it has one.
-/

namespace Verif

open MeasureTheory ProbabilityTheory Spec

section

variable {Ω : Type} [MeasurableSpace Ω] (S : IdealSource Ω)

variable {E : Env (ℕ → Ω) ℝ} {left : ℕ → ℕ → Option (List (Scalar ℝ))}

theorem hot_lt {d : DieSpec} {l : List ℤ} {sides : IntArg} {ex : ExplodeArg} (hd : dieInit sides ex = .ok d)
    (hl : d.explodeOn = some l) : 2 ≤ d.sides ∧ (hot d.sides l).card < d.sides := by
  obtain ⟨h1, -, -, h4⟩ := (C28_accepted_iff sides ex d).1 hd
  refine ⟨h1, lt_of_le_of_lt ?_ (h4 l hl).1⟩
  have : hot d.sides l ⊆ l.toFinset := by
    intro t ht
    exact List.mem_toFinset.2 (Finset.mem_filter.1 ht).2
  exact_mod_cast (Finset.card_le_card this).trans (List.toFinset_card_le l)

/-- **C94.** For every die with exploding faces that the constructor accepts: if the generator's dice are fair,
then `sample(die, n)` almost surely returns; the `n` results are independent of each other and of all later random
numbers, and each has the law: roll once, and if the face explodes add an independent result of the same kind. -/
theorem C94_law (hE : S.Drives E) {sides : IntArg} {ex : ExplodeArg} {d : DieSpec} {l : List ℤ}
    (hd : dieInit sides ex = .ok d) (hl : d.explodeOn = some l)
    (hfair : S.primLaw (.integers 1 (d.sides + 1)) = some (dieLaw d.sides))
    {μ : Measure ℝ} (hμ : IsExplodingLaw d.sides l μ) {n : ℕ} (hn : 1 ≤ n) :
    ∃ F : (ℕ → Ω) → (Fin n → ℝ) × (ℕ → Ω), Measurable F ∧
      (streamLaw S.law).map F = (Measure.pi fun _ => μ).prod (streamLaw S.law) ∧
      ∀ᵐ ω ∂(streamLaw S.law), ∃ z,
        sampleObj E (.leaf (.die d) none none) n none none ⟨ω, left⟩ = (.ok z, ⟨(F ω).2, left⟩) ∧
          Reads n z (F ω).1 := by
  obtain ⟨h2, hk⟩ := hot_lt hd hl
  obtain ⟨s, ex'⟩ := d
  obtain rfl : ex' = some l := hl
  have hp := hμ.prob
  exact withClips_law_none S (E := E) (raw := rawObj E (.leaf (.die ⟨s, some l⟩) none none)) hn
    (explode_law S (left := left) hE (by simp only at h2; omega) hk hfair hμ n)

/-- **C94.** There is exactly one such law. -/
theorem C94_law_unique {sides : IntArg} {ex : ExplodeArg} {d : DieSpec} {l : List ℤ}
    (hd : dieInit sides ex = .ok d) (hl : d.explodeOn = some l) : ∃! μ, IsExplodingLaw d.sides l μ := by
  obtain ⟨h2, hk⟩ := hot_lt hd hl
  have hs : (0 : ℝ) < d.sides := by exact_mod_cast (by omega : 0 < d.sides)
  set μ₀ : Measure ℤ := ∑ t ∈ Finset.Icc 1 d.sides, ENNReal.ofReal (1 / d.sides) • Measure.dirac t with hμ₀
  have hpr : IsProbabilityMeasure μ₀ := by
    refine ⟨?_⟩
    rw [hμ₀, Measure.finsetSum_apply]
    simp only [Measure.smul_apply, measure_univ, smul_eq_mul, mul_one, Finset.sum_const, Int.card_Icc,
      nsmul_eq_mul]
    rw [← ENNReal.ofReal_natCast, ← ENNReal.ofReal_mul (by positivity)]
    have : ((d.sides + 1 - 1).toNat : ℝ) = d.sides := by
      have : ((d.sides + 1 - 1).toNat : ℤ) = d.sides := by omega
      exact_mod_cast this
    rw [this, mul_one_div_cancel hs.ne', ENNReal.ofReal_one]
  have hF : FairFaces μ₀ (fun x => if x ∈ Finset.Icc 1 d.sides then x else 1) d.sides := by
    refine ⟨measurable_of_countable _, fun x => ?_, fun t ht => ?_⟩
    · split_ifs with h
      · exact h
      · exact Finset.mem_Icc.2 ⟨le_refl _, by omega⟩
    · rw [hμ₀, Measure.finsetSum_apply, Finset.sum_eq_single t]
      · simp only [Measure.smul_apply, smul_eq_mul]
        rw [Measure.dirac_apply' _ (MeasurableSet.of_discrete)]
        simp only [Set.indicator, Set.mem_preimage, Set.mem_singleton_iff, ht, if_true, Pi.one_apply, mul_one]
      · intro b hb hbt
        simp only [Measure.smul_apply, smul_eq_mul]
        rw [Measure.dirac_apply' _ (MeasurableSet.of_discrete)]
        simp only [Set.indicator, Set.mem_preimage, Set.mem_singleton_iff, hb, if_true, hbt, if_false, mul_zero]
      · intro h; exact absurd ht h
  exact ⟨_, runLaw_exploding hF hk, fun ν hν => explodingLaw_unique (by omega) hk hν (runLaw_exploding hF hk)⟩

/-- **C94.** With a bound of `f` extra rolls, a roll is unfinished with chance `(k/s)^(f+1)`, where `k` of the
`s` faces explode. -/
theorem C94_unfinished (hE : E.gen = S.gen) {s : ℤ} (l : List ℤ)
    (hfair : S.primLaw (.integers 1 (s + 1)) = some (dieLaw s)) (f : ℕ) :
    streamLaw S.law {ω | (singleRoll (drawInt E 1 (s + 1)) (some l) f ⟨ω, left⟩).1 = .error .outOfFuel}
      = ENNReal.ofReal ((((Finset.Icc 1 s).filter (· ∈ l)).card : ℝ) / s) ^ (f + 1) := by
  cases hq : S.answer (.integers 1 (s + 1)) with
  | none => simp [IdealSource.primLaw, hq] at hfair
  | some q =>
    obtain ⟨hF, hint⟩ := faces_fair S hq hfair
    refine Eq.trans ?_ (prob_explodes (l := l) hF (f + 1))
    congr 1
    ext ω
    change (singleRoll (drawInt E 1 (s + 1)) (some l) f ⟨ω, left⟩).1 = .error .outOfFuel ↔
      ∀ i, i < f + 1 → faceOf q (ω i) ∈ l
    unfold singleRoll
    simp only [drawInt_eq S hE hq hint, explodeLoop_short (drawInt_eq S hE hq hint)]
    constructor
    · rintro ⟨h1, h2⟩ i hi
      cases i with
      | zero => exact h1
      | succ i => exact h2 i (by omega)
    · intro h
      exact ⟨h 0 (by omega), fun i hi => h (i + 1) (by omega)⟩

end

section

theorem hot_sum {s : ℤ} (hs : 0 < s) (l : List ℤ) (m : ℝ) :
    ∑ t ∈ Finset.Icc 1 s, 1 / (s : ℝ) * (if t ∈ l then (t : ℝ) + m else t)
      = ((s : ℝ) + 1) / 2 + (hot s l).card / s * m := by
  have hs' : (s : ℝ) ≠ 0 := by exact_mod_cast hs.ne'
  have h1 : ∀ t ∈ Finset.Icc 1 s, 1 / (s : ℝ) * (if t ∈ l then (t : ℝ) + m else t)
      = 1 / (s : ℝ) * t + if t ∈ l then 1 / (s : ℝ) * m else 0 := by
    intro t _
    split_ifs <;> ring
  have h2 : ∀ n : ℕ, ∑ t ∈ Finset.Icc 1 (n : ℤ), (t : ℝ) = (n : ℝ) * (n + 1) / 2 := by
    intro n
    induction n with
    | zero => simp
    | succ n ih =>
      have : Finset.Icc 1 ((n + 1 : ℕ) : ℤ) = insert ((n : ℤ) + 1) (Finset.Icc 1 (n : ℤ)) := by
        ext t; simp only [Finset.mem_Icc, Finset.mem_insert]; push_cast; omega
      rw [this, Finset.sum_insert (by simp), ih]
      push_cast; ring
  obtain ⟨n, rfl⟩ : ∃ n : ℕ, s = n := ⟨s.toNat, by omega⟩
  rw [Finset.sum_congr rfl h1, Finset.sum_add_distrib, ← Finset.mul_sum, h2, ← Finset.sum_filter,
    Finset.sum_const, nsmul_eq_mul]
  unfold hot
  push_cast at hs' ⊢
  field_simp

theorem explodingLaw_integrable {s : ℤ} {l : List ℤ} (hs : 0 < s) (hk : (hot s l).card < s) {μ : Measure ℝ}
    (h : IsExplodingLaw s l μ) : Integrable (fun x => x) μ := by
  have hp := h.prob
  have hs' : (0 : ℝ) < s := by exact_mod_cast hs
  have hk' : ((hot s l).card : ℝ) < s := by exact_mod_cast hk
  set p : ℝ := (hot s l).card / s with hpdef
  have hp1 : p < 1 := (div_lt_one hs').2 hk'
  -- the truncated means are bounded
  have key : ∀ M : ℕ, ∫⁻ x, min ‖x‖ₑ M ∂μ ≤ ENNReal.ofReal (((s : ℝ) + 1) / 2 / (1 - p)) := by
    intro M
    have hm : Measurable fun x : ℝ => min ‖x‖ₑ (M : ENNReal) := by fun_prop
    have hfin : ∫⁻ x, min ‖x‖ₑ (M : ENNReal) ∂μ ≠ ⊤ := by
      refine ne_top_of_le_ne_top (b := (M : ENNReal)) (ENNReal.natCast_ne_top M) ?_
      calc _ ≤ ∫⁻ _, (M : ENNReal) ∂μ := lintegral_mono fun x => min_le_right _ _
        _ = M := by simp
    set L := ∫⁻ x, min ‖x‖ₑ (M : ENNReal) ∂μ with hL
    have hle : L ≤ ∑ t ∈ Finset.Icc 1 s, ENNReal.ofReal (1 / s) *
        (if t ∈ l then ENNReal.ofReal t + L else ENNReal.ofReal t) := by
      conv_lhs => rw [hL, h.eq]
      rw [lintegral_finset_sum_measure]
      refine Finset.sum_le_sum fun t ht => ?_
      have ht0 : (0 : ℝ) ≤ t := by
        have := (Finset.mem_Icc.1 ht).1
        exact_mod_cast (by omega : (0 : ℤ) ≤ t)
      have htn : ‖(t : ℝ)‖ₑ = ENNReal.ofReal t := Real.enorm_of_nonneg ht0
      rw [lintegral_smul_measure, smul_eq_mul]
      gcongr
      split_ifs with hl
      · rw [lintegral_map hm (by fun_prop), hL]
        rw [← htn]
        calc ∫⁻ x, min ‖(t : ℝ) + x‖ₑ (M : ENNReal) ∂μ
            ≤ ∫⁻ x, ‖(t : ℝ)‖ₑ + min ‖x‖ₑ (M : ENNReal) ∂μ := by
              refine lintegral_mono fun x => ?_
              rw [← min_add_add_left]
              exact min_le_min (enorm_add_le _ _) le_add_self
          _ = _ := by rw [lintegral_add_left measurable_const]; simp
      · rw [lintegral_dirac' _ hm, ← htn]
        exact min_le_left _ _
    have hr : L.toReal ≤ ((s : ℝ) + 1) / 2 + p * L.toReal := by
      rw [← hot_sum hs l L.toReal]
      have h2 : ∑ t ∈ Finset.Icc 1 s, ENNReal.ofReal (1 / s) *
          (if t ∈ l then ENNReal.ofReal t + L else ENNReal.ofReal t)
          = ENNReal.ofReal (∑ t ∈ Finset.Icc 1 s, 1 / (s : ℝ) * (if t ∈ l then (t : ℝ) + L.toReal else t)) := by
        rw [ENNReal.ofReal_sum_of_nonneg]
        · refine Finset.sum_congr rfl fun t ht => ?_
          have ht0 : (0 : ℝ) ≤ t := by
            have := (Finset.mem_Icc.1 ht).1
            exact_mod_cast (by omega : (0 : ℤ) ≤ t)
          rw [ENNReal.ofReal_mul (by positivity)]
          split_ifs
          · rw [ENNReal.ofReal_add ht0 ENNReal.toReal_nonneg, ENNReal.ofReal_toReal hfin]
          · rfl
        · intro t ht
          have ht0 : (0 : ℝ) ≤ t := by
            have := (Finset.mem_Icc.1 ht).1
            exact_mod_cast (by omega : (0 : ℤ) ≤ t)
          have := ENNReal.toReal_nonneg (a := L)
          split_ifs <;> positivity
      rw [h2] at hle
      refine ENNReal.toReal_le_of_le_ofReal (Finset.sum_nonneg fun t ht => ?_) hle
      have ht0 : (0 : ℝ) ≤ t := by
        have := (Finset.mem_Icc.1 ht).1
        exact_mod_cast (by omega : (0 : ℤ) ≤ t)
      have := ENNReal.toReal_nonneg (a := L)
      split_ifs <;> positivity
    rw [← ENNReal.ofReal_toReal hfin]
    refine ENNReal.ofReal_le_ofReal ?_
    rw [le_div_iff₀ (by linarith)]
    linarith
  have hlim : ∫⁻ x : ℝ, ‖x‖ₑ ∂μ ≤ ENNReal.ofReal (((s : ℝ) + 1) / 2 / (1 - p)) := by
    have hsup : ∀ x : ℝ, ‖x‖ₑ = ⨆ M : ℕ, min ‖x‖ₑ (M : ENNReal) := by
      intro x
      refine le_antisymm ?_ (iSup_le fun M => min_le_left _ _)
      obtain ⟨M, hM⟩ := ENNReal.exists_nat_gt (enorm_ne_top (x := x))
      exact le_iSup_of_le M (le_min le_rfl hM.le)
    rw [lintegral_congr hsup, lintegral_iSup (fun M => by fun_prop)]
    · exact iSup_le key
    · intro M N hMN x
      exact min_le_min le_rfl (by exact_mod_cast hMN)
  exact ⟨by fun_prop, lt_of_le_of_lt hlim ENNReal.ofReal_lt_top⟩

/-- **C94.** The mean of an exploding die: `(s+1)/2` divided by the chance that a face does not explode. -/
theorem C94_mean {sides : IntArg} {ex : ExplodeArg} {d : DieSpec} {l : List ℤ}
    (hd : dieInit sides ex = .ok d) (hl : d.explodeOn = some l) {μ : Measure ℝ} (hμ : IsExplodingLaw d.sides l μ) :
    Integrable (fun x => x) μ ∧
      ∫ x, x ∂μ = ((d.sides : ℝ) + 1) / 2 / (1 - ((Finset.Icc 1 d.sides).filter (· ∈ l)).card / d.sides) := by
  obtain ⟨h2, hk⟩ := hot_lt hd hl
  have hs : 0 < d.sides := by omega
  have hs' : (0 : ℝ) < d.sides := by exact_mod_cast hs
  have hk' : ((hot d.sides l).card : ℝ) < d.sides := by exact_mod_cast hk
  have hp1 : ((hot d.sides l).card : ℝ) / d.sides < 1 := (div_lt_one hs').2 hk'
  have hi := explodingLaw_integrable hs hk hμ
  have hp := hμ.prob
  refine ⟨hi, ?_⟩
  have hint : ∀ t ∈ Finset.Icc 1 d.sides, Integrable (fun x : ℝ => x)
      (ENNReal.ofReal (1 / d.sides) • (if t ∈ l then μ.map ((t : ℝ) + ·) else Measure.dirac (t : ℝ))) := by
    intro t _
    refine Integrable.smul_measure ?_ ENNReal.ofReal_ne_top
    split_ifs
    · refine (integrable_map_measure (by fun_prop) (by fun_prop)).2 ?_
      exact (integrable_const _).add hi
    · exact integrable_dirac (by simp)
  have e : ∫ x, x ∂μ = ∑ t ∈ Finset.Icc 1 d.sides, 1 / (d.sides : ℝ) *
      (if t ∈ l then (t : ℝ) + ∫ x, x ∂μ else t) := by
    conv_lhs => rw [hμ.eq]
    rw [integral_finset_sum_measure hint]
    refine Finset.sum_congr rfl fun t _ => ?_
    rw [integral_smul_measure, ENNReal.toReal_ofReal (by positivity), smul_eq_mul]
    congr 1
    split_ifs
    · rw [integral_map (by fun_prop) (by fun_prop), integral_add (integrable_const _) hi]
      simp
    · simp
  rw [hot_sum hs l] at e
  change _ = ((d.sides : ℝ) + 1) / 2 / (1 - ((hot d.sides l).card : ℝ) / d.sides)
  rw [eq_div_iff (by linarith)]
  linarith

end

/-! ### A concrete case -/

/-- Fair faces have the law of a die. -/
theorem FairFaces.map_eq {Ω : Type} [MeasurableSpace Ω] {μ₀ : Measure Ω} {face : Ω → ℤ} {s : ℤ}
    (h : FairFaces μ₀ face s) : μ₀.map (fun x => (face x : ℝ)) = dieLaw s := by
  have hm : Measurable fun x => (face x : ℝ) := (measurable_of_countable (fun z : ℤ => (z : ℝ))).comp h.meas
  classical
  ext B hB
  rw [Measure.map_apply hm hB]
  have hpre : (fun x => (face x : ℝ)) ⁻¹' B
      = ⋃ t ∈ (Finset.Icc 1 s).filter (fun t : ℤ => (t : ℝ) ∈ B), face ⁻¹' {t} := by
    ext x
    simp only [Set.mem_preimage, Set.mem_iUnion, Set.mem_singleton_iff, exists_prop, Finset.mem_filter]
    constructor
    · intro hx; exact ⟨_, ⟨h.mem x, hx⟩, rfl⟩
    · rintro ⟨t, ⟨-, ht⟩, rfl⟩; exact ht
  rw [hpre, measure_biUnion_finset]
  · unfold dieLaw
    rw [Measure.finsetSum_apply, Finset.sum_filter]
    refine Finset.sum_congr rfl fun t ht => ?_
    rw [h.fair t ht, Measure.smul_apply, Measure.dirac_apply' _ hB]
    by_cases htB : (t : ℝ) ∈ B <;> simp [htB]
  · intro a _ b _ hab
    refine Set.disjoint_left.2 fun x hx hx' => hab ?_
    exact (Set.mem_singleton_iff.1 hx).symm.trans (Set.mem_singleton_iff.1 hx')
  · intro t _
    exact h.meas (measurableSet_singleton t)

/-- The dice of the example source are fair. -/
theorem demoSource_dice {s : ℤ} (hs : 1 ≤ s) : demoSource.primLaw (.integers 1 (s + 1)) = some (dieLaw s) := by
  have hs' : (0 : ℝ) < s := by exact_mod_cast (by omega : 0 < s)
  have e : demoSource.answer (.integers 1 (s + 1))
      = some fun x => .int (1 + ⌊Int.fract x.1 * ((s + 1 - 1 : ℤ) : ℝ)⌋) := by
    simp only [demoSource]
    rw [if_pos (by omega)]
  simp only [IdealSource.primLaw, e, Option.map_some, realVal, Option.some.injEq]
  have hfst : demoSource.law.map Prod.fst = unitLaw := by
    show (unitLaw.prod (gaussianReal 0 1)).map Prod.fst = _
    rw [Measure.map_fst_prod]
    simp
  have hfloor : Measurable fun u : ℝ => 1 + ⌊Int.fract u * ((s + 1 - 1 : ℤ) : ℝ)⌋ :=
    measurable_const.add (Int.measurable_floor.comp (by fun_prop))
  refine FairFaces.map_eq ⟨hfloor.comp measurable_fst, fun x => ?_, fun t ht => ?_⟩
  · have h0 := Int.fract_nonneg x.1
    have h1 := Int.fract_lt_one x.1
    rw [add_sub_cancel_right]
    have ha : 0 ≤ ⌊Int.fract x.1 * (s : ℝ)⌋ := Int.floor_nonneg.2 (by positivity)
    have hb : ⌊Int.fract x.1 * (s : ℝ)⌋ < s := by
      rw [Int.floor_lt]; nlinarith
    exact Finset.mem_Icc.2 ⟨by omega, by omega⟩
  · obtain ⟨ht1, ht2⟩ := Finset.mem_Icc.1 ht
    have ht1' : (1 : ℝ) ≤ t := by exact_mod_cast ht1
    have ht2' : (t : ℝ) ≤ s := by exact_mod_cast ht2
    have hm1 : MeasurableSet ((fun u : ℝ => 1 + ⌊Int.fract u * ((s + 1 - 1 : ℤ) : ℝ)⌋) ⁻¹' {t}) :=
      hfloor (measurableSet_singleton t)
    have hset : (fun x : ℝ × ℝ => 1 + ⌊Int.fract x.1 * ((s + 1 - 1 : ℤ) : ℝ)⌋) ⁻¹' {t}
        = Prod.fst ⁻¹' ((fun u : ℝ => 1 + ⌊Int.fract u * ((s + 1 - 1 : ℤ) : ℝ)⌋) ⁻¹' {t}) := rfl
    rw [hset, ← Measure.map_apply measurable_fst hm1, hfst, unitLaw, Measure.restrict_apply hm1]
    have hI : (fun u : ℝ => 1 + ⌊Int.fract u * ((s + 1 - 1 : ℤ) : ℝ)⌋) ⁻¹' {t} ∩ Set.Ico 0 1
        = Set.Ico (((t : ℝ) - 1) / s) (t / s) := by
      ext u
      simp only [add_sub_cancel_right, Set.mem_inter_iff, Set.mem_preimage, Set.mem_singleton_iff, Set.mem_Ico]
      constructor
      · rintro ⟨h, hu⟩
        rw [Int.fract_eq_self.2 hu] at h
        have h' : ⌊u * (s : ℝ)⌋ = t - 1 := by omega
        rw [Int.floor_eq_iff] at h'
        push_cast at h'
        rw [div_le_iff₀ hs', lt_div_iff₀ hs']
        exact ⟨h'.1, by linarith [h'.2]⟩
      · rintro ⟨ha, hb⟩
        have hu0 : 0 ≤ u := le_trans (div_nonneg (by linarith) hs'.le) ha
        have hu1 : u < 1 := lt_of_lt_of_le hb ((div_le_one hs').2 ht2')
        refine ⟨?_, hu0, hu1⟩
        rw [Int.fract_eq_self.2 ⟨hu0, hu1⟩]
        rw [div_le_iff₀ hs'] at ha
        rw [lt_div_iff₀ hs'] at hb
        have : ⌊u * (s : ℝ)⌋ = t - 1 := by
          rw [Int.floor_eq_iff]; push_cast
          exact ⟨ha, by linarith⟩
        omega
    rw [hI, Real.volume_Ico]
    congr 1
    field_simp
    ring

/-- `d6(explode_on=6)`: the constructor accepts it, the example source has fair six-sided dice, and the mean of
the die is 4.2. -/
theorem C94_example : dieInit (some 6) (.one (some 6)) = .ok ⟨6, some [6]⟩ ∧
    demoSource.primLaw (.integers 1 (6 + 1)) = some (dieLaw 6) ∧
    ∃ μ, IsExplodingLaw 6 [6] μ ∧ ∫ x, x ∂μ = 21 / 5 := by
  have hd : dieInit (some 6) (.one (some 6)) = .ok ⟨6, some [6]⟩ := by simp [dieInit, ExplodeArg.toList?, checkFaces, bind, Except.bind, pure, Except.pure]
  refine ⟨hd, demoSource_dice (by norm_num), ?_⟩
  obtain ⟨μ, hμ, -⟩ := C94_law_unique hd rfl
  refine ⟨μ, hμ, ?_⟩
  rw [(C94_mean hd rfl hμ).2]
  have : ((Finset.Icc 1 (6 : ℤ)).filter (· ∈ [6])).card = 1 := by decide +kernel
  simp only [this]
  norm_num

end Verif
