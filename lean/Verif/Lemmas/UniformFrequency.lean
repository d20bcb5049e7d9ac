import Verif.Lemmas.Frequency
import Mathlib.Probability.CDF

/-!
# Helper lemmas: all frequencies "at most x" at once

A finite-sample form of the Glivenko–Cantelli theorem, with the frequencies at finitely many quantiles.
-/

namespace Verif

open MeasureTheory ProbabilityTheory Filter Topology

/-- The shares below `x` and up to `x`, of a law or of a list. -/
structure Shares (lt le : ℝ → ℝ) : Prop where
  nonneg : ∀ x, 0 ≤ lt x
  lt_le : ∀ x, lt x ≤ le x
  le_one : ∀ x, le x ≤ 1
  step : ∀ x y, x < y → le x ≤ lt y

theorem Shares.lt_mono {lt le : ℝ → ℝ} (h : Shares lt le) {x y : ℝ} (hxy : x ≤ y) : lt x ≤ lt y := by
  rcases hxy.eq_or_lt with rfl | h'
  · exact le_rfl
  · exact (h.lt_le x).trans (h.step x y h')

theorem Shares.le_mono {lt le : ℝ → ℝ} (h : Shares lt le) {x y : ℝ} (hxy : x ≤ y) : le x ≤ le y := by
  rcases hxy.eq_or_lt with rfl | h'
  · exact le_rfl
  · exact (h.step x y h').trans (h.lt_le y)

/-- If two kinds of shares nearly agree at the quantiles `1/m, …, (m-1)/m` of one of them, they nearly agree
everywhere. -/
theorem shares_close {Fl Fe Gl Ge : ℝ → ℝ} (hF : Shares Fl Fe) (hG : Shares Gl Ge) {m : ℕ} (hm : 0 < m)
    {t : ℕ → ℝ} (ht : ∀ j : ℕ, 1 ≤ j → j < m → Fl (t j) ≤ j / m ∧ (j : ℝ) / m ≤ Fe (t j)) {δ : ℝ} (hδ : 0 < δ)
    (hc : ∀ j : ℕ, 1 ≤ j → j < m → |Gl (t j) - Fl (t j)| < δ ∧ |Ge (t j) - Fe (t j)| < δ) (x : ℝ) :
    |Gl x - Fl x| < 1 / m + δ ∧ |Ge x - Fe x| < 1 / m + δ := by
  have hm0 : (0 : ℝ) < m := by exact_mod_cast hm
  -- from above
  have up : ∀ f g : ℝ, 0 ≤ f → f ≤ 1 → g ≤ 1 →
      (∀ j : ℕ, 1 ≤ j → j < m → f < j / m → g ≤ Gl (t j)) → g - f < 1 / m + δ := by
    intro f g h0 h1 hg h
    set j := ⌊(m : ℝ) * f⌋₊ + 1 with hj
    have hj1 : (m : ℝ) * f < j := by
      have := Nat.lt_floor_add_one ((m : ℝ) * f)
      rw [hj]
      exact_mod_cast this
    have hj2 : (j : ℝ) ≤ m * f + 1 := by
      have := Nat.floor_le (show 0 ≤ (m : ℝ) * f by positivity)
      rw [hj]
      push_cast
      linarith
    have hj2' : (j : ℝ) / m ≤ f + 1 / m := by
      rw [div_le_iff₀ hm0, add_mul, div_mul_cancel₀ _ hm0.ne']
      linarith
    by_cases hjm : j < m
    · have hlt : f < j / m := by
        rw [lt_div_iff₀ hm0]
        linarith
      have h2 := h j (by omega) hjm hlt
      have h3 := (abs_lt.1 (hc j (by omega) hjm).1).2
      have h4 := (ht j (by omega) hjm).1
      linarith
    · have : (1 : ℝ) ≤ j / m := by
        rw [le_div_iff₀ hm0, one_mul]
        exact_mod_cast not_lt.1 hjm
      linarith
  -- from below
  have down : ∀ f g : ℝ, 0 ≤ f → f ≤ 1 → 0 ≤ g →
      (∀ j : ℕ, 1 ≤ j → j < m → (j : ℝ) / m < f → Ge (t j) ≤ g) → f - g < 1 / m + δ := by
    intro f g h0 h1 hg h
    by_cases hsmall : f ≤ 1 / m
    · linarith
    · push Not at hsmall
      set i := ⌈(m : ℝ) * f⌉₊ with hi
      have hi1 : (m : ℝ) * f ≤ i := Nat.le_ceil _
      have hi2 : (i : ℝ) < m * f + 1 := Nat.ceil_lt_add_one (by positivity)
      have hi3 : 1 < i := by
        have : (1 : ℝ) < m * f := by
          rw [div_lt_iff₀ hm0] at hsmall
          linarith
        have : (1 : ℝ) < i := by linarith
        exact_mod_cast this
      have him : i ≤ m := by
        apply Nat.ceil_le.2
        nlinarith
      have hcast : ((i - 1 : ℕ) : ℝ) = i - 1 := by
        rw [Nat.cast_sub (by omega)]
        simp
      have hlt : ((i - 1 : ℕ) : ℝ) / m < f := by
        rw [hcast, div_lt_iff₀ hm0]
        linarith
      have hge : f ≤ ((i - 1 : ℕ) : ℝ) / m + 1 / m := by
        rw [hcast, ← add_div, le_div_iff₀ hm0]
        linarith
      have h2 := h (i - 1) (by omega) (by omega) hlt
      have h3 := (abs_lt.1 (hc (i - 1) (by omega) (by omega)).2).1
      have h4 := (ht (i - 1) (by omega) (by omega)).2
      linarith
  have f1 : Fl x ≤ 1 := (hF.lt_le x).trans (hF.le_one x)
  have f0 : 0 ≤ Fe x := (hF.nonneg x).trans (hF.lt_le x)
  have g1 : Gl x ≤ 1 := (hG.lt_le x).trans (hG.le_one x)
  have g0 : 0 ≤ Ge x := (hG.nonneg x).trans (hG.lt_le x)
  refine ⟨abs_lt.2 ⟨?_, ?_⟩, abs_lt.2 ⟨?_, ?_⟩⟩
  · have := down (Fl x) (Gl x) (hF.nonneg x) f1 (hG.nonneg x) fun j h1 h2 h3 => by
      apply hG.step
      by_contra hle
      exact absurd ((hF.lt_mono (not_lt.1 hle)).trans (ht j h1 h2).1) (not_le.2 h3)
    linarith
  · exact up (Fl x) (Gl x) (hF.nonneg x) f1 g1 fun j h1 h2 h3 => by
      apply hG.lt_mono
      by_contra hle
      exact absurd ((ht j h1 h2).2.trans (hF.step _ _ (not_le.1 hle))) (not_le.2 h3)
  · have := down (Fe x) (Ge x) f0 (hF.le_one x) g0 fun j h1 h2 h3 => by
      apply hG.le_mono
      by_contra hle
      exact absurd ((hF.step _ _ (not_le.1 hle)).trans (ht j h1 h2).1) (not_le.2 h3)
    linarith
  · exact up (Fe x) (Ge x) f0 (hF.le_one x) (hG.le_one x) fun j h1 h2 h3 => by
      apply hG.step
      by_contra hle
      exact absurd ((ht j h1 h2).2.trans (hF.le_mono (not_lt.1 hle))) (not_le.2 h3)

theorem shares_law (μ : Measure ℝ) [IsProbabilityMeasure μ] :
    Shares (fun x => μ.real (Set.Iio x)) (fun x => μ.real (Set.Iic x)) where
  nonneg _ := measureReal_nonneg
  lt_le _ := measureReal_mono Set.Iio_subset_Iic_self
  le_one _ := measureReal_le_one
  step _ _ h := measureReal_mono fun _ hz => lt_of_le_of_lt hz h

theorem countP_le_of_imp {α : Type} {p q : α → Bool} (h : ∀ x, p x = true → q x = true) (l : List α) :
    l.countP p ≤ l.countP q := List.countP_mono_left fun x _ => h x

theorem shares_list {xs : List ℝ} {n : ℕ} (hn : 1 ≤ n) (hl : xs.length = n) :
    Shares (fun x => ((xs.countP fun y => decide (y < x) : ℕ) : ℝ) / n)
      (fun x => ((xs.countP fun y => decide (y ≤ x) : ℕ) : ℝ) / n) where
  nonneg _ := by positivity
  lt_le x := by
    gcongr
    exact countP_le_of_imp (fun y hy => by simp at hy ⊢; exact hy.le) xs
  le_one x := by
    have h0 : (0 : ℝ) < n := by exact_mod_cast hn
    rw [div_le_one h0, ← hl]
    exact_mod_cast List.countP_le_length
  step x y h := by
    gcongr
    exact countP_le_of_imp (fun z hz => by simp at hz ⊢; exact lt_of_le_of_lt hz h) xs

/-- Every law has a `c`-quantile. -/
theorem exists_quantile (μ : Measure ℝ) [IsProbabilityMeasure μ] {c : ℝ} (h0 : 0 < c) (h1 : c < 1) :
    ∃ t, μ.real (Set.Iio t) ≤ c ∧ c ≤ μ.real (Set.Iic t) := by
  have hcdf : ∀ x, μ.real (Set.Iic x) = cdf μ x := fun x => (cdf_eq_real μ x).symm
  set A := {x | c ≤ cdf μ x} with hA
  have hne : A.Nonempty := by
    have := (tendsto_cdf_atTop μ).eventually (lt_mem_nhds h1)
    obtain ⟨x, hx⟩ := this.exists
    exact ⟨x, hx.le⟩
  have hbd : BddBelow A := by
    have := (tendsto_cdf_atBot μ).eventually (gt_mem_nhds h0)
    obtain ⟨b, hb⟩ := eventually_atBot.1 this
    refine ⟨b, fun x hx => ?_⟩
    by_contra hlt
    exact absurd (hb x (not_le.1 hlt).le) (not_lt.2 hx)
  refine ⟨sInf A, ?_, ?_⟩
  · have hu : Set.Iio (sInf A) = ⋃ k : ℕ, Set.Iic (sInf A - 1 / ((k : ℝ) + 1)) := by
      ext y
      simp only [Set.mem_Iio, Set.mem_iUnion, Set.mem_Iic]
      constructor
      · intro hy
        obtain ⟨k, hk⟩ := exists_nat_one_div_lt (sub_pos.2 hy)
        exact ⟨k, by linarith⟩
      · rintro ⟨k, hk⟩
        have : 0 < 1 / ((k : ℝ) + 1) := by positivity
        linarith
    have hmono : Monotone fun k : ℕ => Set.Iic (sInf A - 1 / ((k : ℝ) + 1)) := by
      intro i j hij
      apply Set.Iic_subset_Iic.2
      have : 1 / ((j : ℝ) + 1) ≤ 1 / ((i : ℝ) + 1) := by
        apply one_div_le_one_div_of_le (by positivity)
        have : (i : ℝ) ≤ j := by exact_mod_cast hij
        linarith
      linarith
    have ht := tendsto_measure_iUnion_atTop (μ := μ) hmono
    rw [← hu] at ht
    have ht' := (ENNReal.tendsto_toReal (measure_ne_top μ _)).comp ht
    refine le_of_tendsto ht' (Eventually.of_forall fun k => ?_)
    have hk : 0 < 1 / ((k : ℝ) + 1) := by positivity
    have hn : sInf A - 1 / ((k : ℝ) + 1) ∉ A := fun h => by
      have := csInf_le hbd h
      linarith
    have := not_le.1 (show ¬ c ≤ cdf μ (sInf A - 1 / ((k : ℝ) + 1)) from hn)
    rw [← hcdf] at this
    exact this.le
  · rw [hcdf]
    have hr := (cdf μ).right_continuous (sInf A)
    have hr' : Tendsto (cdf μ) (𝓝[>] (sInf A)) (𝓝 (cdf μ (sInf A))) :=
      hr.mono_left (nhdsWithin_mono _ Set.Ioi_subset_Ici_self)
    refine ge_of_tendsto hr' ?_
    filter_upwards [self_mem_nhdsWithin] with y hy
    obtain ⟨a, ha, hay⟩ := exists_lt_of_csInf_lt hne (show sInf A < y from hy)
    exact le_trans ha (monotone_cdf μ hay.le)

/-- With `n` independent values all the frequencies "at most `x`" and "less than `x`" are within `ε` of the
probabilities at once, except with probability at most `(8 / ε) exp(-n ε² / 2)`. -/
theorem uniform_frequency_bound {Ω : Type} [MeasurableSpace Ω] {P : Measure Ω}
    [IsProbabilityMeasure P] {n : ℕ} (hn : 1 ≤ n) {X : Fin n → Ω → ℝ} (hX : ∀ i, Measurable (X i))
    {μ : Measure ℝ} [IsProbabilityMeasure μ] (hlaw : ∀ i, P.map (X i) = μ) (hind : iIndepFun X P)
    {ε : ℝ} (hε : 0 < ε) :
    P.real {ω | ¬ ∀ x,
        |(((List.ofFn fun i => X i ω).countP fun y => decide (y < x) : ℕ) : ℝ) / n - μ.real (Set.Iio x)| < ε ∧
        |(((List.ofFn fun i => X i ω).countP fun y => decide (y ≤ x) : ℕ) : ℝ) / n - μ.real (Set.Iic x)| < ε}
      ≤ 8 / ε * Real.exp (-n * ε ^ 2 / 2) := by
  set m := ⌈2 / ε⌉₊ with hm
  have hm0 : 0 < m := Nat.ceil_pos.2 (by positivity)
  have hm1 : 2 / ε ≤ m := Nat.le_ceil _
  have hm2 : (m : ℝ) < 2 / ε + 1 := Nat.ceil_lt_add_one (by positivity)
  have hmr : (0 : ℝ) < m := by exact_mod_cast hm0
  have hme : 1 / (m : ℝ) ≤ ε / 2 := by
    rw [div_le_iff₀ hε] at hm1
    rw [div_le_iff₀ hmr]
    linarith
  have hq : ∀ j : ℕ, ∃ t, 1 ≤ j → j < m → μ.real (Set.Iio t) ≤ j / m ∧ (j : ℝ) / m ≤ μ.real (Set.Iic t) := by
    intro j
    by_cases hj : 1 ≤ j ∧ j < m
    · obtain ⟨t, ht⟩ := exists_quantile μ (c := (j : ℝ) / m)
        (by have : (0 : ℝ) < j := by exact_mod_cast hj.1
            positivity)
        (by rw [div_lt_one hmr]; exact_mod_cast hj.2)
      exact ⟨t, fun _ _ => ht⟩
    · exact ⟨0, fun a b => absurd ⟨a, b⟩ hj⟩
  choose t ht using hq
  let B : ℝ → Set Ω := fun x =>
    {ω | ε / 2 ≤ |(((List.ofFn fun i => X i ω).countP fun y => decide (y < x) : ℕ) : ℝ) / n - μ.real (Set.Iio x)|} ∪
    {ω | ε / 2 ≤ |(((List.ofFn fun i => X i ω).countP fun y => decide (y ≤ x) : ℕ) : ℝ) / n - μ.real (Set.Iic x)|}
  have hB : ∀ x, P.real (B x) ≤ 4 * Real.exp (-n * ε ^ 2 / 2) := by
    intro x
    have hA : {y : ℝ | decide (y < x) = true} = Set.Iio x := by ext; simp
    have hC : {y : ℝ | decide (y ≤ x) = true} = Set.Iic x := by ext; simp
    have e1 := frequency_bound hn hX hlaw hind (fun y => decide (y < x)) (by rw [hA]; exact measurableSet_Iio)
      (half_pos hε)
    have e2 := frequency_bound hn hX hlaw hind (fun y => decide (y ≤ x)) (by rw [hC]; exact measurableSet_Iic)
      (half_pos hε)
    rw [hA] at e1
    rw [hC] at e2
    have e3 : -2 * (n : ℝ) * (ε / 2) ^ 2 = -n * ε ^ 2 / 2 := by ring
    rw [e3] at e1 e2
    refine (measureReal_union_le _ _).trans ?_
    linarith
  have hsub : {ω | ¬ ∀ x,
        |(((List.ofFn fun i => X i ω).countP fun y => decide (y < x) : ℕ) : ℝ) / n - μ.real (Set.Iio x)| < ε ∧
        |(((List.ofFn fun i => X i ω).countP fun y => decide (y ≤ x) : ℕ) : ℝ) / n - μ.real (Set.Iic x)| < ε}
      ⊆ ⋃ j ∈ Finset.Ico 1 m, B (t j) := by
    intro ω hω
    by_contra hout
    simp only [Set.mem_iUnion, not_exists, Finset.mem_Ico, B, Set.mem_union, not_or, Set.mem_ofPred_eq] at hout
    apply hω
    intro x
    have := shares_close (shares_law μ) (shares_list (xs := List.ofFn fun i => X i ω) hn (by simp)) hm0 (t := t)
      (fun j h1 h2 => ht j h1 h2) (half_pos hε)
      (fun j h1 h2 => ⟨not_le.1 (hout j ⟨h1, h2⟩).1, not_le.1 (hout j ⟨h1, h2⟩).2⟩) x
    exact ⟨lt_of_lt_of_le this.1 (by linarith), lt_of_lt_of_le this.2 (by linarith)⟩
  refine (measureReal_mono hsub (measure_ne_top _ _)).trans ((measureReal_biUnion_finset_le _ _).trans ?_)
  refine (Finset.sum_le_sum fun j _ => hB (t j)).trans ?_
  rw [Finset.sum_const, Nat.card_Ico, nsmul_eq_mul, Nat.cast_sub hm0, ← mul_assoc]
  gcongr
  push_cast
  have : 8 / ε = 2 / ε * 4 := by ring
  rw [this]
  nlinarith

end Verif
