import Verif.Props.CorrelatedLawExamples
import Verif.Props.DistMath

/-!
# C106: correlation does not change the mean of a sum
-/

namespace Verif

open MeasureTheory ProbabilityTheory Spec

/-- Chebyshev's bound for the average of `n` independent draws. -/
theorem pi_mean_bound {ν : Measure ℝ} [IsProbabilityMeasure ν] (hν : MemLp id 2 ν) {n : ℕ} (hn : 1 ≤ n) {ε : ℝ}
    (hε : 0 < ε) :
    (Measure.pi fun _ : Fin n => ν) {x | ε ≤ |(∑ r, x r) / n - ∫ x, x ∂ν|}
      ≤ ENNReal.ofReal (Var[id; ν] / (n * ε ^ 2)) := by
  set P := Measure.pi fun _ : Fin n => ν with hP
  have hn0 : (0 : ℝ) < n := by exact_mod_cast hn
  have hlaw : ∀ i : Fin n, P.map (fun x => x i) = ν := fun i =>
    (measurePreserving_eval (fun _ : Fin n => ν) i).map_eq
  have hind : iIndepFun (fun (i : Fin n) (x : Fin n → ℝ) => x i) P :=
    iIndepFun_pi (X := fun _ x => x) fun _ => aemeasurable_id
  have hX : ∀ i : Fin n, Measurable fun x : Fin n → ℝ => x i := fun i => measurable_pi_apply i
  have hmem : ∀ i : Fin n, MemLp (fun x : Fin n → ℝ => x i) 2 P := fun i => by
    have := (memLp_map_measure_iff (μ := P) (f := fun x : Fin n → ℝ => x i) (g := id) (p := 2)
      (by rw [hlaw]; exact hν.1) (hX i).aemeasurable).1 (by rw [hlaw]; exact hν)
    exact this
  have hvar : Var[∑ i, fun x : Fin n → ℝ => x i; P] = n * Var[id; ν] := by
    rw [IndepFun.variance_sum (fun i _ => hmem i) fun i _ j _ hij => hind.indepFun hij]
    have : ∀ i : Fin n, Var[fun x : Fin n → ℝ => x i; P] = Var[id; ν] := fun i => by
      rw [← variance_id_map (hX i).aemeasurable, hlaw]
    simp [this]
  have hmean : P[∑ i, fun x : Fin n → ℝ => x i] = n * ∫ x, x ∂ν := by
    have h1 : P[∑ i, fun x : Fin n → ℝ => x i] = ∑ i, ∫ x, x i ∂P := by
      rw [← integral_finsetSum _ fun i _ => (hmem i).integrable (by norm_num)]
      simp
    have h2 : ∀ i : Fin n, ∫ x, x i ∂P = ∫ x, x ∂ν := fun i => by
      rw [← hlaw i, integral_map (hX i).aemeasurable (by fun_prop)]
    rw [h1]
    simp [h2]
  have hcheb := meas_ge_le_variance_div_sq (μ := P) (X := ∑ i, fun x : Fin n → ℝ => x i)
    (memLp_finsetSum' _ fun i _ => hmem i) (c := n * ε) (by positivity)
  rw [hvar, hmean] at hcheb
  have e : (n * Var[id; ν] : ℝ) / (n * ε) ^ 2 = Var[id; ν] / (n * ε ^ 2) := by
    field_simp
  rw [e] at hcheb
  refine le_trans (measure_mono fun x hx => ?_) hcheb
  have e2 : (∑ i, x i) / n - ∫ x, x ∂ν = (∑ i, x i - n * ∫ x, x ∂ν) / n := by
    field_simp
  have hx' : ε ≤ |(∑ r, x r) / n - ∫ x, x ∂ν| := hx
  rw [e2, abs_div, abs_of_pos hn0, le_div_iff₀ hn0] at hx'
  show n * ε ≤ |(∑ i, fun x : Fin n → ℝ => x i) x - n * ∫ x, x ∂ν|
  rw [Finset.sum_apply]
  linarith

section

variable {Ω : Type} [MeasurableSpace Ω] (S : IdealSource Ω) {E : Env (ℕ → Ω) ℝ}

/-- **C106.** For two continuous variables of a correlation group (no bounds, no samples left over, `n ≥ 2`), when
target scores do not tie: given that sampling `a + b` (or `a - b`) succeeds, the mean of its samples is within `ε`
of the sum (difference) of the two means, except with (conditional) probability at most
`4 (Var a + Var b) / (n ε²)` — whatever the correlation is. -/
theorem C106_mean (hE : S.Drives E) (hU : S.primLaw (.uniform 0 1) = some unitLaw) {C : CorrEnv ℝ}
    (hA : IsArgsort C.argsort) (hC : RowBlind C) (G : CorrGroup ℝ) {g m n : ℕ} (hn : 2 ≤ n)
    (hind : E.induce g = G.induce C) {members : Fin m → Obj (St (ℕ → Ω) ℝ) ℝ}
    (hclips : ∀ j, (members j).clips = (none, none)) {ν : Fin m → Measure ℝ}
    (hν : ∀ j, Denotes S.primLaw (members j) (ν j)) (hcont : ∀ j x, ν j {x} = 0)
    (hties : NoTiedTargets C m n) {i k : Fin m} (hik : k ≠ i) (h2i : MemLp id 2 (ν i)) (h2k : MemLp id 2 (ν k))
    (left : ℕ → ℕ → Option (List (Scalar ℝ))) (hleft : left g i = none) {ε : ℝ} (hε : 0 < ε)
    {o : BinOp} {f : ℝ → ℝ → ℝ} (ho : (o = .add ∧ f = fun x y => x + y) ∨ (o = .sub ∧ f = fun x y => x - y)) :
      (Measure.infinitePi fun _ : ℕ => S.law).real
        {ω | ∃ z s', sampleObj E (.bin (.op o) (.corr g m members i) (.corr g m members k)) n none none ⟨ω, left⟩
            = (.ok z, s') ∧
          ¬ ∃ xs, List.Forall₂ IsReal z.toList xs ∧ xs.length = n ∧
            |xs.sum / n - f (∫ x, x ∂(ν i)) (∫ x, x ∂(ν k))| < ε}
      ≤ (Measure.infinitePi fun _ : ℕ => S.law).real
          {ω | ∃ z s', sampleObj E (.bin (.op o) (.corr g m members i) (.corr g m members k)) n none none ⟨ω, left⟩
            = (.ok z, s')}
        * (4 * (Var[id; ν i] + Var[id; ν k]) / (n * ε ^ 2)) := by
  have hp : ∀ j, IsProbabilityMeasure (ν j) := fun j => (denotes_draws S (left := left) hE hU (hν j)).1
  obtain ⟨OK, X, h1, h2, h3, h4⟩ :=
    C97_own_law S hE hU hA hC G (by omega : 1 ≤ n) hind hclips hν hcont hties i left hleft
  set P := Measure.infinitePi fun _ : ℕ => S.law with hP
  have hn0 : (0 : ℝ) < n := by
    have : 0 < n := by omega
    exact_mod_cast this
  have hg : opMeaning o = some f ∧ ∀ x y : ℝ, opDefined o x y := by
    rcases ho with ⟨rfl, rfl⟩ | ⟨rfl, rfl⟩ <;> exact ⟨rfl, fun _ _ => trivial⟩
  have hreads : ∀ x : Fin n → ℝ, Reads n (.arr ((List.ofFn x).map .flt)) x := fun x =>
    reads_arr (by omega) (by
      rw [List.forall₂_map_left_iff]
      exact List.forall₂_same.2 fun x _ => Or.inl rfl)
  -- what the call does
  have hcall : ∀ᵐ ω ∂P,
      (ω ∈ OK → ∃ z s', sampleObj E (.bin (.op o) (.corr g m members i) (.corr g m members k)) n none none ⟨ω, left⟩
          = (.ok z, s') ∧ Reads n z fun r => f (X ω i r) (X ω k r)) ∧
      (ω ∉ OK → ∃ e s', sampleObj E (.bin (.op o) (.corr g m members i) (.corr g m members k)) n none none ⟨ω, left⟩
          = (.error e, s')) := by
    filter_upwards [h3] with ω hω
    refine ⟨fun h => ?_, fun h => ?_⟩
    · obtain ⟨s', ha, hb⟩ := hω.1 h
      obtain ⟨s'', hb⟩ := hb k hik n (by omega)
      obtain ⟨z, hz, hzr⟩ := binSamples_real (powf := E.powf) hg.1 (fun _ => hE.powers) (hreads (X ω i))
        (hreads (X ω k)) fun r => hg.2 _ _
      refine ⟨z, s'', ?_, hzr⟩
      rw [sample_bin_eq ha hb]
      exact congrArg (·, s'') hz
    · obtain ⟨e, s', he⟩ := hω.2 h
      exact ⟨e, s', sample_bin_err (by omega) (x := .arr []) (s1 := s') (Or.inl he)⟩
  have hOKeq : P {ω | ∃ z s', sampleObj E (.bin (.op o) (.corr g m members i) (.corr g m members k)) n none none
      ⟨ω, left⟩ = (.ok z, s')} = P OK := by
    refine measure_congr ?_
    filter_upwards [hcall] with ω hω
    refine propext ⟨?_, ?_⟩
    · rintro ⟨z, s', hz⟩
      by_contra hno
      obtain ⟨e, s'', he⟩ := hω.2 hno
      rw [he] at hz
      cases hz
    · intro hmem
      obtain ⟨z, s', hs, -⟩ := hω.1 hmem
      exact ⟨z, s', hs⟩
  set B : Fin m → Set (Fin n → ℝ) := fun j => {x | ε / 2 ≤ |(∑ r, x r) / n - ∫ x, x ∂(ν j)|} with hB
  have hBm : ∀ j, MeasurableSet (B j) := fun j =>
    measurableSet_le measurable_const (by fun_prop)
  have hbound : ∀ j, MemLp id 2 (ν j) → ((Measure.pi fun _ : Fin n => ν j) (B j)).toReal
      ≤ 4 * Var[id; ν j] / (n * ε ^ 2) := fun j hj => by
    have h := pi_mean_bound hj (n := n) (by omega) (half_pos hε)
    have e : Var[id; ν j] / (n * (ε / 2) ^ 2) = 4 * Var[id; ν j] / (n * ε ^ 2) := by
      field_simp
      ring
    rw [e] at h
    exact ENNReal.toReal_le_of_le_ofReal (div_nonneg (mul_nonneg (by norm_num) (variance_nonneg _ _)) (by positivity)) h
  have hle : P {ω | ∃ z s', sampleObj E (.bin (.op o) (.corr g m members i) (.corr g m members k)) n none none ⟨ω, left⟩
            = (.ok z, s') ∧
          ¬ ∃ xs, List.Forall₂ IsReal z.toList xs ∧ xs.length = n ∧
            |xs.sum / n - f (∫ x, x ∂(ν i)) (∫ x, x ∂(ν k))| < ε}
      ≤ P (OK ∩ {ω | X ω i ∈ B i}) + P (OK ∩ {ω | X ω k ∈ B k}) := by
    refine le_trans (measure_mono_ae ?_) (measure_union_le _ _)
    filter_upwards [hcall] with ω hω
    rintro ⟨z, s', hz, hno⟩
    have hmem : ω ∈ OK := by
      by_contra hc
      obtain ⟨e, s'', he⟩ := hω.2 hc
      rw [he] at hz
      cases hz
    obtain ⟨z', s'', hs, hr⟩ := hω.1 hmem
    rw [hs] at hz
    cases hz
    by_contra hc
    have hc1 : |(∑ r, X ω i r) / n - ∫ x, x ∂(ν i)| < ε / 2 := by
      by_contra h
      exact hc (Or.inl ⟨hmem, not_lt.1 h⟩)
    have hc2 : |(∑ r, X ω k r) / n - ∫ x, x ∂(ν k)| < ε / 2 := by
      by_contra h
      exact hc (Or.inr ⟨hmem, not_lt.1 h⟩)
    refine hno ⟨_, hr.2, by simp, ?_⟩
    rw [abs_lt] at hc1 hc2 ⊢
    rw [List.sum_ofFn]
    rcases ho with ⟨rfl, rfl⟩ | ⟨rfl, rfl⟩
    · rw [Finset.sum_add_distrib, add_div]
      constructor <;> linarith [hc1.1, hc1.2, hc2.1, hc2.2]
    · rw [Finset.sum_sub_distrib, sub_div]
      constructor <;> linarith [hc1.1, hc1.2, hc2.1, hc2.2]
  rw [h4 i _ (hBm i), h4 k _ (hBm k), ← mul_add] at hle
  have hfin := ENNReal.toReal_mono (ENNReal.mul_ne_top (measure_ne_top P OK)
    (ENNReal.add_ne_top.2 ⟨measure_ne_top _ _, measure_ne_top _ _⟩)) hle
  rw [ENNReal.toReal_mul, ENNReal.toReal_add (measure_ne_top _ _) (measure_ne_top _ _)] at hfin
  refine hfin.trans ?_
  rw [measureReal_def, hOKeq]
  refine mul_le_mul_of_nonneg_left ?_ ENNReal.toReal_nonneg
  have := add_le_add (hbound i h2i) (hbound k h2k)
  refine this.trans (le_of_eq ?_)
  ring

end

/-- 1000 samples of `a + b` for correlated `a = norm(mean=1, sd=2)` and `b = norm(mean=10, sd=5)`: the mean is within
`0.6` of `11` with probability at least `2 / 3`, given that sampling succeeds. -/
example : (Measure.infinitePi fun _ : ℕ => demoSource.law).real
    {ω | ∃ z s', sampleObj exEnv (.bin (.op .add) (.corr 0 2 exMembers 0) (.corr 0 2 exMembers 1)) 1000 none none
        ⟨ω, fun _ _ => none⟩ = (.ok z, s') ∧
      ¬ ∃ xs, List.Forall₂ IsReal z.toList xs ∧ xs.length = 1000 ∧ |xs.sum / (1000 : ℕ) - 11| < 3 / 5}
    ≤ (Measure.infinitePi fun _ : ℕ => demoSource.law).real
      {ω | ∃ z s', sampleObj exEnv (.bin (.op .add) (.corr 0 2 exMembers 0) (.corr 0 2 exMembers 1)) 1000 none none
        ⟨ω, fun _ _ => none⟩ = (.ok z, s')} * (1 / 3) := by
  have hcl : ∀ j, (exMembers j).clips = (none, none) := Fin.forall_fin_two.2 ⟨rfl, rfl⟩
  have hcont : ∀ (j : Fin 2) (x : ℝ), (![normalLaw 1 2, normalLaw 10 5] : Fin 2 → Measure ℝ) j {x} = 0 := by
    have h : ∀ m s x : ℝ, s ≠ 0 → normalLaw m s {x} = 0 := by
      intro m s x hs
      have : NullSingletonClass (normalLaw m s) := nullSingletonClass_gaussianReal (by
        intro h
        have := congrArg NNReal.toReal h
        exact hs (by simpa using this))
      exact measure_singleton x
    exact Fin.forall_fin_two.2 ⟨fun x => h 1 2 x (by norm_num), fun x => h 10 5 x (by norm_num)⟩
  have h := C106_mean demoSource (E := exEnv) ⟨rfl, idealEnv_driven.loops, idealEnv_driven.powers, rfl, rfl,
    idealEnv_driven.ppf⟩ demoSource_uniform insArgsort_ok (rowBlind_pearson _ _ _ : RowBlind exCorr) exGroup (g := 0)
    (n := 1000) (by norm_num) rfl hcl exMembers_denote hcont (exCorr_noTies 1000) (i := 0) (k := 1) (by decide)
    (memLp_id_gaussianReal 2) (memLp_id_gaussianReal 2) (fun _ _ => none) rfl (ε := 3 / 5) (by norm_num)
    (Or.inl ⟨rfl, rfl⟩)
  have e1 : ∫ x, x ∂((![normalLaw 1 2, normalLaw 10 5] : Fin 2 → Measure ℝ) 0) = 1 := integral_id_gaussianReal
  have e2 : ∫ x, x ∂((![normalLaw 1 2, normalLaw 10 5] : Fin 2 → Measure ℝ) 1) = 10 := integral_id_gaussianReal
  have v1 : Var[id; (![normalLaw 1 2, normalLaw 10 5] : Fin 2 → Measure ℝ) 0] = 4 := by
    rw [show (![normalLaw 1 2, normalLaw 10 5] : Fin 2 → Measure ℝ) 0 = normalLaw 1 2 from rfl, normalLaw,
      variance_id_gaussianReal]
    norm_num
  have v2 : Var[id; (![normalLaw 1 2, normalLaw 10 5] : Fin 2 → Measure ℝ) 1] = 25 := by
    rw [show (![normalLaw 1 2, normalLaw 10 5] : Fin 2 → Measure ℝ) 1 = normalLaw 10 5 from rfl, normalLaw,
      variance_id_gaussianReal]
    norm_num
  rw [e1, e2, v1, v2] at h
  have e3 : (1 : ℝ) + 10 = 11 := by norm_num
  rw [e3] at h
  refine h.trans (mul_le_mul_of_nonneg_left (by norm_num) measureReal_nonneg)

end Verif
