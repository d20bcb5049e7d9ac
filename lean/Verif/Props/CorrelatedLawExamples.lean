import Verif.Props.CorrelatedLaw
import Verif.Props.CorrelationExamples
import Mathlib.NumberTheory.Real.Irrational
import Mathlib.Data.Fin.VecNotation

/-!
# The law of correlated samples: an example

Two normal variables with four samples each.  The re-correlation matrix is the one the code computes from the
Cholesky factors of two matrices of size two; the scores are the ranks themselves (`ppf` is the identity), which
makes it possible to show that targets never tie: the requested correlation is irrational in a suitable sense.
-/

namespace Verif

open MeasureTheory ProbabilityTheory Spec

/-- The requested correlation: `c² / (1 - c²) = √2`. -/
noncomputable def exC : ℝ := √(√2 / (1 + √2))

theorem exC_sq : exC ^ 2 = √2 / (1 + √2) := by
  unfold exC
  rw [Real.sq_sqrt]
  positivity

theorem exC_gap : 1 - exC ^ 2 = 1 / (1 + √2) := by
  rw [exC_sq]
  have : (1 : ℝ) + √2 ≠ 0 := by positivity
  field_simp
  ring

/-- `p q⁻¹` for the Cholesky factors of `[[1, c], [c, 1]]` and `[[1, t], [t, 1]]`; `scipy.linalg.cholesky` raises
if `[[1, t], [t, 1]]` is not positive definite. -/
noncomputable def exRecorr (T : List (List ℝ)) : Except PyErr (List (List ℝ)) :=
  if entry T 0 1 ^ 2 < 1 then
    .ok [[1, 0], [exC - entry T 0 1 * (√(1 - exC ^ 2) / √(1 - entry T 0 1 ^ 2)),
      √(1 - exC ^ 2) / √(1 - entry T 0 1 ^ 2)]]
  else .error .valueError

noncomputable def exCorr : CorrEnv ℝ :=
  ⟨id, fun scores => exRecorr (pearsonRows scores), spearmanR, insArgsort⟩

noncomputable def exGroup : CorrGroup ℝ := ⟨[[1, exC], [exC, 1]], none, 2⟩

/-- The rational numbers among the real ones. -/
noncomputable def rats : Subfield ℝ := (Rat.castHom ℝ).fieldRange

theorem rats_nat (n : ℕ) : (n : ℝ) ∈ rats := ⟨n, by simp⟩

theorem score_rat {m n : ℕ} (X : Fin m → Fin n → ℝ) (j : Fin m) (r : Fin n) : scoreF id X j r ∈ rats := by
  unfold scoreF
  exact rats.div_mem (rats_nat _) (rats.add_mem (rats_nat n) rats.one_mem)

theorem codev_rat {n : ℕ} {x y : Fin n → ℝ} (hx : ∀ r, x r ∈ rats) (hy : ∀ r, y r ∈ rats) :
    codev n (fun r => (List.ofFn x).getD r 0) (fun r => (List.ofFn y).getD r 0) ∈ rats := by
  rw [codev_ofFn]
  have hm : ∀ z : Fin n → ℝ, (∀ r, z r ∈ rats) → (∑ r, z r) / (n : ℝ) ∈ rats := fun z hz =>
    rats.div_mem (rats.sum_mem fun r _ => hz r) (rats_nat n)
  exact rats.sum_mem fun r _ => rats.mul_mem (rats.sub_mem (hx r) (hm x hx)) (rats.sub_mem (hy r) (hm y hy))

/-- The correlation of the ranks of two columns of distinct numbers is rational. -/
theorem pearson_rat {n : ℕ} (X : Fin 2 → Fin n → ℝ) (hX : ∀ j, Function.Injective (X j)) :
    pearson (List.ofFn (scoreF id X 0)) (List.ofFn (scoreF id X 1)) ∈ rats := by
  have hp : (List.ofFn (scoreF id X 0)).Perm (List.ofFn (scoreF id X 1)) := by
    have := scoresOf_perm (K := ℝ) id (c := List.ofFn (X 0)) (c' := List.ofFn (X 1)) (by simp)
      (List.nodup_ofFn.2 (hX 0)) (List.nodup_ofFn.2 (hX 1))
    have e : ∀ j, scoresOf id (List.ofFn (X j)) = List.ofFn (scoreF id X j) := by
      have h := scores_colsOf id X
      simp only [colsOf, List.ofFn_succ, List.ofFn_zero, List.map_cons, List.map_nil, List.cons.injEq, and_true] at h
      exact Fin.forall_fin_two.2 ⟨h.1, h.2⟩
    rwa [e, e] at this
  have hc := codev_perm hp
  simp only [List.length_ofFn] at hc
  unfold pearson
  simp only [List.length_ofFn]
  rw [← hc, Real.sqrt_mul_self]
  · exact rats.div_mem (codev_rat (score_rat X 0) (score_rat X 1)) (codev_rat (score_rat X 0) (score_rat X 0))
  · rw [codev_ofFn]
    exact Finset.sum_nonneg fun r _ => mul_self_nonneg _

theorem score_injective {m n : ℕ} (X : Fin m → Fin n → ℝ) {j : Fin m} (hX : Function.Injective (X j)) :
    Function.Injective (scoreF id X j) := by
  intro a b hab
  have hn : ((n : ℝ) + 1) ≠ 0 := by positivity
  simp only [scoreF, id] at hab
  have h1 : rkF (X j) a = rkF (X j) b := by
    have := (div_left_inj' hn).1 hab
    exact_mod_cast this
  by_contra hne
  rcases lt_or_gt_of_ne (fun h => hne (hX h)) with h | h
  · have := (rkF_lt_iff (X j) a b).2 h
    omega
  · have := (rkF_lt_iff (X j) b a).2 h
    omega

/-- Targets never tie. -/
theorem exCorr_noTies (n : ℕ) : NoTiedTargets exCorr 2 n := by
  intro X hX ts hts
  obtain ⟨s, hs, h⟩ := Except.bind_ok_iff.1 hts
  cases h
  rw [scores_colsOf] at hs ⊢
  have hhead : ((colsOf X).headD []).length = n := by
    simp [colsOf, List.ofFn_succ]
  rw [hhead]
  set Z := scoreF id X with hZ
  have hent : entry (pearsonRows (colsOf Z)) 0 1 = pearson (List.ofFn (Z 0)) (List.ofFn (Z 1)) := by
    simp [entry, pearsonRows, colsOf, List.ofFn_succ]
  have hs' : exRecorr (pearsonRows (colsOf Z)) = .ok s := hs
  unfold exRecorr at hs'
  rw [hent] at hs'
  set t := pearson (List.ofFn (Z 0)) (List.ofFn (Z 1)) with ht
  have htr : t ∈ rats := pearson_rat X hX
  split at hs'
  next hlt =>
    cases hs'
    intro l hl
    simp only [List.map_cons, List.map_nil, List.mem_cons, List.not_mem_nil, or_false] at hl
    have hcomb : ∀ a b : ℝ, combineCols n [a, b] (colsOf Z) = List.ofFn fun r => a * Z 0 r + b * Z 1 r := by
      intro a b
      rw [combineCols_colsOf]
      congr 1
      funext r
      simp [combF, colsOf, List.ofFn_succ, List.getD_eq_getElem?_getD]
    have hZ0 : Function.Injective (Z 0) := score_injective X (hX 0)
    change l = combineCols n _ (colsOf Z) ∨ l = combineCols n _ (colsOf Z) at hl
    rw [hcomb, hcomb] at hl
    rcases hl with rfl | rfl
    · rw [List.nodup_ofFn]
      intro a b hab
      simp only [one_mul, zero_mul, add_zero] at hab
      exact hZ0 hab
    · rw [List.nodup_ofFn]
      intro a b hab
      by_contra hne
      have hd : Z 0 a - Z 0 b ≠ 0 := fun h => hne (hZ0 (sub_eq_zero.1 h))
      set u := √(1 - exC ^ 2) with hu
      set v := √(1 - t ^ 2) with hv
      have hv0 : 0 < v := Real.sqrt_pos.2 (by linarith)
      have hu2 : u ^ 2 = 1 / (1 + √2) := by
        rw [hu, Real.sq_sqrt (by rw [exC_gap]; positivity), exC_gap]
      have hv2 : v ^ 2 = 1 - t ^ 2 := Real.sq_sqrt (by linarith)
      simp only at hab
      set d := (Z 1 a - Z 1 b) / (Z 0 a - Z 0 b) with hdd
      have hdr : d ∈ rats := rats.div_mem (rats.sub_mem (score_rat X 1 a) (score_rat X 1 b))
        (rats.sub_mem (score_rat X 0 a) (score_rat X 0 b))
      have hdm : Z 1 a - Z 1 b = d * (Z 0 a - Z 0 b) := by
        rw [hdd]
        field_simp
      have e1 : (exC - t * (u / v) + u / v * d) * (Z 0 a - Z 0 b) = 0 := by
        have : (exC - t * (u / v)) * (Z 0 a - Z 0 b) + u / v * (Z 1 a - Z 1 b) = 0 := by
          linarith
        rw [hdm] at this
        linarith
      have e2 : exC * v = u * (t - d) := by
        have := (mul_eq_zero.1 e1).resolve_right hd
        field_simp at this
        linarith
      have e3 : √2 * (1 - t ^ 2) = (t - d) ^ 2 := by
        have h1 : exC ^ 2 * v ^ 2 = u ^ 2 * (t - d) ^ 2 := by
          rw [← mul_pow, ← mul_pow, e2]
        rw [exC_sq, hv2, hu2] at h1
        have : (1 : ℝ) + √2 ≠ 0 := by positivity
        field_simp at h1
        linarith
      have hpos : (1 : ℝ) - t ^ 2 ≠ 0 := by nlinarith
      have e4 : √2 ∈ rats := by
        have : √2 = (t - d) ^ 2 / (1 - t ^ 2) := by
          rw [eq_div_iff hpos, e3]
        rw [this]
        exact rats.div_mem (rats.pow_mem (rats.sub_mem htr hdr) 2) (rats.sub_mem rats.one_mem (rats.pow_mem htr 2))
      obtain ⟨x, hx⟩ := e4
      exact irrational_sqrt_two ⟨x, by simpa using hx⟩
  next => cases hs'

/-- An environment with the example source and the example group. -/
noncomputable def exEnv : Env (ℕ → ℝ × ℝ) ℝ := { idealEnv with induce := fun _ => exGroup.induce exCorr }

/-- Two normal variables. -/
noncomputable def exMembers : Fin 2 → Obj (St (ℕ → ℝ × ℝ) ℝ) ℝ :=
  ![.leaf (.normal 1 2) none none, .leaf (.normal 10 5) none none]

theorem exMembers_denote (j : Fin 2) :
    Denotes demoSource.primLaw (exMembers j) ((![normalLaw 1 2, normalLaw 10 5] : Fin 2 → Measure ℝ) j) := by
  revert j
  refine Fin.forall_fin_two.2 ⟨?_, ?_⟩
  · exact denotes_normal (demoSource_normal 1 (by norm_num))
  · exact denotes_normal (demoSource_normal 10 (by norm_num))

/-- A table of distinct numbers that the group can correlate. -/
noncomputable def exTable : Fin 2 → Fin 4 → ℝ := ![![10, 20, 30, 40], ![2, 4, 1, 3]]

theorem exTable_inj (j : Fin 2) : Function.Injective (exTable j) := by
  rw [← List.nodup_ofFn]
  revert j
  refine Fin.forall_fin_two.2 ⟨?_, ?_⟩ <;> simp [exTable, List.ofFn_succ]

theorem exTable_ok : ∃ Y, exGroup.induce exCorr (colsOf exTable) = .ok Y := by
  have hdiv : ¬ ∃ j, sufficientlyDiverse exGroup.minUnique (List.ofFn (exTable j)) = false := by
    rintro ⟨j, hj⟩
    have hd : (List.ofFn (exTable j)).dedup = List.ofFn (exTable j) := (List.nodup_ofFn.2 (exTable_inj j)).dedup
    have : sufficientlyDiverse exGroup.minUnique (List.ofFn (exTable j)) = true := by
      simp only [sufficientlyDiverse, hd, List.length_ofFn, exGroup, Bool.and_eq_true, decide_eq_true_eq]
      norm_num
    rw [hj] at this
    cases this
  have hrank : rankMin ([10, 20, 30, 40] : List ℝ) = [1, 2, 3, 4] := by
    simp [rankMin, List.countP_cons]
    norm_num
  have hrank2 : rankMin ([2, 4, 1, 3] : List ℝ) = [2, 4, 1, 3] := rank_tie2
  have hsc : colsOf (scoreF id exTable) = [[1 / 5, 2 / 5, 3 / 5, 4 / 5], [2 / 5, 4 / 5, 1 / 5, 3 / 5]] := by
    rw [← scores_colsOf]
    simp [colsOf, exTable, List.ofFn_succ, scoresOf, hrank, hrank2]
    norm_num
  have ht : entry (pearsonRows (colsOf (scoreF id exTable))) 0 1 = 0 := by
    rw [hsc]
    simp [entry, pearsonRows, pearson, codev, mean, Finset.sum_range_succ]
    norm_num
  have hr : exRecorr (pearsonRows (colsOf (scoreF id exTable)))
      = .ok [[1, 0], [exC - 0 * (√(1 - exC ^ 2) / √(1 - 0 ^ 2)), √(1 - exC ^ 2) / √(1 - 0 ^ 2)]] := by
    unfold exRecorr
    rw [ht, if_pos (by norm_num)]
  have hmat : exGroup.matrix ≠ eyeRows 2 := by
    have hc : exC ≠ 0 := by
      unfold exC
      positivity
    simp [exGroup, eyeRows, List.range_succ, hc]
  rw [induce_form insArgsort_ok exGroup (by norm_num), if_neg hdiv, if_neg hmat]
  have hr' : exCorr.recorr (colsOf (scoreF exCorr.ppf exTable))
      = .ok [[1, 0], [exC - 0 * (√(1 - exC ^ 2) / √(1 - 0 ^ 2)), √(1 - exC ^ 2) / √(1 - 0 ^ 2)]] := hr
  rw [hr']
  exact ⟨_, rfl⟩

example : ∃ (OK : Set (ℕ → ℝ × ℝ)) (X : (ℕ → ℝ × ℝ) → Fin 2 → Fin 4 → ℝ),
    0 < (Measure.infinitePi fun _ : ℕ => demoSource.law) OK ∧
    (∀ᵐ ω ∂(Measure.infinitePi fun _ : ℕ => demoSource.law), ω ∈ OK → ∃ s',
      sampleObj exEnv (.corr 0 2 exMembers 0) 4 none none ⟨ω, fun _ _ => none⟩
          = (.ok (.arr ((List.ofFn (X ω 0)).map .flt)), s') ∧
      ∃ s'', sampleObj exEnv (.corr 0 2 exMembers 1) 4 none none s'
          = (.ok (.arr ((List.ofFn (X ω 1)).map .flt)), s'')) ∧
    (∀ B : Set (Fin 4 → ℝ), MeasurableSet B →
      (Measure.infinitePi fun _ : ℕ => demoSource.law) (OK ∩ {ω | X ω 1 ∈ B})
        = (Measure.infinitePi fun _ : ℕ => demoSource.law) OK * (Measure.pi fun _ : Fin 4 => normalLaw 10 5) B) := by
  have hcl : ∀ j, (exMembers j).clips = (none, none) := Fin.forall_fin_two.2 ⟨rfl, rfl⟩
  have hcont : ∀ (j : Fin 2) (x : ℝ), (![normalLaw 1 2, normalLaw 10 5] : Fin 2 → Measure ℝ) j {x} = 0 := by
    have h : ∀ m s x : ℝ, s ≠ 0 → normalLaw m s {x} = 0 := by
      intro m s x hs
      have : NullSingletonClass (normalLaw m s) := nullSingletonClass_gaussianReal (by
        intro h
        have := congrArg NNReal.toReal h
        exact hs (by simpa using this))
      exact measure_singleton x
    exact Fin.forall_fin_two.2 ⟨fun x => h 1 2 x (by norm_num), fun x => h 10 5 x (by norm_num)⟩
  have hC : RowBlind exCorr := rowBlind_pearson _ _ _
  obtain ⟨OK, X, h1, h2, h3, h4⟩ := C97_own_law demoSource (E := exEnv) ⟨rfl, idealEnv_driven.loops, idealEnv_driven.powers, rfl, rfl, idealEnv_driven.ppf⟩ demoSource_uniform insArgsort_ok
    hC exGroup (g := 0) (n := 4) (by norm_num) rfl hcl exMembers_denote hcont (exCorr_noTies 4) 0
    (fun _ _ => none) rfl
  obtain ⟨Y, hY⟩ := exTable_ok
  have hpos := C97_possible demoSource (E := exEnv) ⟨rfl, idealEnv_driven.loops, idealEnv_driven.powers, rfl, rfl, idealEnv_driven.ppf⟩ demoSource_uniform (C := exCorr) insArgsort_ok
    hC exGroup (g := 0) (n := 4) (by norm_num) rfl hcl exMembers_denote hcont 0
    (fun _ _ => none) rfl exTable_inj hY
  refine ⟨OK, X, ?_, ?_, fun B hB => h4 1 B hB⟩
  · refine hpos.trans_le (measure_mono_ae ?_)
    filter_upwards [h3] with ω hω
    rintro ⟨z, s', hz⟩
    by_contra hno
    obtain ⟨e, s'', he⟩ := hω.2 hno
    rw [he] at hz
    cases hz
  · filter_upwards [h3] with ω hω hmem
    obtain ⟨s', hs, hs'⟩ := hω.1 hmem
    exact ⟨s', hs, hs' 1 (by decide) 4 (by norm_num)⟩

end Verif
