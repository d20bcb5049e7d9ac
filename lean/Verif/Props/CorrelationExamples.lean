import Verif.Props.TargetScores
import Mathlib.Data.Real.Sqrt
import Mathlib.Analysis.SpecialFunctions.Pow.Real
import Mathlib.LinearAlgebra.Matrix.Notation
import Mathlib.Tactic.FinCases

/-!
# Concrete cases for the correlation theorems, and C36 where it fails
-/

namespace Verif

open Verif.Spec

/-! ### A sorting routine meeting `IsArgsort` -/

/-- An argsort by insertion. -/
def insArgsort (keys : List ℕ) : List ℕ :=
  (List.range keys.length).insertionSort fun i j => keys.getD i 0 ≤ keys.getD j 0

theorem insArgsort_ok : IsArgsort insArgsort := by
  intro keys
  refine ⟨List.perm_insertionSort _ _, ?_⟩
  rw [List.pairwise_map]
  haveI : Std.Total (fun i j : ℕ => keys.getD i 0 ≤ keys.getD j 0) := ⟨fun a b => le_total _ _⟩
  haveI : IsTrans ℕ (fun i j : ℕ => keys.getD i 0 ≤ keys.getD j 0) := ⟨fun a b c => le_trans⟩
  exact List.pairwise_insertionSort (fun i j : ℕ => keys.getD i 0 ≤ keys.getD j 0) _

/-! ### Rational case: distinct draws, requested correlation 4/5 -/

/-- Increasing scores `-7, -1, 1, 7` for ranks 1, 2, 3, 4 of 4 (in place of the normal quantiles, so
that standard deviations are rational). -/
def demoPpf (x : ℚ) : ℚ := 5 / 3 * (5 * x - 5 / 2) + 4 / 3 * (5 * x - 5 / 2) ^ 3

def demoScores : List (List ℚ) := [[-7, -1, 1, 7], [-1, 7, -7, 1]]

def demoS : List (List ℚ) := [[1, 0], [4 / 5, 3 / 5]]

/-- Spearman's rank correlation of distinct values. -/
def spearman (x y : List ℚ) : ℚ :=
  1 - 6 * ((List.zipWith (fun a b : ℕ => ((a : ℚ) - b) ^ 2) (rankMin x) (rankMin y)).sum)
    / ((x.length : ℚ) * ((x.length : ℚ) ^ 2 - 1))

def demoCorrEnv : CorrEnv ℚ where
  ppf := demoPpf
  recorr := fun sc => if sc = demoScores then .ok demoS else .error .valueError
  rho := spearman
  argsort := insArgsort

def demoGroup (tol : Option ℚ) : CorrGroup ℚ := ⟨[[1, 4 / 5], [4 / 5, 1]], tol, 3⟩

def demoCols : List (List ℚ) := [[10, 20, 30, 40], [2, 4, 1, 3]]

theorem demo_scores : demoCols.map (scoresOf demoCorrEnv.ppf) = demoScores := by decide +kernel

theorem demo_induce : (demoGroup (some (1 / 20))).induce demoCorrEnv demoCols
    = .ok [[10, 20, 30, 40], [1, 3, 2, 4]] := by decide +kernel

theorem demo_targets : targetScores demoCorrEnv demoCols
    = .ok [[-7, -1, 1, 7], [-31 / 5, 17 / 5, -17 / 5, 31 / 5]] := by decide +kernel

theorem demo_cholesky (tol : Option ℚ) : IsRecorr
    (Matrix.of fun i j : Fin 2 => entry (demoGroup tol).matrix i j) 1
    (Matrix.of fun i j : Fin 2 => entry demoS i j) := by
  refine ⟨!![1, 0; 4 / 5, 3 / 5], 1, ⟨?_, ?_, ?_⟩, ⟨?_, ?_, ?_⟩, ?_⟩
  · intro i j hij
    fin_cases i <;> fin_cases j <;> simp_all
  · intro i
    fin_cases i <;> norm_num
  · ext i j
    fin_cases i <;> fin_cases j <;>
      norm_num [Matrix.mul_apply, Fin.sum_univ_two, demoGroup, entry]
  · intro i j hij
    exact Matrix.one_apply_ne hij.ne
  · intro i
    rw [Matrix.one_apply_eq]; norm_num
  · simp
  · rw [inv_one, mul_one]
    ext i j
    fin_cases i <;> fin_cases j <;> norm_num [demoS, entry]

theorem demo_corr (i j : Fin 2) : HasCorr 4 (colFn demoScores i) (colFn demoScores j)
    ((1 : Matrix (Fin 2) (Fin 2) ℚ) i j) := by
  refine ⟨10, 10, by norm_num, by norm_num, ?_, ?_, ?_⟩
  · fin_cases i <;> decide +kernel
  · fin_cases j <;> decide +kernel
  · fin_cases i <;> fin_cases j <;> decide +kernel

theorem demo_recorrSound (tol : Option ℚ) : RecorrSound demoCorrEnv (demoGroup tol).matrix := by
  intro scores s h
  simp only [demoCorrEnv] at h
  split at h
  · rename_i hs
    subst hs
    cases h
    exact ⟨rfl, by decide, (1 : Matrix (Fin 2) (Fin 2) ℚ), demo_corr, demo_cholesky tol⟩
  · cases h

/-- C30, C31, C73 apply: the second variable's draws `2, 4, 1, 3` come back as `1, 3, 2, 4`. -/
example : List.Forall₂ (fun col o => List.Perm o col) demoCols [[10, 20, 30, 40], [1, 3, 2, 4]] :=
  C30_permutation_partial insArgsort_ok (n := 4) (by decide) demo_induce
    (by intro ts hts; rw [demo_targets] at hts; cases hts; decide +kernel)

example : rankMin ([1, 3, 2, 4] : List ℚ) = rankMin ([-31 / 5, 17 / 5, -17 / 5, 31 / 5] : List ℚ) :=
  C31_ranks insArgsort_ok (n := 4) (by decide) demo_induce (by decide +kernel) demo_targets (v := 1)
    (by decide) (by decide +kernel)

example : HasCorr 4 (colFn [[-7, -1, 1, 7], [-31 / 5, 17 / 5, -17 / 5, 31 / 5]] 0)
    (colFn [[-7, -1, 1, 7], [-31 / 5, 17 / 5, -17 / 5, 31 / 5]] 1) (4 / 5 : ℚ) :=
  C73_target_correlation (G := demoGroup none) (n := 4) (demo_recorrSound none) (by decide) (by decide +kernel)
    (by decide +kernel) demo_targets (i := 0) (j := 1) (by decide) (by decide)

/-- C36 applies: the returned samples' rank correlation is within 1/20 of 4/5. -/
example : |spearman [10, 20, 30, 40] [1, 3, 2, 4] - 4 / 5| ≤ 1 / 20 :=
  C36_tolerance_partial demo_induce (by decide +kernel) (t := 1 / 20) rfl (by norm_num) (i := 0) (j := 1)
    (by decide) (by decide) (.inl (by decide))

/-- C36 applies: with tolerance `1 / 10^6` and requested correlation 7/10 the same samples are refused. -/
example : (⟨[[1, 7 / 10], [7 / 10, 1]], some (1 / 1000000), 3⟩ : CorrGroup ℚ).induce demoCorrEnv demoCols
    = .error .runtimeError :=
  (C36_error_partial (G' := ⟨[[1, 7 / 10], [7 / 10, 1]], none, 3⟩) rfl
    (out := [[10, 20, 30, 40], [1, 3, 2, 4]]) (by decide +kernel) (by decide +kernel) rfl
    (by norm_num)).1 (by decide +kernel)

/-- **C36 is false of the code for tolerance 0** (which asks for an exact match): any reordered sample
is returned, whatever its correlation. Here 7/10 is requested and 4/5 obtained. -/
theorem C36_zero_fails : ∃ (G : CorrGroup ℚ) (out : List (List ℚ)), G.tol = some 0 ∧
    G.induce demoCorrEnv demoCols = .ok out ∧
    ¬ |spearman (out.getD 0 []) (out.getD 1 []) - entry G.matrix 0 1| ≤ 0 := by
  refine ⟨⟨[[1, 7 / 10], [7 / 10, 1]], some 0, 3⟩, [[10, 20, 30, 40], [1, 3, 2, 4]], rfl,
    by decide +kernel, by decide +kernel⟩

/-- **C36 is false of the code for the identity matrix**: for every environment, tolerance and diverse
data the draws are returned unchecked. Here two identical columns (rank correlation 1) are returned for
a requested correlation 0 with tolerance 1/20. -/
theorem C36_identity_fails :
    (∀ (C : CorrEnv ℚ) (t : ℚ) (mu : ℕ) (cols : List (List ℚ)),
      (∀ c ∈ cols, sufficientlyDiverse mu c = true) →
      (⟨eyeRows cols.length, some t, mu⟩ : CorrGroup ℚ).induce C cols = .ok cols) ∧
    ¬ |spearman [1, 2, 3, 4] [1, 2, 3, 4] - entry (eyeRows 2) 0 1| ≤ 1 / 20 := by
  refine ⟨fun C t mu cols h => ?_, by decide +kernel⟩
  unfold CorrGroup.induce
  rw [if_neg, if_pos rfl]
  intro hc
  obtain ⟨c, hc, hd⟩ := List.any_eq_true.1 hc
  rw [h c hc] at hd
  cases hd

/-! ### Real case: repeated draws -/

/-- Two columns that are not constant or collinear have a re-correlation matrix for every correlation
strictly between -1 and 1. -/
theorem exists_recorr_two (n : ℕ) (x : Fin 2 → ℕ → ℝ) {c : ℝ} (hc : c ^ 2 < 1)
    (h0 : 0 < codev n (x 0) (x 0)) (h1 : 0 < codev n (x 1) (x 1))
    (hcs : codev n (x 0) (x 1) ^ 2 < codev n (x 0) (x 0) * codev n (x 1) (x 1)) :
    ∃ t s : Matrix (Fin 2) (Fin 2) ℝ, (∀ i j, HasCorr n (x i) (x j) (t i j)) ∧
      IsRecorr !![1, c; c, 1] t s := by
  set a := √(codev n (x 0) (x 0)) with ha
  set b := √(codev n (x 1) (x 1)) with hb
  have ha0 : 0 < a := Real.sqrt_pos.2 h0
  have hb0 : 0 < b := Real.sqrt_pos.2 h1
  have ha2 : a * a = codev n (x 0) (x 0) := Real.mul_self_sqrt h0.le
  have hb2 : b * b = codev n (x 1) (x 1) := Real.mul_self_sqrt h1.le
  have hsymm : codev n (x 1) (x 0) = codev n (x 0) (x 1) := by
    unfold codev; exact Finset.sum_congr rfl fun _ _ => mul_comm _ _
  set r := codev n (x 0) (x 1) / (a * b) with hr
  have hrm : codev n (x 0) (x 1) = r * (a * b) := by rw [hr]; field_simp
  have hr1 : r ^ 2 < 1 := by
    have hpos : 0 < (a * b) ^ 2 := by positivity
    have : r ^ 2 * (a * b) ^ 2 < 1 * (a * b) ^ 2 := by
      calc r ^ 2 * (a * b) ^ 2 = (r * (a * b)) ^ 2 := by ring
        _ = codev n (x 0) (x 1) ^ 2 := by rw [hrm]
        _ < codev n (x 0) (x 0) * codev n (x 1) (x 1) := hcs
        _ = 1 * (a * b) ^ 2 := by rw [← ha2, ← hb2]; ring
    exact lt_of_mul_lt_mul_right this hpos.le
  have chol : ∀ z : ℝ, z ^ 2 < 1 → IsCholesky !![1, 0; z, √(1 - z ^ 2)] !![1, z; z, 1] := by
    intro z hz
    refine ⟨?_, ?_, ?_⟩
    · intro i j hij
      fin_cases i <;> fin_cases j
      · exact absurd hij (by decide)
      · rfl
      · exact absurd hij (by decide)
      · exact absurd hij (by decide)
    · intro i
      fin_cases i
      · simp
      · simpa using hz
    · have hq : √(1 - z ^ 2) * √(1 - z ^ 2) = 1 - z ^ 2 := Real.mul_self_sqrt (by linarith)
      ext i j
      rw [Matrix.mul_apply, Fin.sum_univ_two]
      simp only [Matrix.transpose_apply]
      fin_cases i <;> fin_cases j
      · simp
      · simp
      · simp
      · show z * z + √(1 - z ^ 2) * √(1 - z ^ 2) = 1
        rw [hq]; ring
  refine ⟨!![1, r; r, 1], _, ?_, _, _, chol c hc, chol r hr1, rfl⟩
  intro i j
  fin_cases i <;> fin_cases j
  · exact ⟨a, a, ha0, ha0, ha2, ha2, by simpa using ha2.symm⟩
  · exact ⟨a, b, ha0, hb0, ha2, hb2, by simpa using hrm⟩
  · exact ⟨b, a, hb0, ha0, hb2, ha2, by
      show codev n (x 1) (x 0) = r * (b * a)
      rw [hsymm, hrm]
      ring⟩
  · exact ⟨b, b, hb0, hb0, hb2, hb2, by simpa using hb2.symm⟩

/-- Two variables with four draws each, the first with a repeated draw (a clipped variable, say). -/
noncomputable def tieCols : List (List ℝ) := [[5, 5, 7, 9], [2, 4, 1, 3]]

theorem rank_tie : rankMin ([5, 5, 7, 9] : List ℝ) = [1, 1, 3, 4] := by
  norm_num [rankMin, List.countP_cons]

theorem rank_tie2 : rankMin ([2, 4, 1, 3] : List ℝ) = [2, 4, 1, 3] := by
  norm_num [rankMin, List.countP_cons]

theorem tie_scores : tieCols.map (scoresOf id)
    = [[1 / 5, 1 / 5, 3 / 5, 4 / 5], [2 / 5, 4 / 5, 1 / 5, 3 / 5]] := by
  norm_num [tieCols, scoresOf, rank_tie, rank_tie2]

/-- There is an environment with a sound re-correlation matrix in which joint sampling with requested
correlation 3/5 succeeds on these draws and returns a first column without the 9. -/
theorem C30_ties_example : ∃ (C : CorrEnv ℝ) (G : CorrGroup ℝ) (out : List (List ℝ)),
    IsArgsort C.argsort ∧ RecorrSound C G.matrix ∧ entry G.matrix 0 1 = 3 / 5 ∧
    G.induce C tieCols = .ok out ∧ (9 : ℝ) ∉ out.headD [] := by
  classical
  obtain ⟨S0, hS0⟩ : ∃ S0 : List (List ℝ),
      S0 = [[1 / 5, 1 / 5, 3 / 5, 4 / 5], [2 / 5, 4 / 5, 1 / 5, 3 / 5]] := ⟨_, rfl⟩
  obtain ⟨t, s, ht, hs⟩ := exists_recorr_two 4 (fun i : Fin 2 => colFn S0 i) (c := 3 / 5)
    (by norm_num)
    (by subst hS0; norm_num [codev, mean, colFn, Finset.sum_range_succ])
    (by subst hS0; norm_num [codev, mean, colFn, Finset.sum_range_succ])
    (by subst hS0; norm_num [codev, mean, colFn, Finset.sum_range_succ])
  let rows : List (List ℝ) := [[s 0 0, s 0 1], [s 1 0, s 1 1]]
  let C : CorrEnv ℝ := ⟨id, fun sc => if sc = S0 then .ok rows else .error .valueError,
    fun _ _ => 0, insArgsort⟩
  let G : CorrGroup ℝ := ⟨[[1, 3 / 5], [3 / 5, 1]], none, 3⟩
  have hrec : RecorrSound C G.matrix := by
    intro sc s' h
    have h : (if sc = S0 then (Except.ok rows : Except PyErr _) else .error .valueError) = .ok s' := h
    split at h
    · rename_i hsc
      cases h
      subst hsc
      subst hS0
      refine ⟨rfl, by intro row hrow; simp [rows] at hrow; rcases hrow with rfl | rfl <;> rfl, t, ht, ?_⟩
      have e1 : (Matrix.of fun i j : Fin 2 => entry G.matrix i j) = !![1, 3 / 5; 3 / 5, 1] := by
        ext i j; fin_cases i <;> fin_cases j <;> rfl
      have e2 : (Matrix.of fun i j : Fin 2 => entry rows i j) = s := by
        ext i j; fin_cases i <;> fin_cases j <;> rfl
      have := hs
      rw [← e1, ← e2] at this
      exact this
    · cases h
  have hdiv : ∀ c ∈ tieCols, sufficientlyDiverse 3 c = true := by
    intro c hc
    have : c = [5, 5, 7, 9] ∨ c = [2, 4, 1, 3] := by simpa [tieCols] using hc
    rcases this with rfl | rfl
    · norm_num [sufficientlyDiverse, List.dedup_cons_of_mem, List.dedup_cons_of_notMem]
    · norm_num [sufficientlyDiverse, List.dedup_cons_of_mem, List.dedup_cons_of_notMem]
  have hne : G.matrix ≠ eyeRows tieCols.length := by
    intro h
    have := congrArg (fun m => entry m 0 1) h
    norm_num [G, entry, eyeRows, tieCols, List.range_succ] at this
  have hts : targetScores C tieCols = .ok (rows.map fun row => combineCols 4 row S0) := by
    have hsc := tie_scores
    rw [← hS0] at hsc
    show (do let s ← (if tieCols.map (scoresOf id) = S0 then (Except.ok rows : Except PyErr _)
        else .error .valueError)
             Except.ok (s.map fun row => combineCols 4 row (tieCols.map (scoresOf id)))) = _
    rw [hsc, if_pos rfl]
    rfl
  obtain ⟨out, hind⟩ := induce_of_targets (C := C) (G := G) insArgsort_ok rfl hdiv hne hts
    (.cons (by simp [combineCols]) (.cons (by simp [combineCols]) .nil))
  refine ⟨C, G, out, insArgsort_ok, hrec, rfl, hind, ?_⟩
  refine (C30_ties_recorr_fails insArgsort_ok (fun a b _ _ h => h) hrec hind hne (M := 9) (by simp)
    ?_ ?_).1
  · intro y hy
    have : y = 5 ∨ y = 7 ∨ y = 9 := by simpa using hy
    rcases this with rfl | rfl | rfl <;> norm_num
  · norm_num [List.filter_cons]

end Verif
