import Verif.Props.CorrelationExamples

/-!
# C30, C36: the first variable of a group, and the whole decision about the tolerance
-/

namespace Verif

variable {K : Type} [Field K] [LinearOrder K]

theorem rk_eq_range (l : List K) (x : K) :
    rk l x = (List.range l.length).countP fun j => decide (l.getD j 0 < x) := by
  conv_lhs => unfold rk; rw [← map_getD_range 0 l, List.countP_map]
  rfl

/-- A column of distinct numbers sorted by its own ranks is unchanged. -/
theorem sortColumn_self {argsort : List ℕ → List ℕ} (hA : IsArgsort argsort) {col out : List K}
    (hnd : col.Nodup) (h : sortColumn argsort col (rankMin col) (rankMin col) = .ok out) : out = col := by
  have hp := sortColumn_perm hA rfl hnd h
  have hl := hp.length_eq
  refine List.ext_getElem hl fun i h1 h2 => ?_
  have hc : rk out (out.getD i 0) = rk col (col.getD i 0) := by
    rw [rk_eq_range, rk_eq_range, hl]
    refine List.countP_congr fun j hj => ?_
    simp only [decide_eq_true_eq]
    rw [← not_le, ← not_le]
    exact not_congr (sortColumn_strict hA rfl hnd h h2 (List.mem_range.1 hj))
  rw [getD_eq_get 0 h1, getD_eq_get 0 h2] at hc
  have hrk : rk col (out[i]) = rk col (col[i]) := by
    rw [← hc]; unfold rk; exact (hp.countP_eq _).symm
  have hm : out[i] ∈ col := hp.mem_iff.1 (List.getElem_mem h1)
  rcases lt_trichotomy out[i] col[i] with hlt | heq | hlt
  · exact absurd hrk (ne_of_lt (rk_lt col hm hlt))
  · exact heq
  · exact absurd hrk.symm (ne_of_lt (rk_lt col (List.getElem_mem h2) hlt))

/-- **C30, the first variable.** If the draws of the first variable of a group are distinct, correlating
leaves them exactly as they were, in the same order: the other variables are reordered around it.  (The ranks
to be matched are those of `targetScores`; the re-correlation matrix is the quotient of the Cholesky factors,
`RecorrSound`.)  Missing: repeated draws, where values get lost; see `C30_ties_fails`. -/
theorem C30_first_unchanged_partial [IsStrictOrderedRing K] {C : CorrEnv K} (hA : IsArgsort C.argsort)
    (hppf : ∀ a b : K, 0 < a → b < 1 → a < b → C.ppf a < C.ppf b)
    {G : CorrGroup K} (hR : RecorrSound C G.matrix) {c : List K} {cs out : List (List K)}
    (h : G.induce C (c :: cs) = .ok out) (hnd : c.Nodup) : out.headD [] = c := by
  rcases (induce_ok h).2 with ⟨_, rfl⟩ | ⟨_, ts, ht, hl, hF, _⟩
  · rfl
  · cases ts with
    | nil => simp at hl
    | cons t ts =>
      have hr := first_target_ranks hppf ht (fun _ hs => hR.firstRow hs (by simp)) (by simp)
      simp only [List.headD_cons] at hr
      cases hF with
      | cons h1 _ =>
        simp only at h1
        rw [hr] at h1
        exact sortColumn_self hA hnd h1

/-- **C36, the whole decision.** With a tolerance `t` other than zero and a target matrix other than the
identity: let `out` be the joint samples that the group without a tolerance returns.  If some empirical rank
correlation of `out` (the one of two variables, any of more) is off its target by more than `t`, the call
raises RuntimeError; otherwise it returns exactly `out`. -/
theorem C36_decision_partial {C : CorrEnv K} {G : CorrGroup K} {cols out : List (List K)} {t : K}
    (h : CorrGroup.induce C { G with tol := none } cols = .ok out)
    (hne : G.matrix ≠ eyeRows cols.length) (h2 : 2 ≤ cols.length) (ht : G.tol = some t) (h0 : t ≠ 0) :
    ((∃ i j, i < cols.length ∧ j < cols.length ∧ (i < j ∨ 2 < cols.length) ∧
        t < |C.rho (out.getD i []) (out.getD j []) - entry G.matrix i j|) →
      G.induce C cols = .error .runtimeError) ∧
    ((∀ i j, i < cols.length → j < cols.length → (i < j ∨ 2 < cols.length) →
        |C.rho (out.getD i []) (out.getD j []) - entry G.matrix i j| ≤ t) →
      G.induce C cols = .ok out) := by
  obtain ⟨he, ho⟩ := C36_error_partial (G := G) rfl h hne ht h0
  have hlen : out.length = cols.length := by
    rcases (induce_ok h).2 with ⟨he, _⟩ | ⟨_, ts', _, hl, hF, hw⟩
    · exact absurd he hne
    · rw [← hF.length_eq]; simp [hl]
  have hw : withinTolerance C.rho G.matrix t out = true ↔
      ∀ i j, i < cols.length → j < cols.length → (i < j ∨ 2 < cols.length) →
        |C.rho (out.getD i []) (out.getD j []) - entry G.matrix i j| ≤ t := by
    unfold withinTolerance
    rw [hlen]
    split_ifs with h3
    · rw [decide_eq_true_eq]
      constructor
      · intro h i j hi hj hij
        obtain ⟨rfl, rfl⟩ : i = 0 ∧ j = 1 := by omega
        exact h
      · intro h
        exact h 0 1 (by omega) (by omega) (Or.inl (by omega))
    · simp only [List.all_eq_true, List.mem_range, decide_eq_true_eq]
      exact ⟨fun h i j hi hj _ => h i hi j hj, fun h i hi j hj => h i j hi hj (Or.inr (by omega))⟩
  refine ⟨fun ⟨i, j, hi, hj, hij, hlt⟩ => he ?_, fun h => ho (hw.2 h)⟩
  rw [← Bool.not_eq_true, hw]
  exact fun h => absurd (h i j hi hj hij) (not_le.2 hlt)

theorem demoPpf_strictMono (a b : ℚ) (h : a < b) : demoPpf a < demoPpf b := by
  unfold demoPpf
  have h1 : 5 * a - 5 / 2 < 5 * b - 5 / 2 := by linarith
  have h2 : (5 * a - 5 / 2) ^ 3 < (5 * b - 5 / 2) ^ 3 :=
    Odd.strictMono_pow (by decide) h1
  linarith

/-- The first variable of the example group comes back as it was drawn. -/
example : (([[10, 20, 30, 40], [1, 3, 2, 4]] : List (List ℚ)).headD []) = [10, 20, 30, 40] :=
  C30_first_unchanged_partial (cs := [[2, 4, 1, 3]]) insArgsort_ok
    (fun a b _ _ h => demoPpf_strictMono a b h) (demo_recorrSound (some (1 / 20))) demo_induce
    (by decide +kernel)

/-- Both outcomes occur: the empirical correlation 4/5 is refused for the target 7/10 and the tolerance 1/20,
accepted for the tolerance 1/5. -/
example :
    (⟨[[1, 7 / 10], [7 / 10, 1]], some (1 / 20), 3⟩ : CorrGroup ℚ).induce demoCorrEnv demoCols
      = .error .runtimeError ∧
    (⟨[[1, 7 / 10], [7 / 10, 1]], some (1 / 5), 3⟩ : CorrGroup ℚ).induce demoCorrEnv demoCols
      = .ok [[10, 20, 30, 40], [1, 3, 2, 4]] := by
  have h : CorrGroup.induce demoCorrEnv ⟨[[1, 7 / 10], [7 / 10, 1]], none, 3⟩ demoCols
      = .ok [[10, 20, 30, 40], [1, 3, 2, 4]] := by decide +kernel
  have hr : demoCorrEnv.rho [10, 20, 30, 40] [1, 3, 2, 4] = 4 / 5 := by decide +kernel
  constructor
  · refine (C36_decision_partial (G := ⟨[[1, 7 / 10], [7 / 10, 1]], some (1 / 20), 3⟩) h (by decide +kernel)
      (by decide) rfl (by norm_num)).1 ⟨0, 1, by decide, by decide, Or.inl (by decide), ?_⟩
    simp only [List.getD_cons_zero, List.getD_cons_succ, hr, entry]
    norm_num
  · refine (C36_decision_partial (G := ⟨[[1, 7 / 10], [7 / 10, 1]], some (1 / 5), 3⟩) h (by decide +kernel)
      (by decide) rfl (by norm_num)).2 fun i j hi hj hij => ?_
    have hl : demoCols.length = 2 := rfl
    obtain ⟨rfl, rfl⟩ : i = 0 ∧ j = 1 := by omega
    simp only [List.getD_cons_zero, List.getD_cons_succ, hr, entry]
    norm_num [abs_le]

end Verif
