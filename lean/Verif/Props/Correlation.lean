import Verif.Lemmas.Rank
import Mathlib.Algebra.Order.Field.Rat
import Mathlib.Data.List.Dedup
import Mathlib.Tactic.Ring
import Mathlib.Tactic.Positivity

/-!
# Inducing a correlation: C30, C31, C36

`G.induce C cols` is `induce_correlation` on the columns of independent draws; the "target scores" are
the columns whose ranks the code imposes on the data.
-/

namespace Verif

variable {K : Type} [Field K] [LinearOrder K]

/-! ### One column -/

theorem getD_eq_get {α : Type} (d : α) {l : List α} {i : ℕ} (h : i < l.length) :
    l.getD i d = l[i] := by
  rw [List.getD_eq_getElem?_getD, List.getElem?_eq_getElem h]; rfl

theorem sorted_getD_le {S : List K} (hS : S.Pairwise (· ≤ ·)) {i j : ℕ} (hij : i ≤ j)
    (hj : j < S.length) : S.getD i 0 ≤ S.getD j 0 := by
  rw [getD_eq_get 0 hj, getD_eq_get 0 (lt_of_le_of_lt hij hj)]
  rcases Nat.lt_or_eq_of_le hij with h | h
  · exact List.pairwise_iff_getElem.1 hS i j _ _ h
  · subst h; exact le_refl _

/-- With no ties among the target scores the column is only reordered. -/
theorem sortColumn_perm {argsort : List ℕ → List ℕ} (hA : IsArgsort argsort) {col scores out : List K}
    (hlen : scores.length = col.length) (hnd : scores.Nodup)
    (h : sortColumn argsort col (rankMin col) (rankMin scores) = .ok out) : out.Perm col := by
  obtain ⟨S, h1, _, h3, _⟩ := sortColumn_eq hA col scores hlen
  rw [h3] at h
  cases h
  have hperm := rankMin_perm hnd
  have hfull : ∀ r, r ∈ rankMin col ++ rankMin scores ↔ 1 ≤ r ∧ r ≤ col.length := by
    intro r
    rw [List.mem_append]
    constructor
    · rintro (h | h)
      · exact mem_rankMin h
      · rw [← hlen]; exact mem_rankMin h
    · intro h
      right
      rw [hperm.mem_iff, List.mem_range'_1]
      omega
  have hmap : (rankMin scores).map
        (fun r => S.getD (denseIdx (rankMin col ++ rankMin scores) r) 0)
      = (rankMin scores).map (fun r => S.getD (r - 1) 0) := by
    refine List.map_congr_left fun r hr => ?_
    have := (hfull r).1 (List.mem_append_right _ hr)
    rw [denseIdx_full hfull this.1 this.2]
  rw [hmap]
  refine List.Perm.trans ?_ h1
  refine (hperm.map _).trans (List.Perm.of_eq ?_)
  rw [hlen, ← h1.length_eq, List.range'_eq_map_range, List.map_map]
  conv_rhs => rw [← map_getD_range 0 S]
  refine List.map_congr_left fun i _ => ?_
  show S.getD (1 + i - 1) 0 = S.getD i 0
  congr 1
  omega

/-- The result is ordered like the target scores. -/
theorem sortColumn_mono {argsort : List ℕ → List ℕ} (hA : IsArgsort argsort)
    {col scores out : List K} (hlen : scores.length = col.length)
    (h : sortColumn argsort col (rankMin col) (rankMin scores) = .ok out) :
    out.length = col.length ∧ ∀ i j, i < col.length → j < col.length →
      scores.getD i 0 ≤ scores.getD j 0 → out.getD i 0 ≤ out.getD j 0 := by
  obtain ⟨S, h1, h2, h3, h4⟩ := sortColumn_eq hA col scores hlen
  rw [h3] at h
  cases h
  refine ⟨by rw [List.length_map, rankMin_length, hlen], fun i j hi hj hij => ?_⟩
  rw [← hlen] at hi hj
  rw [getD_eq_get 0 hi, getD_eq_get 0 hj] at hij
  have hi' : i < (rankMin scores).length := by rw [rankMin_length]; exact hi
  have hj' : j < (rankMin scores).length := by rw [rankMin_length]; exact hj
  rw [getD_eq_get 0 (by rw [List.length_map]; exact hi'),
    getD_eq_get 0 (by rw [List.length_map]; exact hj'), List.getElem_map, List.getElem_map]
  refine sorted_getD_le h2 (denseIdx_mono _ ?_) (h4 _ (List.getElem_mem _))
  simp only [rankMin_eq, List.getElem_map]
  have := rk_mono scores hij
  omega

/-- For distinct data, the order of the result is exactly the order of the target scores. -/
theorem sortColumn_strict {argsort : List ℕ → List ℕ} (hA : IsArgsort argsort)
    {col scores out : List K} (hlen : scores.length = col.length) (hnd : col.Nodup)
    (h : sortColumn argsort col (rankMin col) (rankMin scores) = .ok out)
    {i j : ℕ} (hi : i < col.length) (hj : j < col.length) :
    out.getD i 0 ≤ out.getD j 0 ↔ scores.getD i 0 ≤ scores.getD j 0 := by
  refine ⟨fun hle => ?_, (sortColumn_mono hA hlen h).2 i j hi hj⟩
  by_contra hc
  have hlt := not_le.1 hc
  obtain ⟨S, h1, h2, h3, h4⟩ := sortColumn_eq hA col scores hlen
  rw [h3] at h
  cases h
  rw [← hlen] at hi hj
  rw [getD_eq_get 0 hi, getD_eq_get 0 hj] at hlt
  have hi' : i < (rankMin scores).length := by rw [rankMin_length]; exact hi
  have hj' : j < (rankMin scores).length := by rw [rankMin_length]; exact hj
  rw [getD_eq_get 0 (by rw [List.length_map]; exact hi'),
    getD_eq_get 0 (by rw [List.length_map]; exact hj'), List.getElem_map, List.getElem_map] at hle
  have hrlt : (rankMin scores)[j] < (rankMin scores)[i] := by
    simp only [rankMin_eq, List.getElem_map]
    have := rk_lt scores (List.getElem_mem hj) hlt
    omega
  have hd := denseIdx_lt (rankMin col ++ rankMin scores)
    (List.mem_append_right _ (List.getElem_mem hj')) hrlt
  have hSi := h4 _ (List.getElem_mem hi')
  have hSj := h4 _ (List.getElem_mem hj')
  rw [getD_eq_get 0 hSi, getD_eq_get 0 hSj] at hle
  have hSnd : S.Nodup := (h1.nodup_iff).2 hnd
  have hSlt := lt_of_le_of_ne (List.pairwise_iff_getElem.1 h2 _ _ hSj hSi hd)
    (fun he => absurd ((hSnd.getElem_inj_iff).1 he) (Nat.ne_of_lt hd))
  exact absurd hle (not_le.2 hSlt)

/-! ### Whole groups -/

/-- The successful runs of `induce_correlation`. -/
theorem induce_ok {C : CorrEnv K} {G : CorrGroup K} {cols out : List (List K)}
    (h : G.induce C cols = .ok out) :
    (∀ c ∈ cols, sufficientlyDiverse G.minUnique c = true) ∧
    ((G.matrix = eyeRows cols.length ∧ out = cols) ∨
     (G.matrix ≠ eyeRows cols.length ∧ ∃ targets, targetScores C cols = .ok targets ∧
      targets.length = cols.length ∧
      List.Forall₂ (fun p o => sortColumn C.argsort p.1 (rankMin p.1) (rankMin p.2) = .ok o)
        (cols.zip targets) out ∧
      ∀ t, G.tol = some t → t ≠ 0 → withinTolerance C.rho G.matrix t out = true)) := by
  unfold CorrGroup.induce at h
  split at h
  · cases h
  · rename_i hdiv
    refine ⟨fun c hc => ?_, ?_⟩
    · by_contra hf
      refine hdiv (List.any_eq_true.2 ⟨c, hc, ?_⟩)
      rw [Bool.not_eq_true] at hf
      rw [hf]
      rfl
    split at h
    · rename_i heq
      cases h
      exact .inl ⟨heq, rfl⟩
    · rename_i hne
      obtain ⟨targets, ht, h⟩ := Except.bind_ok_iff.1 h
      split at h
      · cases h
      · rename_i hl
        obtain ⟨o, ho, h⟩ := Except.bind_ok_iff.1 h
        have hF := mapExcept_ok.1 ho
        refine .inr ⟨hne, targets, ht, not_not.1 hl, ?_⟩
        split at h
        · rename_i t htol
          split at h
          · rename_i h0
            cases h
            refine ⟨hF, fun t' ht' hne' => ?_⟩
            rw [htol] at ht'
            cases ht'
            exact absurd h0 hne'
          · split at h
            · rename_i hw
              cases h
              refine ⟨hF, fun t' ht' _ => ?_⟩
              rw [htol] at ht'
              cases ht'
              exact hw
            · cases h
        · rename_i htol
          cases h
          exact ⟨hF, fun t' ht' _ => by rw [htol] at ht'; cases ht'⟩

/-- A run without tolerance check succeeds as soon as the target scores exist. -/
theorem induce_of_targets {C : CorrEnv K} (hA : IsArgsort C.argsort) {G : CorrGroup K}
    {cols targets : List (List K)} (htol : G.tol = none)
    (hdiv : ∀ c ∈ cols, sufficientlyDiverse G.minUnique c = true)
    (hne : G.matrix ≠ eyeRows cols.length) (ht : targetScores C cols = .ok targets)
    (hlen : List.Forall₂ (fun t c => t.length = c.length) targets cols) :
    ∃ out, G.induce C cols = .ok out := by
  have hsort : ∃ out, mapExcept (fun p : List K × List K => sortColumn C.argsort p.1 (rankMin p.1)
      (rankMin p.2)) (cols.zip targets) = .ok out := by
    clear ht hdiv hne
    induction hlen with
    | nil => exact ⟨[], rfl⟩
    | cons h _ ih =>
      obtain ⟨out, ho⟩ := ih
      obtain ⟨_, _, _, hs, _⟩ := sortColumn_eq hA _ _ h
      exact ⟨_, mapExcept_ok.2 (.cons hs (mapExcept_ok.1 ho))⟩
  obtain ⟨out, ho⟩ := hsort
  refine ⟨out, ?_⟩
  unfold CorrGroup.induce
  rw [if_neg, if_neg hne, ht]
  · show (if targets.length ≠ cols.length then _ else _) = _
    rw [if_neg (by simpa using hlen.length_eq), ho, htol]
    rfl
  · intro hc
    obtain ⟨c, hc, hd⟩ := List.any_eq_true.1 hc
    rw [hdiv c hc] at hd
    cases hd

theorem targetScores_length {C : CorrEnv K} {cols targets : List (List K)}
    (h : targetScores C cols = .ok targets) : ∀ t ∈ targets, t.length = (cols.headD []).length := by
  obtain ⟨s, _, h⟩ := Except.bind_ok_iff.1 h
  cases h
  intro t ht
  obtain ⟨row, _, rfl⟩ := List.mem_map.1 ht
  simp [combineCols]

/-- **C30 (when the target scores have no ties).** If every target score column consists of distinct
values, inducing the correlation permutes each variable's independent draws. The samples are a
rectangular matrix (`n` draws of each variable). -/
theorem C30_permutation_partial {C : CorrEnv K} (hA : IsArgsort C.argsort) {G : CorrGroup K}
    {cols out : List (List K)} {n : ℕ} (hrect : ∀ c ∈ cols, c.length = n)
    (h : G.induce C cols = .ok out)
    (hties : ∀ ts, targetScores C cols = .ok ts → ∀ t ∈ ts, t.Nodup) :
    List.Forall₂ (fun col o => o.Perm col) cols out := by
  rcases (induce_ok h).2 with ⟨_, rfl⟩ | ⟨_, ts, ht, hl, hF, _⟩
  · exact List.forall₂_same.2 fun _ _ => List.Perm.refl _
  · rw [List.forall₂_iff_get] at hF ⊢
    have hz : (cols.zip ts).length = cols.length := by simp [hl]
    refine ⟨by rw [← hF.1, hz], fun i h1 h2 => ?_⟩
    have h3 := hF.2 i (by rw [hz]; exact h1) h2
    simp only [List.get_eq_getElem, List.getElem_zip] at h3 ⊢
    have hmem : ts[i]'(by omega) ∈ ts := List.getElem_mem _
    refine sortColumn_perm hA ?_ (hties ts ht _ hmem) h3
    rw [targetScores_length ht _ hmem, hrect _ (List.getElem_mem h1)]
    cases cols with
    | nil => simp at h1
    | cons c cs => exact hrect c (by simp)

/-- **C30 (exactly).** When a variable's own draws are distinct (as for a continuous distribution), its
samples after inducing the correlation are a permutation of the draws *if and only if* its target
scores are distinct. -/
theorem C30_permutation_iff_partial {C : CorrEnv K} (hA : IsArgsort C.argsort) {G : CorrGroup K}
    {cols out ts : List (List K)} {n : ℕ} (hrect : ∀ c ∈ cols, c.length = n)
    (h : G.induce C cols = .ok out) (hne : G.matrix ≠ eyeRows cols.length)
    (hts : targetScores C cols = .ok ts)
    {i : ℕ} (hi : i < cols.length) (hnd : (cols.getD i []).Nodup) :
    (out.getD i []).Perm (cols.getD i []) ↔ (ts.getD i []).Nodup := by
  rcases (induce_ok h).2 with ⟨he, _⟩ | ⟨_, ts', ht, hl, hF, _⟩
  · exact absurd he hne
  · rw [hts] at ht
    cases ht
    rw [List.forall₂_iff_get] at hF
    have hz : (cols.zip ts).length = cols.length := by simp [hl]
    have h3 := hF.2 i (by rw [hz]; exact hi) (by rw [← hF.1, hz]; exact hi)
    simp only [List.get_eq_getElem, List.getElem_zip] at h3
    have hti : i < ts.length := by omega
    rw [getD_eq_get [] hi] at hnd ⊢
    rw [getD_eq_get [] hti, getD_eq_get [] (by rw [← hF.1, hz]; exact hi)]
    have hlen : ts[i].length = cols[i].length := by
      rw [targetScores_length hts _ (List.getElem_mem _), hrect _ (List.getElem_mem hi)]
      cases cols with
      | nil => simp at hi
      | cons c cs => exact hrect c (by simp)
    refine ⟨fun hp => ?_, fun hn => sortColumn_perm hA hlen hn h3⟩
    have hond := (hp.nodup_iff).2 hnd
    refine List.nodup_iff_injective_getElem.2 fun a b hab => ?_
    have ha : a.1 < cols[i].length := by rw [← hlen]; exact a.2
    have hb : b.1 < cols[i].length := by rw [← hlen]; exact b.2
    have e1 := (sortColumn_strict hA hlen hnd h3 ha hb).2 (by
      rw [getD_eq_get 0 a.2, getD_eq_get 0 b.2]; exact le_of_eq hab)
    have e2 := (sortColumn_strict hA hlen hnd h3 hb ha).2 (by
      rw [getD_eq_get 0 a.2, getD_eq_get 0 b.2]; exact le_of_eq hab.symm)
    have hlo := (sortColumn_mono hA hlen h3).1
    have := le_antisymm e1 e2
    rw [getD_eq_get 0 (by rw [hlo]; exact ha), getD_eq_get 0 (by rw [hlo]; exact hb)] at this
    exact Fin.ext ((hond.getElem_inj_iff).1 this)

/-! ### Ties lose the largest values -/

theorem sorted_lt_of_lt_countP {S : List K} (hS : S.Pairwise (· ≤ ·)) {M : K} {k : ℕ}
    (hk : k < S.countP (fun y => decide (y < M))) : S.getD k 0 < M := by
  have hkl : k < S.length := lt_of_lt_of_le hk List.countP_le_length
  rw [getD_eq_get 0 hkl]
  by_contra hc
  have hM := not_lt.1 hc
  have hdrop : (S.drop k).countP (fun y => decide (y < M)) = 0 := by
    rw [List.countP_eq_zero]
    intro y hy
    obtain ⟨j, hj, rfl⟩ := List.mem_iff_getElem.1 hy
    rw [List.getElem_drop]
    have hj' : k + j < S.length := by simp at hj; omega
    have := sorted_getD_le hS (Nat.le_add_right k j) hj'
    rw [getD_eq_get 0 hkl, getD_eq_get 0 hj'] at this
    simp only [decide_eq_true_eq, not_lt]
    exact hM.trans this
  have := List.countP_le_length (p := fun y => decide (y < M)) (l := S.take k)
  rw [← List.take_append_drop k S, List.countP_append, hdrop] at hk
  rw [List.length_take] at this
  omega

/-- If the imposed ranks are the column's own ranks and two equal draws lie below the largest draw,
the largest draw is not among the returned samples. -/
theorem sortColumn_loses_max {argsort : List ℕ → List ℕ} (hA : IsArgsort argsort)
    {col scores out : List K} (hsame : rankMin scores = rankMin col)
    (h : sortColumn argsort col (rankMin col) (rankMin scores) = .ok out) {M : K} (hM : M ∈ col)
    (htie : ¬ (col.filter (fun y => decide (y < M))).Nodup) (hmax : ∀ y ∈ col, y ≤ M) :
    M ∉ out := by
  have hlen : scores.length = col.length := by
    rw [← rankMin_length scores, hsame, rankMin_length]
  obtain ⟨S, h1, h2, h3, h4⟩ := sortColumn_eq hA col scores hlen
  rw [h3] at h
  cases h
  intro hmem
  obtain ⟨r, hr, hrM⟩ := List.mem_map.1 hmem
  have hr' := hr
  rw [hsame, rankMin_eq] at hr'
  obtain ⟨x, hx, rfl⟩ := List.mem_map.1 hr'
  have hle : denseIdx (rankMin col ++ rankMin scores) (1 + rk col x)
      ≤ denseIdx (rankMin col ++ rankMin scores) (1 + rk col M) :=
    denseIdx_mono _ (by have := rk_mono col (hmax x hx); omega)
  have hlt : denseIdx (rankMin col ++ rankMin scores) (1 + rk col M) < rk col M := by
    unfold denseIdx
    have hsub : ((rankMin col ++ rankMin scores).dedup.filter
        (fun w => decide (w < 1 + rk col M))).length
        ≤ ((col.dedup.filter fun y => decide (y < M)).map fun y => 1 + rk col y).length := by
      refine (List.subperm_of_subset ((List.nodup_dedup _).filter _) ?_).length_le
      intro r hr
      simp only [List.mem_filter, List.mem_dedup, decide_eq_true_eq, List.mem_append, hsame,
        or_self] at hr
      obtain ⟨hr, hlt⟩ := hr
      rw [rankMin_eq] at hr
      obtain ⟨y, hy, rfl⟩ := List.mem_map.1 hr
      refine List.mem_map.2 ⟨y, ?_, rfl⟩
      simp only [List.mem_filter, List.mem_dedup, decide_eq_true_eq]
      refine ⟨hy, ?_⟩
      by_contra hc
      have := rk_mono col (not_lt.1 hc)
      omega
    rw [List.length_map] at hsub
    refine lt_of_le_of_lt hsub ?_
    have hsp : (col.dedup.filter fun y => decide (y < M)).Subperm
        (col.filter fun y => decide (y < M)) :=
      ((List.dedup_sublist col).filter _).subperm
    unfold rk
    rw [List.countP_eq_length_filter]
    refine lt_of_le_of_ne hsp.length_le fun he => htie ?_
    exact ((hsp.perm_of_length_le (le_of_eq he.symm)).nodup_iff).1 ((List.nodup_dedup col).filter _)
  have hcount : rk col M = S.countP (fun y => decide (y < M)) := (h1.countP_eq _).symm
  have := sorted_lt_of_lt_countP h2 (M := M) (by rw [← hcount]; exact lt_of_le_of_lt hle hlt)
  rw [hrM] at this
  exact lt_irrefl _ this

/-- Scores that are an increasing function of the data, scaled by a positive number, have the same
ranks as the data. -/
theorem rankMin_map_strictMono (xs : List K) (f : K → K)
    (hf : ∀ x ∈ xs, ∀ y ∈ xs, f x < f y ↔ x < y) : rankMin (xs.map f) = rankMin xs := by
  unfold rankMin
  rw [List.map_map]
  refine List.map_congr_left fun x hx => ?_
  show 1 + (xs.map f).countP (fun y => decide (y < f x)) = _
  rw [List.countP_map]
  congr 1
  refine List.countP_congr fun y hy => ?_
  simp only [Function.comp, decide_eq_true_eq]
  exact hf y hy x hx

/-- The first row of the re-correlation matrix: a positive number followed by zeros, because the
Cholesky factors are lower triangular (see `Props/TargetScores.lean`). -/
def FirstRowOwn (row : List K) : Prop := 0 < row.getD 0 0 ∧ ∀ j, 0 < j → row.getD j 0 = 0

theorem zipWith_sum_first [IsStrictOrderedRing K] (row : List K) (scores : List (List K)) (r : ℕ)
    (hrow : ∀ j, 0 < j → row.getD j 0 = 0) :
    (List.zipWith (fun a c => a * c.getD r 0) row scores).sum
      = if scores = [] then 0 else row.getD 0 0 * (scores.headD []).getD r 0 := by
  cases row with
  | nil => cases scores <;> simp
  | cons a row =>
    cases scores with
    | nil => simp
    | cons c scores =>
      have hz : ∀ (row : List K) (scores : List (List K)), (∀ j, row.getD j 0 = 0) →
          (List.zipWith (fun a c => a * c.getD r 0) row scores).sum = 0 := by
        intro row
        induction row with
        | nil => intro scores _; simp
        | cons b row ih =>
          intro scores h
          cases scores with
          | nil => simp
          | cons c scores =>
            have hb : b = 0 := by simpa using h 0
            have := ih scores (fun j => by simpa using h (j + 1))
            simp only [List.zipWith_cons_cons, List.sum_cons, this, hb]
            ring
      have := hz row scores (fun j => by simpa using hrow (j + 1) (Nat.succ_pos _))
      simp only [List.zipWith_cons_cons, List.sum_cons, this]
      simp

/-- The first variable's target scores have the ranks of its own data. -/
theorem first_target_ranks [IsStrictOrderedRing K] {C : CorrEnv K}
    (hppf : ∀ a b : K, 0 < a → b < 1 → a < b → C.ppf a < C.ppf b)
    {c : List K} {cs targets : List (List K)} (h : targetScores C (c :: cs) = .ok targets)
    (hs : ∀ s, C.recorr ((c :: cs).map (scoresOf C.ppf)) = .ok s → FirstRowOwn (s.headD []))
    (hne : targets ≠ []) : rankMin (targets.headD []) = rankMin c := by
  obtain ⟨s, hs', h⟩ := Except.bind_ok_iff.1 h
  obtain ⟨hpos, hzero⟩ := hs s hs'
  cases h
  cases s with
  | nil => simp at hne
  | cons row s =>
    have hform : combineCols c.length row ((c :: cs).map (scoresOf C.ppf))
        = c.map fun x => row.getD 0 0 * C.ppf (((1 + rk c x : ℕ) : K) / ((c.length : K) + 1)) := by
      unfold combineCols
      refine List.ext_getElem (by simp) fun i h1 h2 => ?_
      have hi : i < c.length := by simpa using h1
      rw [List.getElem_map, List.getElem_range, zipWith_sum_first row _ i hzero, List.getElem_map]
      simp only [List.map_cons, List.headD_cons, reduceCtorEq, if_false]
      congr 1
      rw [getD_eq_get 0 (by simp [scoresOf, rankMin_length, hi])]
      simp only [scoresOf, rankMin_eq, List.getElem_map]
    simp only [List.map_cons, List.headD_cons] at hform hpos ⊢
    rw [hform]
    refine rankMin_map_strictMono c _ fun x hx y hy => ?_
    have hn : (0 : K) < (c.length : K) + 1 := by positivity
    have key : ∀ x ∈ c, ∀ y ∈ c, x < y →
        C.ppf (((1 + rk c x : ℕ) : K) / ((c.length : K) + 1))
          < C.ppf (((1 + rk c y : ℕ) : K) / ((c.length : K) + 1)) := by
      intro x hx y hy hxy
      refine hppf _ _ (div_pos (by positivity) hn) ?_ ?_
      · rw [div_lt_one hn]
        have := rk_lt_length c hy
        have h2 : 1 + rk c y ≤ c.length := by omega
        have h3 : ((1 + rk c y : ℕ) : K) ≤ (c.length : K) := by exact_mod_cast h2
        linarith
      · refine div_lt_div_of_pos_right ?_ hn
        have := rk_lt c hx hxy
        exact_mod_cast (by omega : 1 + rk c x < 1 + rk c y)
    constructor
    · intro hlt
      by_contra hc
      rcases lt_or_eq_of_le (not_lt.1 hc) with h | h
      · exact absurd (mul_lt_mul_of_pos_left (key y hy x hx h) hpos) (not_lt.2 hlt.le)
      · subst h; exact lt_irrefl _ hlt
    · intro hlt
      exact mul_lt_mul_of_pos_left (key x hx y hy hlt) hpos

/-- **C30 is false of the code when the first variable's draws repeat.** Whatever the other variables,
the target matrix (not the identity), the tolerance and the sorting algorithm: if two of the first
variable's draws are equal and smaller than its largest draw, then the largest draw never appears among
its correlated samples – the marginal is changed, no error is raised. -/
theorem C30_ties_fails [IsStrictOrderedRing K] {C : CorrEnv K} (hA : IsArgsort C.argsort)
    (hppf : ∀ a b : K, 0 < a → b < 1 → a < b → C.ppf a < C.ppf b)
    {G : CorrGroup K} {c : List K} {cs out : List (List K)}
    (hs : ∀ s, C.recorr ((c :: cs).map (scoresOf C.ppf)) = .ok s → FirstRowOwn (s.headD []))
    (h : G.induce C (c :: cs) = .ok out) (hne : G.matrix ≠ eyeRows (c :: cs).length)
    {M : K} (hM : M ∈ c) (hmax : ∀ y ∈ c, y ≤ M)
    (htie : ¬ (c.filter (fun y => decide (y < M))).Nodup) :
    M ∉ out.headD [] ∧ ¬ (out.headD []).Perm c := by
  rcases (induce_ok h).2 with ⟨he, _⟩ | ⟨_, ts, ht, hl, hF, _⟩
  · exact absurd he hne
  · cases ts with
    | nil => simp at hl
    | cons t ts =>
      have hr := first_target_ranks hppf ht hs (by simp)
      simp only [List.headD_cons] at hr
      cases hF with
      | cons h1 _ =>
        have := sortColumn_loses_max hA hr h1 hM htie hmax
        simp only [List.headD_cons]
        exact ⟨this, fun hp => this (hp.mem_iff.2 hM)⟩

/-- **C31.** Sample `i` of a variable is at most sample `j` whenever target score `i` is at most target
score `j`; if the variable's draws are distinct, exactly then. -/
theorem C31_order {C : CorrEnv K} (hA : IsArgsort C.argsort) {G : CorrGroup K}
    {cols out ts : List (List K)} {n : ℕ} (hrect : ∀ c ∈ cols, c.length = n)
    (h : G.induce C cols = .ok out) (hne : G.matrix ≠ eyeRows cols.length)
    (hts : targetScores C cols = .ok ts) {v : ℕ} (hv : v < cols.length) {i j : ℕ} (hi : i < n)
    (hj : j < n) :
    (entry ts v i ≤ entry ts v j → entry out v i ≤ entry out v j) ∧
    ((cols.getD v []).Nodup → (entry out v i ≤ entry out v j ↔ entry ts v i ≤ entry ts v j)) := by
  rcases (induce_ok h).2 with ⟨he, _⟩ | ⟨_, ts', ht, hl, hF, _⟩
  · exact absurd he hne
  · rw [hts] at ht
    cases ht
    rw [List.forall₂_iff_get] at hF
    have hz : (cols.zip ts).length = cols.length := by simp [hl]
    have h3 := hF.2 v (by rw [hz]; exact hv) (by rw [← hF.1, hz]; exact hv)
    simp only [List.get_eq_getElem, List.getElem_zip] at h3
    have hlen : (ts[v]'(by omega)).length = cols[v].length := by
      rw [targetScores_length hts _ (List.getElem_mem _), hrect _ (List.getElem_mem hv)]
      cases cols with
      | nil => simp at hv
      | cons c cs => exact hrect c (by simp)
    have hcl : cols[v].length = n := hrect _ (List.getElem_mem hv)
    unfold entry
    rw [getD_eq_get [] (by omega : v < ts.length), getD_eq_get [] hv,
      getD_eq_get [] (by rw [← hF.1, hz]; exact hv : v < out.length)]
    refine ⟨(sortColumn_mono hA hlen h3).2 i j (by omega) (by omega), fun hnd => ?_⟩
    exact sortColumn_strict hA hlen hnd h3 (by omega) (by omega)

/-- **C31, ranks.** For distinct draws the ranks of the returned samples are the ranks of the target
scores, so their rank correlations are those of the target scores. -/
theorem C31_ranks {C : CorrEnv K} (hA : IsArgsort C.argsort) {G : CorrGroup K}
    {cols out ts : List (List K)} {n : ℕ} (hrect : ∀ c ∈ cols, c.length = n)
    (h : G.induce C cols = .ok out) (hne : G.matrix ≠ eyeRows cols.length)
    (hts : targetScores C cols = .ok ts) {v : ℕ} (hv : v < cols.length)
    (hnd : (cols.getD v []).Nodup) : rankMin (out.getD v []) = rankMin (ts.getD v []) := by
  have hord := fun i j (hi : i < n) (hj : j < n) =>
    (C31_order hA hrect h hne hts hv hi hj).2 hnd
  rcases (induce_ok h).2 with ⟨he, _⟩ | ⟨_, ts', ht, hl, hF, _⟩
  · exact absurd he hne
  · rw [hts] at ht
    cases ht
    rw [List.forall₂_iff_get] at hF
    have hz : (cols.zip ts).length = cols.length := by simp [hl]
    have hvo : v < out.length := by rw [← hF.1, hz]; exact hv
    have h3 := hF.2 v (by rw [hz]; exact hv) hvo
    simp only [List.get_eq_getElem, List.getElem_zip] at h3
    have hlen : (ts[v]'(by omega)).length = cols[v].length := by
      rw [targetScores_length hts _ (List.getElem_mem _), hrect _ (List.getElem_mem hv)]
      cases cols with
      | nil => simp at hv
      | cons c cs => exact hrect c (by simp)
    have hcl : cols[v].length = n := hrect _ (List.getElem_mem hv)
    have hol := (sortColumn_mono hA hlen h3).1
    unfold entry at hord
    rw [getD_eq_get [] (by omega : v < ts.length), getD_eq_get [] hvo] at hord ⊢
    set o := out[v]
    set t := ts[v]'(by omega)
    have ho : o = (List.range n).map fun i => o.getD i 0 := by
      have := map_getD_range 0 o
      rw [hol, hcl] at this
      exact this.symm
    have htt : t = (List.range n).map fun i => t.getD i 0 := by
      have := map_getD_range 0 t
      rw [hlen, hcl] at this
      exact this.symm
    have hcount : ∀ i, i < n → o.countP (fun y => decide (y < o.getD i 0))
        = t.countP (fun y => decide (y < t.getD i 0)) := by
      intro i hi
      conv_lhs => arg 2; rw [ho]
      conv_rhs => arg 2; rw [htt]
      rw [List.countP_map, List.countP_map]
      refine List.countP_congr fun j hj => ?_
      simp only [Function.comp, decide_eq_true_eq]
      rw [← not_le, ← not_le]
      exact not_congr (hord i j hi (List.mem_range.1 hj))
    refine List.ext_getElem (by rw [rankMin_length, rankMin_length]; omega) fun i h1 h2 => ?_
    rw [rankMin_length] at h1 h2
    have hi : i < n := by omega
    have := hcount i hi
    rw [getD_eq_get 0 h1, getD_eq_get 0 h2] at this
    simp only [rankMin, List.getElem_map]
    rw [this]

/-- **C36 (tolerance non-zero, target not the identity).** Every joint sample that is returned has
empirical rank correlations within the tolerance: for two variables their correlation, for more all
pairs. -/
theorem C36_tolerance_partial {C : CorrEnv K} {G : CorrGroup K} {cols out : List (List K)} {t : K}
    (h : G.induce C cols = .ok out) (hne : G.matrix ≠ eyeRows cols.length) (ht : G.tol = some t)
    (h0 : t ≠ 0) {i j : ℕ} (hi : i < cols.length) (hj : j < cols.length)
    (hij : i < j ∨ 2 < cols.length) :
    |C.rho (out.getD i []) (out.getD j []) - entry G.matrix i j| ≤ t := by
  rcases (induce_ok h).2 with ⟨he, _⟩ | ⟨_, ts', _, hl, hF, hw⟩
  · exact absurd he hne
  · have hlen : out.length = cols.length := by
      rw [← hF.length_eq]; simp [hl]
    have hw := hw t ht h0
    unfold withinTolerance at hw
    rw [hlen] at hw
    split at hw
    · rename_i h2
      have : i = 0 ∧ j = 1 := by omega
      rw [this.1, this.2]
      exact of_decide_eq_true hw
    · rw [List.all_eq_true] at hw
      have := hw i (List.mem_range.2 hi)
      rw [List.all_eq_true] at this
      exact of_decide_eq_true (this j (List.mem_range.2 hj))

/-- **C36, the error.** When the reordered samples miss the tolerance, RuntimeError is raised. -/
theorem C36_error_partial {C : CorrEnv K} {G : CorrGroup K} {cols out : List (List K)} {t : K}
    {G' : CorrGroup K} (hG' : G' = { G with tol := none }) (h : G'.induce C cols = .ok out)
    (hne : G.matrix ≠ eyeRows cols.length) (ht : G.tol = some t) (h0 : t ≠ 0) :
    (withinTolerance C.rho G.matrix t out = false → G.induce C cols = .error .runtimeError) ∧
    (withinTolerance C.rho G.matrix t out = true → G.induce C cols = .ok out) := by
  subst hG'
  unfold CorrGroup.induce at h ⊢
  simp only at h
  split at h
  · cases h
  · rename_i hdiv
    rw [if_neg hdiv, if_neg hne]
    obtain ⟨ts, hts, h⟩ := Except.bind_ok_iff.1 h
    rw [hts]
    show (_ → (if ts.length ≠ cols.length then _ else _) = _) ∧
      (_ → (if ts.length ≠ cols.length then _ else _) = _)
    split at h
    · cases h
    · rename_i hl
      rw [if_neg hl]
      obtain ⟨o, ho, h⟩ := Except.bind_ok_iff.1 h
      cases h
      rw [ho, ht]
      constructor
      · intro hw
        show (if t = 0 then _ else if withinTolerance C.rho G.matrix t out = true then _ else _) = _
        rw [if_neg h0, if_neg (by rw [hw]; exact Bool.false_ne_true)]
      · intro hw
        show (if t = 0 then _ else if withinTolerance C.rho G.matrix t out = true then _ else _) = _
        rw [if_neg h0, if_pos hw]

end Verif
