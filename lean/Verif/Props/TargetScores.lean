import Verif.Props.Correlation
import Verif.Spec.Pearson
import Mathlib.LinearAlgebra.Matrix.Block
import Mathlib.Tactic.FieldSimp
import Mathlib.Algebra.BigOperators.Field

/-!
# The scores whose ranks are imposed: C73

`IsRecorr` says what `scipy.linalg.cholesky`, `np.corrcoef` and `np.linalg.inv` compute; under it the
first variable's target scores are its own scores, and for distinct draws the target scores have exactly
the requested (Pearson) correlations.
-/

namespace Verif

open Finset Verif.Spec

variable {K : Type} [Field K] [LinearOrder K] [IsStrictOrderedRing K]

theorem Spec.IsCholesky.det_ne {m : ℕ} {q t : Matrix (Fin m) (Fin m) K} (h : IsCholesky q t) :
    IsUnit q.det := by
  have : q.det = ∏ i, q i i := Matrix.det_of_lowerTriangular q (by
    intro i j hij
    exact h.lower i j (by simpa using hij))
  rw [this]
  exact IsUnit.mk0 _ (Finset.prod_ne_zero_iff.2 fun i _ => (h.pos i).ne')

/-- `s t sᵀ = c`. -/
theorem Spec.IsRecorr.congr {m : ℕ} {c t s : Matrix (Fin m) (Fin m) K} (h : IsRecorr c t s) :
    s * t * s.transpose = c := by
  obtain ⟨p, q, hp, hq, rfl⟩ := h
  have hu := hq.det_ne
  have hut : IsUnit q.transpose.det := by rwa [Matrix.det_transpose]
  rw [← hq.mul, Matrix.transpose_mul, Matrix.transpose_nonsing_inv]
  calc p * q⁻¹ * (q * q.transpose) * (q.transpose⁻¹ * p.transpose)
      = p * (q⁻¹ * q) * (q.transpose * q.transpose⁻¹) * p.transpose := by
        simp only [Matrix.mul_assoc]
    _ = c := by
        rw [Matrix.nonsing_inv_mul _ hu, Matrix.mul_nonsing_inv _ hut]
        simp [hp.mul]

/-- The first row of the re-correlation matrix. -/
theorem Spec.IsRecorr.first {m : ℕ} {c t s : Matrix (Fin (m + 1)) (Fin (m + 1)) K} (h : IsRecorr c t s) :
    0 < s 0 0 ∧ ∀ j, j ≠ 0 → s 0 j = 0 := by
  obtain ⟨p, q, hp, hq, rfl⟩ := h
  have hq0 : ∀ j, q 0 0 * q⁻¹ 0 j = if 0 = j then 1 else 0 := by
    intro j
    have := congrFun (congrFun (Matrix.mul_nonsing_inv q hq.det_ne) 0) j
    rw [Matrix.mul_apply, Finset.sum_eq_single 0, Matrix.one_apply] at this
    · exact this
    · intro k _ hk
      rw [hq.lower 0 k (Fin.pos_of_ne_zero hk), zero_mul]
    · intro hk; simp at hk
  have hrow : ∀ j, (p * q⁻¹) 0 j = p 0 0 * q⁻¹ 0 j := by
    intro j
    rw [Matrix.mul_apply, Finset.sum_eq_single 0]
    · intro k _ hk
      rw [hp.lower 0 k (Fin.pos_of_ne_zero hk), zero_mul]
    · intro hk; simp at hk
  constructor
  · rw [hrow]
    have h1 := hq0 0
    rw [if_pos rfl] at h1
    refine mul_pos (hp.pos 0) ?_
    by_contra hc
    have := mul_nonpos_of_nonneg_of_nonpos (hq.pos 0).le (not_lt.1 hc)
    rw [h1] at this
    exact absurd this (not_le.2 one_pos)
  · intro j hj
    rw [hrow]
    have h1 := hq0 j
    rw [if_neg (Ne.symm hj)] at h1
    rcases mul_eq_zero.1 h1 with h | h
    · exact absurd h (hq.pos 0).ne'
    · rw [h, mul_zero]

/-! ### The oracle used by the model meets the specification -/

/-- Column `i` of the data as a function. -/
def colFn (cols : List (List K)) (i r : ℕ) : K := (cols.getD i []).getD r 0

/-- `C.recorr` computes the re-correlation matrix for the requested matrix `M`: for some matrix `t` of
Pearson correlations of the scores, its result is `p q⁻¹`. -/
def RecorrSound (C : CorrEnv K) (M : List (List K)) : Prop :=
  ∀ scores s, C.recorr scores = .ok s → s.length = scores.length ∧
    (∀ row ∈ s, row.length = scores.length) ∧
    ∃ t : Matrix (Fin scores.length) (Fin scores.length) K,
      (∀ i j : Fin scores.length,
        HasCorr (scores.headD []).length (colFn scores i) (colFn scores j) (t i j)) ∧
      IsRecorr (Matrix.of fun i j => entry M i j) t (Matrix.of fun i j => entry s i j)

theorem RecorrSound.firstRow {C : CorrEnv K} {M : List (List K)} (h : RecorrSound C M)
    {scores s : List (List K)} (hs : C.recorr scores = .ok s) (hne : scores ≠ []) :
    FirstRowOwn (s.headD []) := by
  obtain ⟨h1, h2, t, _, h3⟩ := h scores s hs
  obtain ⟨m, hm⟩ : ∃ m, scores.length = m + 1 :=
    Nat.exists_eq_succ_of_ne_zero (by simpa using hne)
  have key : ∀ (k : ℕ) (t : Matrix (Fin k) (Fin k) K), k = m + 1 →
      IsRecorr (Matrix.of fun i j : Fin k => entry M i j) t
        (Matrix.of fun i j : Fin k => entry s i j) →
      0 < entry s 0 0 ∧ ∀ j, 0 < j → j < m + 1 → entry s 0 j = 0 := by
    intro k t hk h
    subst hk
    obtain ⟨a, b⟩ := h.first
    refine ⟨by simpa using a, fun j hj hjm => ?_⟩
    have := b ⟨j, hjm⟩ (by intro he; rw [Fin.ext_iff] at he; simp at he; omega)
    simpa using this
  obtain ⟨a, b⟩ := key _ t hm h3
  have hhead : s.headD [] = s.getD 0 [] := by cases s <;> rfl
  rw [FirstRowOwn, hhead]
  refine ⟨a, fun j hj => ?_⟩
  by_cases hjm : j < m + 1
  · exact b j hj hjm
  · cases s with
    | nil => simp
    | cons row s =>
      have := h2 row (by simp)
      rw [List.getD_cons_zero, List.getD_eq_getElem?_getD, List.getElem?_eq_none (by omega)]
      rfl

/-- **C30 is false of the code** (as `C30_ties_fails`, with the linear algebra specified instead of
assumed): if two of the first variable's draws are equal and smaller than its largest draw, its largest
draw is lost. -/
theorem C30_ties_recorr_fails {C : CorrEnv K} (hA : IsArgsort C.argsort)
    (hppf : ∀ a b : K, 0 < a → b < 1 → a < b → C.ppf a < C.ppf b)
    {G : CorrGroup K} (hR : RecorrSound C G.matrix) {c : List K} {cs out : List (List K)}
    (h : G.induce C (c :: cs) = .ok out) (hne : G.matrix ≠ eyeRows (c :: cs).length)
    {M : K} (hM : M ∈ c) (hmax : ∀ y ∈ c, y ≤ M)
    (htie : ¬ (c.filter (fun y => decide (y < M))).Nodup) :
    M ∉ out.headD [] ∧ ¬ (out.headD []).Perm c :=
  C30_ties_fails hA hppf (fun _ hs => hR.firstRow hs (by simp)) h hne hM hmax htie

/-! ### Linear combinations -/

theorem combineCols_getD {n : ℕ} {row : List K} {scores : List (List K)} {r : ℕ} (hr : r < n) :
    (combineCols n row scores).getD r 0
      = ∑ k ∈ range scores.length, row.getD k 0 * colFn scores k r := by
  rw [getD_eq_get 0 (by simp [combineCols, hr])]
  simp only [combineCols, List.getElem_map, List.getElem_range]
  induction scores generalizing row with
  | nil => simp
  | cons c scores ih =>
    cases row with
    | nil => simp
    | cons a row =>
      rw [List.zipWith_cons_cons, List.sum_cons, ih, List.length_cons, Finset.sum_range_succ']
      simp only [colFn, List.getD_cons_succ, List.getD_cons_zero]
      ring

theorem mean_comb (n m : ℕ) (a : ℕ → K) (x : ℕ → ℕ → K) :
    mean n (fun r => ∑ k ∈ range m, a k * x k r) = ∑ k ∈ range m, a k * mean n (x k) := by
  unfold mean
  rw [Finset.sum_comm, Finset.sum_div]
  refine Finset.sum_congr rfl fun k _ => ?_
  rw [← Finset.mul_sum, mul_div_assoc]

theorem codev_comb (n m : ℕ) (a b : ℕ → K) (x : ℕ → ℕ → K) :
    codev n (fun r => ∑ k ∈ range m, a k * x k r) (fun r => ∑ k ∈ range m, b k * x k r)
      = ∑ k ∈ range m, ∑ l ∈ range m, a k * codev n (x k) (x l) * b l := by
  unfold codev
  rw [mean_comb, mean_comb]
  have h : ∀ (a : ℕ → K) r, (∑ k ∈ range m, a k * x k r) - ∑ k ∈ range m, a k * mean n (x k)
      = ∑ k ∈ range m, a k * (x k r - mean n (x k)) := by
    intro a r
    rw [← Finset.sum_sub_distrib]
    refine Finset.sum_congr rfl fun k _ => ?_
    ring
  simp only [h]
  rw [Finset.sum_congr rfl fun r _ => Finset.sum_mul_sum _ _ _ _, Finset.sum_comm]
  simp only [Finset.mul_sum, Finset.sum_mul]
  refine Finset.sum_congr rfl fun k _ => ?_
  rw [Finset.sum_comm]
  refine Finset.sum_congr rfl fun l _ => Finset.sum_congr rfl fun r _ => ?_
  ring

theorem codev_congr {n : ℕ} {x x' y y' : ℕ → K} (hx : ∀ r, r < n → x r = x' r)
    (hy : ∀ r, r < n → y r = y' r) : codev n x y = codev n x' y' := by
  have mx : mean n x = mean n x' := by
    unfold mean; rw [Finset.sum_congr rfl fun r hr => hx r (Finset.mem_range.1 hr)]
  have my : mean n y = mean n y' := by
    unfold mean; rw [Finset.sum_congr rfl fun r hr => hy r (Finset.mem_range.1 hr)]
  unfold codev
  rw [mx, my]
  refine Finset.sum_congr rfl fun r hr => ?_
  rw [hx r (Finset.mem_range.1 hr), hy r (Finset.mem_range.1 hr)]

theorem sum_range_getD (l : List K) (f : K → K) :
    ∑ r ∈ range l.length, f (l.getD r 0) = (l.map f).sum := by
  conv_rhs => rw [← map_getD_range 0 l, List.map_map]
  rfl

/-- The sum of squared deviations only depends on the values, not on their order. -/
theorem codev_perm {l l' : List K} (h : l.Perm l') :
    codev l.length (fun r => l.getD r 0) (fun r => l.getD r 0)
      = codev l'.length (fun r => l'.getD r 0) (fun r => l'.getD r 0) := by
  have hm : ∀ l : List K, mean l.length (fun r => l.getD r 0) = l.sum / l.length := by
    intro l
    unfold mean
    have := sum_range_getD l id
    simp only [id, List.map_id'] at this
    rw [this]
    simp
  have hc : ∀ l : List K, codev l.length (fun r => l.getD r 0) (fun r => l.getD r 0)
      = (l.map fun x => (x - l.sum / l.length) * (x - l.sum / l.length)).sum := by
    intro l
    unfold codev
    rw [hm]
    exact sum_range_getD l fun x => (x - l.sum / l.length) * (x - l.sum / l.length)
  rw [hc, hc, h.sum_eq, h.length_eq]
  exact (h.map _).sum_eq

theorem scoresOf_length (ppf : K → K) (c : List K) : (scoresOf ppf c).length = c.length := by
  simp [scoresOf, rankMin_length]

theorem scoresOf_perm (ppf : K → K) {c c' : List K} (hl : c.length = c'.length) (h : c.Nodup)
    (h' : c'.Nodup) : (scoresOf ppf c).Perm (scoresOf ppf c') := by
  unfold scoresOf
  rw [hl]
  exact ((rankMin_perm h).trans (by rw [hl]; exact (rankMin_perm h').symm)).map _

/-- Two positive numbers with the same square are equal. -/
theorem pos_sq_inj {a b : K} (ha : 0 < a) (hb : 0 < b) (h : a * a = b * b) : a = b := by
  rcases mul_self_eq_mul_self_iff.1 h with h | h
  · exact h
  · linarith

/-- **C73.** If every variable's draws are distinct (any number `n` of draws and of variables), the
target scores – whose ranks the samples receive, `C31_ranks` – have exactly the requested pairwise
Pearson correlations. -/
theorem C73_target_correlation {C : CorrEnv K} {G : CorrGroup K} (hR : RecorrSound C G.matrix)
    {cols ts : List (List K)} {n : ℕ} (hrect : ∀ c ∈ cols, c.length = n)
    (hnd : ∀ c ∈ cols, c.Nodup) (hdiag : ∀ i, i < cols.length → entry G.matrix i i = 1)
    (hts : targetScores C cols = .ok ts) {i j : ℕ} (hi : i < cols.length) (hj : j < cols.length) :
    HasCorr n (colFn ts i) (colFn ts j) (entry G.matrix i j) := by
  obtain ⟨s, hs, h⟩ := Except.bind_ok_iff.1 hts
  cases h
  obtain ⟨scores, hscores⟩ : ∃ scores, scores = cols.map (scoresOf C.ppf) := ⟨_, rfl⟩
  rw [← hscores] at hs ⊢
  obtain ⟨hsl, hrow, t, ht, hI⟩ := hR _ s hs
  have hlen : scores.length = cols.length := by simp [hscores]
  have hcol : ∀ k, k < cols.length → (cols.getD k []).length = n ∧ (cols.getD k []).Nodup ∧
      scores.getD k [] = scoresOf C.ppf (cols.getD k []) := by
    intro k hk
    rw [getD_eq_get [] hk, getD_eq_get [] (by omega : k < scores.length)]
    exact ⟨hrect _ (List.getElem_mem _), hnd _ (List.getElem_mem _), by simp [hscores]⟩
  have hn0 : (cols.headD []).length = n := by
    have := (hcol 0 (by omega)).1
    cases cols <;> simpa using this
  have hn1 : (scores.headD []).length = n := by
    have := (hcol 0 (by omega))
    have h2 : scores.headD [] = scores.getD 0 [] := by cases scores <;> rfl
    rw [h2, this.2.2, scoresOf_length, this.1]
  -- all score columns have the same sum of squared deviations
  have hv : ∀ k, k < cols.length → codev n (colFn scores k) (colFn scores k)
      = codev n (colFn scores i) (colFn scores i) := by
    intro k hk
    obtain ⟨a1, a2, a3⟩ := hcol k hk
    obtain ⟨b1, b2, b3⟩ := hcol i hi
    have := codev_perm (scoresOf_perm C.ppf (a1.trans b1.symm) a2 b2)
    rw [scoresOf_length, scoresOf_length, a1, b1] at this
    unfold colFn
    rw [a3, b3]
    exact this
  rw [hn1] at ht
  obtain ⟨sd, _, hsd, _, hsd2, _, _⟩ := ht ⟨i, by omega⟩ ⟨i, by omega⟩
  have hkl : ∀ k l (hk : k < scores.length) (hl : l < scores.length),
      codev n (colFn scores k) (colFn scores l) = t ⟨k, hk⟩ ⟨l, hl⟩ * (sd * sd) := by
    intro k l hk hl
    obtain ⟨x, y, hx, hy, hx2, hy2, hxy⟩ := ht ⟨k, hk⟩ ⟨l, hl⟩
    rw [hv k (by omega), ← hsd2] at hx2
    rw [hv l (by omega), ← hsd2] at hy2
    rw [pos_sq_inj hx hsd hx2, pos_sq_inj hy hsd hy2] at hxy
    exact hxy
  have htarget : ∀ k, k < cols.length → ∀ r, r < n →
      colFn (s.map fun row => combineCols (cols.headD []).length row scores) k r
        = ∑ l ∈ range scores.length, entry s k l * colFn scores l r := by
    intro k hk r hr
    have hks : k < s.length := by omega
    unfold colFn
    rw [getD_eq_get [] (by simpa using hks), List.getElem_map]
    simp only [hn0]
    rw [combineCols_getD hr]
    unfold entry
    rw [getD_eq_get [] hks]
    rfl
  have hcodev : ∀ a b, a < cols.length → b < cols.length →
      codev n (colFn (s.map fun row => combineCols (cols.headD []).length row scores) a)
        (colFn (s.map fun row => combineCols (cols.headD []).length row scores) b)
      = entry G.matrix a b * (sd * sd) := by
    intro a b ha hb
    rw [codev_congr (htarget a ha) (htarget b hb), codev_comb]
    have hc := congrFun (congrFun hI.congr ⟨a, by omega⟩) ⟨b, by omega⟩
    simp only [Matrix.of_apply] at hc
    rw [← hc, Matrix.mul_apply, Finset.sum_mul, Finset.sum_comm, Finset.sum_range]
    refine Finset.sum_congr rfl fun l _ => ?_
    rw [Matrix.mul_apply, Finset.sum_mul, Finset.sum_mul, Finset.sum_range]
    refine Finset.sum_congr rfl fun k _ => ?_
    rw [hkl k l k.2 l.2]
    simp only [Matrix.of_apply, Matrix.transpose_apply]
    ring
  refine ⟨sd, sd, hsd, hsd, ?_, ?_, hcodev i j hi hj⟩
  · rw [hcodev i i hi hi, hdiag i hi, one_mul]
  · rw [hcodev j j hj hj, hdiag j hj, one_mul]

end Verif
