import Verif.Props.Correlation
import Verif.Spec.RowBlind
import Mathlib.Data.Fin.Tuple.Sort
import Mathlib.Data.Fintype.Card

/-!
# How inducing a correlation treats rows and order

Two facts about `CorrGroup.induce`: exchanging the rows of the data exchanges the rows of the result, and the
result is a selection of positions that depends on the data only through the order within each column.
-/

namespace Verif

open Spec

section

set_option linter.unusedSectionVars false

variable {K : Type} [Field K] [LinearOrder K] {m n : ℕ}

theorem Spec.SameOrder.symm {x y : Fin n → K} (h : SameOrder x y) : SameOrder y x := fun a b => (h a b).symm

theorem Spec.SameOrder.le {x y : Fin n → K} (h : SameOrder x y) (a b : Fin n) : x a ≤ x b ↔ y a ≤ y b := by
  rw [← not_lt, ← not_lt]
  exact not_congr (h b a)

theorem colsOf_inj {X Y : Fin m → Fin n → K} (h : colsOf X = colsOf Y) : X = Y := by
  have := List.ofFn_injective h
  funext j
  exact List.ofFn_injective (congrFun this j)

theorem countP_ofFn_card {α : Type} (x : Fin n → α) (p : α → Bool) :
    (List.ofFn x).countP p = (Finset.univ.filter fun i => p (x i) = true).card := by
  rw [List.ofFn_eq_map, List.countP_map, Finset.card_def, Finset.filter_val]
  show _ = (Multiset.filter _ (Finset.univ : Finset (Fin n)).val).card
  rw [← Multiset.countP_eq_card_filter]
  have : (Finset.univ : Finset (Fin n)).val = (List.finRange n : Multiset (Fin n)) := rfl
  rw [this, Multiset.coe_countP]
  refine List.countP_congr fun i _ => ?_
  simp

/-- Rank of a sample. -/
def rkF (x : Fin n → K) (i : Fin n) : ℕ := 1 + (Finset.univ.filter fun j => x j < x i).card

theorem rankMin_ofFn (x : Fin n → K) : rankMin (List.ofFn x) = List.ofFn (rkF x) := by
  unfold rankMin rkF
  rw [List.map_ofFn]
  congr 1
  funext i
  simp only [Function.comp, countP_ofFn_card, decide_eq_true_eq]

theorem rkF_perm (x : Fin n → K) (σ : Equiv.Perm (Fin n)) : rkF (x ∘ σ) = rkF x ∘ σ := by
  funext i
  simp only [rkF, Function.comp]
  congr 1
  refine Finset.card_bij (fun j _ => σ j) ?_ ?_ ?_
  · intro j hj
    simpa using hj
  · intro a _ b _ h
    exact σ.injective h
  · intro b hb
    exact ⟨σ.symm b, by simpa using hb, by simp⟩

theorem rkF_order {x y : Fin n → K} (h : SameOrder x y) : rkF x = rkF y := by
  funext i
  simp only [rkF, h _ i]

theorem rkF_lt_iff (x : Fin n → K) (a b : Fin n) : rkF x a < rkF x b ↔ x a < x b := by
  constructor
  · intro h
    by_contra hc
    have : (Finset.univ.filter fun j => x j < x b).card ≤ (Finset.univ.filter fun j => x j < x a).card := by
      refine Finset.card_le_card fun j hj => ?_
      simp only [Finset.mem_filter, Finset.mem_univ, true_and] at hj ⊢
      exact lt_of_lt_of_le hj (not_lt.1 hc)
    unfold rkF at h
    omega
  · intro h
    have : (Finset.univ.filter fun j => x j < x a).card < (Finset.univ.filter fun j => x j < x b).card := by
      refine Finset.card_lt_card ⟨fun j hj => ?_, fun hc => ?_⟩
      · simp only [Finset.mem_filter, Finset.mem_univ, true_and] at hj ⊢
        exact hj.trans h
      · have := hc (show a ∈ _ by simpa using h)
        simp at this
    unfold rkF
    omega

/-! ### The pieces -/

theorem dedup_perm_length {α : Type} [DecidableEq α] {l l' : List α} (h : l.Perm l') :
    l.dedup.length = l'.dedup.length := (h.dedup).length_eq

theorem ofFn_perm (x : Fin n → K) (σ : Equiv.Perm (Fin n)) : (List.ofFn (x ∘ σ)).Perm (List.ofFn x) :=
  Equiv.Perm.ofFn_comp_perm σ x

theorem diverse_rows (k : ℕ) (x : Fin n → K) (σ : Equiv.Perm (Fin n)) :
    sufficientlyDiverse k (List.ofFn (x ∘ σ)) = sufficientlyDiverse k (List.ofFn x) := by
  unfold sufficientlyDiverse
  rw [dedup_perm_length (ofFn_perm x σ), List.length_ofFn, List.length_ofFn]

theorem dedup_length_order (x : Fin n → K) :
    (List.ofFn x).dedup.length = (List.ofFn (rkF x)).dedup.length := by
  rw [← List.toFinset_card_of_nodup (List.nodup_dedup _), ← List.toFinset_card_of_nodup (List.nodup_dedup _)]
  have h1 : ∀ {α : Type} [DecidableEq α] (f : Fin n → α), (List.ofFn f).dedup.toFinset = Finset.univ.image f := by
    intro α _ f
    ext v
    simp [List.mem_ofFn]
  rw [h1, h1]
  refine Finset.card_bij (fun v _ => 1 + (Finset.univ.filter fun j => x j < v).card) ?_ ?_ ?_
  · intro v hv
    obtain ⟨i, -, rfl⟩ := Finset.mem_image.1 hv
    exact Finset.mem_image.2 ⟨i, Finset.mem_univ _, rfl⟩
  · intro v hv w hw h
    obtain ⟨i, -, rfl⟩ := Finset.mem_image.1 hv
    obtain ⟨j, -, rfl⟩ := Finset.mem_image.1 hw
    have h' : rkF x i = rkF x j := h
    rcases lt_trichotomy (x i) (x j) with h1 | h1 | h1
    · have := (rkF_lt_iff x i j).2 h1; omega
    · exact h1
    · have := (rkF_lt_iff x j i).2 h1; omega
  · intro v hv
    obtain ⟨i, -, rfl⟩ := Finset.mem_image.1 hv
    exact ⟨x i, Finset.mem_image.2 ⟨i, Finset.mem_univ _, rfl⟩, rfl⟩

theorem diverse_order (k : ℕ) {x y : Fin n → K} (h : SameOrder x y) :
    sufficientlyDiverse k (List.ofFn x) = sufficientlyDiverse k (List.ofFn y) := by
  unfold sufficientlyDiverse
  rw [dedup_length_order x, dedup_length_order y, rkF_order h, List.length_ofFn, List.length_ofFn]

/-- Scores as a table. -/
def scoreF (ppf : K → K) (X : Fin m → Fin n → K) (j : Fin m) (r : Fin n) : K :=
  ppf ((rkF (X j) r : K) / ((n : K) + 1))

theorem scores_colsOf (ppf : K → K) (X : Fin m → Fin n → K) :
    (colsOf X).map (scoresOf ppf) = colsOf (scoreF ppf X) := by
  unfold colsOf
  rw [List.map_ofFn]
  congr 1
  funext j
  simp only [Function.comp, scoresOf, rankMin_ofFn, List.map_ofFn, List.length_ofFn]
  rfl

theorem scoreF_rows (ppf : K → K) (X : Fin m → Fin n → K) (σ : Equiv.Perm (Fin n)) :
    scoreF ppf (fun j => X j ∘ σ) = fun j => scoreF ppf X j ∘ σ := by
  funext j r
  simp only [scoreF, rkF_perm, Function.comp]

theorem scoreF_order (ppf : K → K) {X Y : Fin m → Fin n → K} (h : ∀ j, SameOrder (X j) (Y j)) :
    scoreF ppf X = scoreF ppf Y := by
  funext j r
  simp only [scoreF, rkF_order (h j)]

/-- One row of target scores. -/
def combF (row : List K) (Z : Fin m → Fin n → K) (r : Fin n) : K :=
  (List.zipWith (fun a c => a * c.getD r.1 0) row (colsOf Z)).sum

theorem combineCols_colsOf (row : List K) (Z : Fin m → Fin n → K) :
    combineCols n row (colsOf Z) = List.ofFn (combF row Z) := by
  unfold combineCols
  refine List.ext_getElem (by simp) fun i h1 h2 => ?_
  simp [combF]

theorem combF_rows (row : List K) (Z : Fin m → Fin n → K) (σ : Equiv.Perm (Fin n)) :
    combF row (fun j => Z j ∘ σ) = combF row Z ∘ σ := by
  funext r
  unfold combF colsOf
  simp only [Function.comp]
  congr 1
  rw [List.ofFn_eq_map, List.ofFn_eq_map, List.zipWith_map_right, List.zipWith_map_right]
  congr 1
  funext a j
  congr 1
  rw [List.getD_eq_getElem?_getD, List.getD_eq_getElem?_getD, List.getElem?_ofFn, List.getElem?_ofFn,
    dif_pos r.2, dif_pos (σ r).2]
  rfl

theorem denseIdx_set {all all' : List ℕ} (h : ∀ v, v ∈ all ↔ v ∈ all') (v : ℕ) :
    denseIdx all v = denseIdx all' v := by
  unfold denseIdx
  have hp : all.dedup.Perm all'.dedup := by
    rw [List.perm_ext_iff_of_nodup (List.nodup_dedup _) (List.nodup_dedup _)]
    intro a
    simp [h]
  exact (hp.filter _).length_eq

/-- The dense position of each target rank. -/
def posF (x t : Fin n → K) (r : Fin n) : ℕ :=
  denseIdx (List.ofFn (rkF x) ++ List.ofFn (rkF t)) (rkF t r)

theorem posF_lt (x t : Fin n → K) (r : Fin n) : posF x t r < n := by
  have hall : ∀ v ∈ List.ofFn (rkF x) ++ List.ofFn (rkF t), 1 ≤ v ∧ v ≤ n := by
    intro v hv
    rw [← rankMin_ofFn, ← rankMin_ofFn] at hv
    rcases List.mem_append.1 hv with h | h
    · simpa using mem_rankMin h
    · simpa using mem_rankMin h
  have := hall (rkF t r) (List.mem_append_right _ (List.mem_ofFn.2 ⟨r, rfl⟩))
  exact denseIdx_lt_length hall this.1 this.2

/-- The position whose value goes to place `r`. -/
def takeF (x t : Fin n → K) (r : Fin n) : Fin n := Tuple.sort x ⟨posF x t r, posF_lt x t r⟩

theorem sorted_unique (x : Fin n → K) {S : List K} (hp : S.Perm (List.ofFn x)) (hs : S.Pairwise (· ≤ ·)) :
    S = List.ofFn (x ∘ Tuple.sort x) := by
  refine List.Perm.eq_of_pairwise ?_ hs ?_ (hp.trans (ofFn_perm x (Tuple.sort x)).symm)
  · intro a b _ _ h1 h2
    exact le_antisymm h1 h2
  · rw [List.pairwise_ofFn]
    exact fun i j hij => Tuple.monotone_sort x hij.le

theorem sortColumn_ofFn {argsort : List ℕ → List ℕ} (hA : IsArgsort argsort) (x t : Fin n → K) :
    sortColumn argsort (List.ofFn x) (rankMin (List.ofFn x)) (rankMin (List.ofFn t))
      = .ok (List.ofFn (x ∘ takeF x t)) := by
  obtain ⟨S, h1, h2, h3, -⟩ := sortColumn_eq hA (List.ofFn x) (List.ofFn t) (by simp)
  rw [h3, sorted_unique x h1 h2, rankMin_ofFn, rankMin_ofFn, List.map_ofFn]
  congr 2
  funext r
  have := posF_lt x t r
  simp only [Function.comp, takeF]
  rw [List.getD_eq_getElem?_getD, List.getElem?_ofFn]
  unfold posF at this
  rw [dif_pos this]
  rfl

theorem takeF_rows (x t : Fin n → K) (σ : Equiv.Perm (Fin n)) :
    (x ∘ σ) ∘ takeF (x ∘ σ) (t ∘ σ) = (x ∘ takeF x t) ∘ σ := by
  funext r
  have hpos : posF (x ∘ σ) (t ∘ σ) r = posF x t (σ r) := by
    unfold posF
    rw [rkF_perm, rkF_perm]
    refine denseIdx_set (fun v => ?_) _
    simp only [List.mem_append, List.mem_ofFn, Function.comp]
    have : ∀ f : Fin n → ℕ, (∃ i, f (σ i) = v) ↔ ∃ i, f i = v := fun f =>
      ⟨fun ⟨i, h⟩ => ⟨σ i, h⟩, fun ⟨i, h⟩ => ⟨σ.symm i, by simpa using h⟩⟩
    rw [this, this]
  have hs := congrFun (Tuple.comp_perm_comp_sort_eq_comp_sort (f := x) (σ := σ))
    ⟨posF x t (σ r), posF_lt x t (σ r)⟩
  simp only [takeF, Function.comp] at hs ⊢
  simp only [hpos]
  exact hs

theorem takeF_order {x y : Fin n → K} (h : SameOrder x y) (t : Fin n → K) :
    y ∘ takeF y t = y ∘ takeF x t := by
  have hs : y ∘ Tuple.sort x = y ∘ Tuple.sort y := by
    rw [Tuple.comp_sort_eq_comp_iff_monotone.2]
    intro a b hab
    exact (h.le _ _).1 (Tuple.monotone_sort x hab)
  have hpos : posF y t = posF x t := by
    funext r
    unfold posF
    rw [rkF_order h]
  funext r
  have := congrFun hs ⟨posF x t r, posF_lt x t r⟩
  simp only [takeF, Function.comp] at this ⊢
  simp only [hpos]
  exact this.symm

/-! ### The whole -/

/-- The reordered table, given the re-correlation matrix. -/
def outF (C : CorrEnv K) (s : List (List K)) (X : Fin m → Fin n → K) (j : Fin m) : Fin n → K :=
  X j ∘ takeF (X j) (combF (s.getD j.1 []) (scoreF C.ppf X))

/-- `induce_correlation` written with tables instead of lists of columns. -/
theorem induce_form {C : CorrEnv K} (hA : IsArgsort C.argsort) (G : CorrGroup K) (hm : 0 < m)
    (X : Fin m → Fin n → K) :
    G.induce C (colsOf X) =
      if ∃ j, sufficientlyDiverse G.minUnique (List.ofFn (X j)) = false then .error .valueError
      else if G.matrix = eyeRows m then .ok (colsOf X)
      else (C.recorr (colsOf (scoreF C.ppf X))).bind fun s =>
        if s.length ≠ m then .error .assertionError
        else match G.tol with
          | some t => if t = 0 then .ok (colsOf (outF C s X))
            else if withinTolerance C.rho G.matrix t (colsOf (outF C s X)) then .ok (colsOf (outF C s X))
            else .error .runtimeError
          | none => .ok (colsOf (outF C s X)) := by
  have hlen : (colsOf X).length = m := by simp [colsOf]
  have hhead : ((colsOf X).headD []).length = n := by
    obtain ⟨k, rfl⟩ : ∃ k, m = k + 1 := ⟨m - 1, by omega⟩
    simp [colsOf, List.ofFn_succ]
  unfold CorrGroup.induce
  have hany : (colsOf X).any (fun c => !sufficientlyDiverse G.minUnique c) = true ↔
      ∃ j, sufficientlyDiverse G.minUnique (List.ofFn (X j)) = false := by
    simp [colsOf, List.any_eq_true, List.mem_ofFn]
  by_cases hd : ∃ j, sufficientlyDiverse G.minUnique (List.ofFn (X j)) = false
  · rw [if_pos (hany.2 hd), if_pos hd]
  rw [if_neg (fun h => hd (hany.1 h)), if_neg hd, hlen]
  by_cases he : G.matrix = eyeRows m
  · rw [if_pos he, if_pos he]
  rw [if_neg he, if_neg he]
  unfold targetScores
  simp only [scores_colsOf, hhead]
  cases hs : C.recorr (colsOf (scoreF C.ppf X)) with
  | error e => rfl
  | ok s =>
    show (if (s.map fun row => combineCols n row (colsOf (scoreF C.ppf X))).length ≠ m then _ else _) =
      (if s.length ≠ m then _ else _)
    rw [List.length_map]
    by_cases hl : s.length = m
    · rw [if_neg (not_not.2 hl), if_neg (not_not.2 hl)]
      have hmap : mapExcept (fun p : List K × List K => sortColumn C.argsort p.1 (rankMin p.1) (rankMin p.2))
          ((colsOf X).zip (s.map fun row => combineCols n row (colsOf (scoreF C.ppf X))))
          = .ok (colsOf (outF C s X)) := by
        rw [mapExcept_ok, List.forall₂_iff_get]
        refine ⟨by simp [colsOf, hl], fun i h1 h2 => ?_⟩
        have hi : i < m := by simpa [colsOf] using h2
        have his : i < s.length := by omega
        simp only [List.get_eq_getElem, List.getElem_zip, List.getElem_map, colsOf, List.getElem_ofFn]
        have := sortColumn_ofFn hA (X ⟨i, hi⟩) (combF s[i] (scoreF C.ppf X))
        rw [← combineCols_colsOf] at this
        unfold outF
        rw [List.getD_eq_getElem?_getD, List.getElem?_eq_getElem his]
        exact this
      rw [hmap]
      rfl
    · rw [if_pos hl, if_pos hl]

theorem withinTolerance_congr (rho : List K → List K → K) (M : List (List K)) (t : K)
    {X Y : Fin m → Fin n → K}
    (h : ∀ i j, rho (List.ofFn (X i)) (List.ofFn (X j)) = rho (List.ofFn (Y i)) (List.ofFn (Y j))) :
    withinTolerance rho M t (colsOf X) = withinTolerance rho M t (colsOf Y) := by
  have hget : ∀ (Z : Fin m → Fin n → K) (i : ℕ) (hi : i < m), (colsOf Z).getD i [] = List.ofFn (Z ⟨i, hi⟩) := by
    intro Z i hi
    rw [List.getD_eq_getElem?_getD, colsOf, List.getElem?_ofFn, dif_pos hi]
    rfl
  have key : ∀ i j (hi : i < m) (hj : j < m), rho ((colsOf X).getD i []) ((colsOf X).getD j [])
      = rho ((colsOf Y).getD i []) ((colsOf Y).getD j []) := by
    intro i j hi hj
    rw [hget X i hi, hget X j hj, hget Y i hi, hget Y j hj]
    exact h _ _
  have hlX : (colsOf X).length = m := by simp [colsOf]
  have hlY : (colsOf Y).length = m := by simp [colsOf]
  unfold withinTolerance
  rw [hlX, hlY]
  split_ifs with h2
  · rw [key 0 1 (by omega) (by omega)]
  · rw [Bool.eq_iff_iff]
    simp only [List.all_eq_true, List.mem_range]
    refine forall₂_congr fun i hi => forall₂_congr fun j hj => ?_
    rw [key i j hi hj]

theorem outF_rows (C : CorrEnv K) (s : List (List K)) (X : Fin m → Fin n → K) (σ : Equiv.Perm (Fin n)) :
    outF C s (fun j => X j ∘ σ) = fun j => outF C s X j ∘ σ := by
  funext j
  unfold outF
  rw [scoreF_rows, combF_rows]
  exact takeF_rows _ _ σ

/-- Exchanging rows of the data exchanges rows of the result. -/
theorem induce_rows {C : CorrEnv K} (hA : IsArgsort C.argsort) (hC : RowBlind C) (G : CorrGroup K)
    (hm : 0 < m) (X : Fin m → Fin n → K) (σ : Equiv.Perm (Fin n)) :
    (∀ Y : Fin m → Fin n → K, G.induce C (colsOf X) = .ok (colsOf Y) →
      G.induce C (colsOf fun j => X j ∘ σ) = .ok (colsOf fun j => Y j ∘ σ)) ∧
    ∀ e, G.induce C (colsOf X) = .error e → G.induce C (colsOf fun j => X j ∘ σ) = .error e := by
  rw [induce_form hA G hm X, induce_form hA G hm fun j => X j ∘ σ]
  simp only [diverse_rows, scoreF_rows, hC.recorr, outF_rows]
  split_ifs with h1 h2
  · exact ⟨fun Y h => (by cases h), fun e h => h⟩
  · refine ⟨fun Y h => ?_, fun e h => by cases h⟩
    simp only [Except.ok.injEq] at h ⊢
    rw [colsOf_inj h]
  · cases hs : C.recorr (colsOf (scoreF C.ppf X)) with
    | error e => exact ⟨fun Y h => (by cases h), fun e h => h⟩
    | ok s =>
      simp only [Except.bind]
      split_ifs with h3
      · exact ⟨fun Y h => (by cases h), fun e h => h⟩
      · cases ht : G.tol with
        | none =>
          refine ⟨fun Y h => ?_, fun e h => by cases h⟩
          simp only [Except.ok.injEq] at h ⊢
          rw [colsOf_inj h]
        | some t =>
          simp only
          split_ifs with h4 h5 h6 h6
          · refine ⟨fun Y h => ?_, fun e h => by cases h⟩
            simp only [Except.ok.injEq] at h ⊢
            rw [colsOf_inj h]
          · refine ⟨fun Y h => ?_, fun e h => by cases h⟩
            simp only [Except.ok.injEq] at h ⊢
            rw [colsOf_inj h]
          · exact absurd ((withinTolerance_congr C.rho G.matrix t (fun i j => hC.rho _ _ _ σ)).trans h5) h6
          · exact absurd ((withinTolerance_congr C.rho G.matrix t (fun i j => hC.rho _ _ _ σ)).symm.trans h6) h5
          · exact ⟨fun Y h => (by cases h), fun e h => h⟩

theorem outF_order (C : CorrEnv K) (s : List (List K)) {X Y : Fin m → Fin n → K}
    (h : ∀ j, SameOrder (X j) (Y j)) :
    outF C s Y = fun j => Y j ∘ takeF (X j) (combF (s.getD j.1 []) (scoreF C.ppf X)) := by
  funext j
  unfold outF
  rw [scoreF_order C.ppf h]
  exact takeF_order (h j) _

theorem Spec.SameOrder.comp {x y : Fin n → K} (h : SameOrder x y) (τ : Fin n → Fin n) :
    SameOrder (x ∘ τ) (y ∘ τ) := fun a b => h (τ a) (τ b)

/-- The result selects positions of each column, and the same positions for every table whose columns are
ordered alike. -/
theorem induce_order {C : CorrEnv K} (hA : IsArgsort C.argsort) (hC : RowBlind C) (G : CorrGroup K)
    (hm : 0 < m) (X : Fin m → Fin n → K) :
    (∃ τ : Fin m → Fin n → Fin n, ∀ Y : Fin m → Fin n → K, (∀ j, SameOrder (X j) (Y j)) →
      G.induce C (colsOf Y) = .ok (colsOf fun j => Y j ∘ τ j)) ∨
    ∃ e, ∀ Y : Fin m → Fin n → K, (∀ j, SameOrder (X j) (Y j)) → G.induce C (colsOf Y) = .error e := by
  have hd : ∀ Y : Fin m → Fin n → K, (∀ j, SameOrder (X j) (Y j)) →
      ((∃ j, sufficientlyDiverse G.minUnique (List.ofFn (Y j)) = false) ↔
        ∃ j, sufficientlyDiverse G.minUnique (List.ofFn (X j)) = false) := fun Y h =>
    exists_congr fun j => by rw [diverse_order G.minUnique (h j)]
  by_cases h1 : ∃ j, sufficientlyDiverse G.minUnique (List.ofFn (X j)) = false
  · refine .inr ⟨.valueError, fun Y h => ?_⟩
    rw [induce_form hA G hm Y, if_pos ((hd Y h).2 h1)]
  by_cases h2 : G.matrix = eyeRows m
  · refine .inl ⟨fun _ r => r, fun Y h => ?_⟩
    rw [induce_form hA G hm Y, if_neg (fun hh => h1 ((hd Y h).1 hh)), if_pos h2]
    rfl
  cases hs : C.recorr (colsOf (scoreF C.ppf X)) with
  | error e =>
    refine .inr ⟨e, fun Y h => ?_⟩
    rw [induce_form hA G hm Y, if_neg (fun hh => h1 ((hd Y h).1 hh)), if_neg h2, ← scoreF_order C.ppf h, hs]
    rfl
  | ok s =>
    by_cases h3 : s.length = m
    swap
    · refine .inr ⟨.assertionError, fun Y h => ?_⟩
      rw [induce_form hA G hm Y, if_neg (fun hh => h1 ((hd Y h).1 hh)), if_neg h2, ← scoreF_order C.ppf h, hs]
      simp only [Except.bind]
      rw [if_pos h3]
    set τ : Fin m → Fin n → Fin n := fun j => takeF (X j) (combF (s.getD j.1 []) (scoreF C.ppf X)) with hτ
    have hform : ∀ Y : Fin m → Fin n → K, (∀ j, SameOrder (X j) (Y j)) → G.induce C (colsOf Y) =
        match G.tol with
          | some t => if t = 0 then .ok (colsOf fun j => Y j ∘ τ j)
            else if withinTolerance C.rho G.matrix t (colsOf fun j => Y j ∘ τ j) then
              .ok (colsOf fun j => Y j ∘ τ j)
            else .error .runtimeError
          | none => .ok (colsOf fun j => Y j ∘ τ j) := by
      intro Y h
      rw [induce_form hA G hm Y, if_neg (fun hh => h1 ((hd Y h).1 hh)), if_neg h2, ← scoreF_order C.ppf h, hs]
      simp only [Except.bind]
      rw [if_neg (not_not.2 h3), outF_order C s h]
    have hw : ∀ t (Y : Fin m → Fin n → K), (∀ j, SameOrder (X j) (Y j)) →
        withinTolerance C.rho G.matrix t (colsOf fun j => Y j ∘ τ j)
          = withinTolerance C.rho G.matrix t (colsOf fun j => X j ∘ τ j) := fun t Y h =>
      withinTolerance_congr C.rho G.matrix t fun i j =>
        hC.order _ _ _ _ _ ((h i).symm.comp (τ i)) ((h j).symm.comp (τ j))
    cases ht : G.tol with
    | none =>
      refine .inl ⟨τ, fun Y h => ?_⟩
      rw [hform Y h, ht]
    | some t =>
      by_cases h4 : t = 0
      · refine .inl ⟨τ, fun Y h => ?_⟩
        rw [hform Y h, ht]
        simp only [if_pos h4]
      by_cases h5 : withinTolerance C.rho G.matrix t (colsOf fun j => X j ∘ τ j) = true
      · refine .inl ⟨τ, fun Y h => ?_⟩
        rw [hform Y h, ht]
        simp only [if_neg h4]
        rw [if_pos ((hw t Y h).trans h5)]
      · refine .inr ⟨.runtimeError, fun Y h => ?_⟩
        rw [hform Y h, ht]
        simp only [if_neg h4]
        rw [if_neg (fun hh => h5 ((hw t Y h).symm.trans hh))]

end

end Verif
