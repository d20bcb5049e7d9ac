import Verif.Lemmas.RankInvariance
import Verif.Spec.PearsonLists
import Verif.Props.TargetScores

/-!
# `np.corrcoef` and `spearmanr` do not depend on the order of the observations
-/

namespace Verif

open Spec

theorem sum_range_ofFn {n : ℕ} (f : ℝ → ℝ → ℝ) (x y : Fin n → ℝ) :
    ∑ r ∈ Finset.range n, f ((List.ofFn x).getD r 0) ((List.ofFn y).getD r 0) = ∑ r, f (x r) (y r) := by
  rw [← Fin.sum_univ_eq_sum_range (fun r => f ((List.ofFn x).getD r 0) ((List.ofFn y).getD r 0))]
  refine Finset.sum_congr rfl fun r _ => ?_
  simp [List.getD_eq_getElem?_getD]

theorem mean_ofFn {n : ℕ} (x : Fin n → ℝ) :
    mean n (fun r => (List.ofFn x).getD r 0) = (∑ r, x r) / n := by
  unfold mean
  rw [sum_range_ofFn (fun a _ => a) x x]

theorem codev_ofFn {n : ℕ} (x y : Fin n → ℝ) :
    codev n (fun r => (List.ofFn x).getD r 0) (fun r => (List.ofFn y).getD r 0)
      = ∑ r, (x r - (∑ r, x r) / n) * (y r - (∑ r, y r) / n) := by
  unfold codev
  rw [mean_ofFn, mean_ofFn]
  exact sum_range_ofFn (fun a b => (a - _) * (b - _)) x y

theorem codev_rows {n : ℕ} (x y : Fin n → ℝ) (σ : Equiv.Perm (Fin n)) :
    codev n (fun r => (List.ofFn (x ∘ σ)).getD r 0) (fun r => (List.ofFn (y ∘ σ)).getD r 0)
      = codev n (fun r => (List.ofFn x).getD r 0) (fun r => (List.ofFn y).getD r 0) := by
  rw [codev_ofFn, codev_ofFn]
  have hs : ∀ z : Fin n → ℝ, ∑ r, (z ∘ σ) r = ∑ r, z r := fun z => Equiv.sum_comp σ z
  rw [hs, hs]
  exact Equiv.sum_comp σ fun r => (x r - (∑ r, x r) / n) * (y r - (∑ r, y r) / n)

theorem pearson_rows {n : ℕ} (x y : Fin n → ℝ) (σ : Equiv.Perm (Fin n)) :
    pearson (List.ofFn (x ∘ σ)) (List.ofFn (y ∘ σ)) = pearson (List.ofFn x) (List.ofFn y) := by
  unfold pearson
  simp only [List.length_ofFn, codev_rows]

theorem pearsonRows_rows {m n : ℕ} (Z : Fin m → Fin n → ℝ) (σ : Equiv.Perm (Fin n)) :
    pearsonRows (colsOf fun j => Z j ∘ σ) = pearsonRows (colsOf Z) := by
  unfold pearsonRows colsOf
  simp only [List.map_ofFn]
  congr 1
  funext i
  simp only [Function.comp]
  congr 1
  funext j
  exact pearson_rows (Z i) (Z j) σ

/-- Average ranks of a table column. -/
noncomputable def avgF {n : ℕ} (x : Fin n → ℝ) (i : Fin n) : ℝ :=
  (((Finset.univ.filter fun j => x j < x i).card : ℕ) +
    ((((Finset.univ.filter fun j => x j ≤ x i).card : ℕ) : ℝ) + 1) : ℝ) / 2

theorem avgRanks_ofFn {n : ℕ} (x : Fin n → ℝ) : avgRanks (List.ofFn x) = List.ofFn (avgF x) := by
  unfold avgRanks
  rw [List.map_ofFn]
  congr 1
  funext i
  simp only [Function.comp, countP_ofFn_card, decide_eq_true_eq, avgF]

theorem avgF_rows {n : ℕ} (x : Fin n → ℝ) (σ : Equiv.Perm (Fin n)) : avgF (x ∘ σ) = avgF x ∘ σ := by
  have h : ∀ (p : ℝ → ℝ → Prop) [DecidableRel p] (i : Fin n),
      (Finset.univ.filter fun j => p ((x ∘ σ) j) ((x ∘ σ) i)).card
        = (Finset.univ.filter fun j => p (x j) (x (σ i))).card := by
    intro p _ i
    refine Finset.card_bij (fun j _ => σ j) ?_ ?_ ?_
    · intro j hj
      simpa using hj
    · intro a _ b _ h
      exact σ.injective h
    · intro b hb
      exact ⟨σ.symm b, by simpa using hb, by simp⟩
  funext i
  have h1 := h (· < ·) i
  have h2 := h (· ≤ ·) i
  simp only [avgF, Function.comp] at h1 h2 ⊢
  rw [h1, h2]

theorem avgF_order {n : ℕ} {x y : Fin n → ℝ} (h : SameOrder x y) : avgF x = avgF y := by
  funext i
  simp only [avgF, h _ i, h.le _ i]

theorem spearmanR_rows {n : ℕ} (x y : Fin n → ℝ) (σ : Equiv.Perm (Fin n)) :
    spearmanR (List.ofFn (x ∘ σ)) (List.ofFn (y ∘ σ)) = spearmanR (List.ofFn x) (List.ofFn y) := by
  unfold spearmanR
  rw [avgRanks_ofFn, avgRanks_ofFn, avgF_rows, avgF_rows, pearson_rows, avgRanks_ofFn, avgRanks_ofFn]

/-- External functions as the code uses them are row blind: the re-correlation matrix is computed from the
Pearson correlations of the scores (correlation.py:252-262), and the check uses Spearman correlations
(correlation.py:306). -/
theorem rowBlind_pearson (ppf : ℝ → ℝ) (f : List (List ℝ) → Except PyErr (List (List ℝ)))
    (argsort : List ℕ → List ℕ) :
    RowBlind ⟨ppf, fun scores => f (pearsonRows scores), spearmanR, argsort⟩ where
  recorr m n Z σ := by
    show f _ = f _
    rw [pearsonRows_rows]
  rho n x y σ := spearmanR_rows x y σ
  order n x y x' y' hx hy := by
    show spearmanR _ _ = spearmanR _ _
    unfold spearmanR
    rw [avgRanks_ofFn, avgRanks_ofFn, avgRanks_ofFn, avgRanks_ofFn, avgF_order hx, avgF_order hy]

end Verif
