import Verif.Spec.Pearson
import Mathlib.Analysis.Real.Sqrt
import Mathlib.Data.List.Count

/-!
# Specification: `np.corrcoef` and `spearmanr` on lists of real numbers
-/

namespace Verif.Spec

/-- Pearson correlation of two samples (`0` where NumPy answers `nan`, for a constant sample). -/
noncomputable def pearson (x y : List ℝ) : ℝ :=
  codev x.length (fun r => x.getD r 0) (fun r => y.getD r 0) /
    √(codev x.length (fun r => x.getD r 0) (fun r => x.getD r 0) *
      codev x.length (fun r => y.getD r 0) (fun r => y.getD r 0))

/-- The matrix of pairwise Pearson correlations (`np.corrcoef(…, rowvar=False)`). -/
noncomputable def pearsonRows (cols : List (List ℝ)) : List (List ℝ) :=
  cols.map fun x => cols.map fun y => pearson x y

/-- Ranks of a sample, equal values share the average of their ranks. -/
noncomputable def avgRanks (x : List ℝ) : List ℝ :=
  x.map fun v => (((x.countP fun w => decide (w < v)) : ℕ) +
    ((x.countP fun w => decide (w ≤ v) : ℕ) + 1) : ℝ) / 2

/-- Spearman correlation of two samples: Pearson correlation of the ranks (`scipy.stats.spearmanr`). -/
noncomputable def spearmanR (x y : List ℝ) : ℝ := pearson (avgRanks x) (avgRanks y)

end Verif.Spec
