import Verif.Model.RoundedMean
import Mathlib.Analysis.Real.Sqrt

/-!
# Standard deviations and Sharpe ratios with rounding

As in `Model/RoundedMean`: `fl` is applied after every operation, also after the square root, and `order` is the order
in which numpy adds up a list.  No overflow or underflow.
-/

namespace Verif

/-- `np.std` (utils.py:1305): the mean is computed, then the deviations from it, their squares, the mean of these,
and its square root. -/
noncomputable def npStdFl (fl : ℝ → ℝ) (order : List ℝ → SumOrder ℝ) (xs : List ℝ) : ℝ :=
  let m := npMeanFl fl (order xs)
  let squares := xs.map fun x => fl (fl (x - m) * fl (x - m))
  fl (Real.sqrt (npMeanFl fl (order squares)))

/-- `sharpe_ratio` (utils.py:1305).  Without returns, or when numpy divides by zero, the result is not a number or
infinite, with a warning: not modelled, as in `sharpeRatio`. -/
noncomputable def sharpeFl (fl : ℝ → ℝ) (order : List ℝ → SumOrder ℝ) (returns : List ℝ) (riskFree : ℝ) :
    Except PyErr ℝ :=
  if returns = [] ∨ npStdFl fl order returns = 0 then .error .unmodelled
  else .ok (fl (fl (npMeanFl fl (order returns) - riskFree) / npStdFl fl order returns))

end Verif
