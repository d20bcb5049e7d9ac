import Verif.Model.Rounded
import Verif.Model.RoundedMean
import Mathlib.Data.Real.Basic

/-!
# Geometric means and pooled odds with rounding

As in `Model/Rounded`, `fl` is applied after every arithmetic operation.  `lg` and `ex` are the computed `np.log` and
`np.exp`.  numpy's order of additions depends only on how many numbers there are: `order n` is a tree over the places
`0, …, n - 1`.  Values are lists of numbers without pairs or missing values, as for `processFl`.
-/

namespace Verif

/-- `xs.sum()` of an array. -/
noncomputable def addUpFl (fl : ℝ → ℝ) (order : ℕ → SumOrder ℕ) (xs : List ℝ) : ℝ :=
  ((order xs.length).map fun i => xs.getD i 0).sumFl fl

/-- `np.average(xs, weights=ws)` (utils.py:660): the sum of the products over the sum of the weights;
`ZeroDivisionError` if the latter is 0. -/
noncomputable def npAverageFl (fl : ℝ → ℝ) (order : ℕ → SumOrder ℕ) (ws xs : List ℝ) : Except PyErr ℝ :=
  if addUpFl fl order ws = 0 then .error .zeroDivisionError
  else .ok (fl (addUpFl fl order (List.zipWith (fun w x => fl (w * x)) ws xs) / addUpFl fl order ws))

/-- `geomean` (utils.py:658-660).  Logarithms of numbers that are not positive (`-inf` and `nan` with a warning) are not
modelled. -/
noncomputable def geomeanFl (fl lg ex : ℝ → ℝ) (order : ℕ → SumOrder ℕ) (w : FlWeights ℝ) (vals : List ℝ) :
    Except PyErr ℝ := do
  let (ws, vs) ← processFl fl w vals
  if ∃ v ∈ vs, v ≤ 0 then .error .unmodelled
  else
    let avg ← npAverageFl fl order ws (vs.map lg)
    .ok (ex avg)

/-- `p_to_odds` of an array (utils.py:683-690), before `_simplify`: the first bad entry raises. -/
noncomputable def pToOddsListFl (fl : ℝ → ℝ) : List ℝ → Except PyErr (List ℝ)
  | [] => .ok []
  | q :: qs => do
    let o ← pToOddsFl fl q
    let os ← pToOddsListFl fl qs
    .ok (o :: os)

/-- `geomean_odds` (utils.py:749-750).  A single probability is turned into a number by `_simplify`, which `geomean` does
not take (`ValueError`, utils.py:52-53). -/
noncomputable def geomeanOddsFl (fl lg ex : ℝ → ℝ) (order : ℕ → SumOrder ℕ) (w : FlWeights ℝ) (vals : List ℝ) :
    Except PyErr ℝ := do
  let (ws, ps) ← processFl fl w vals
  let os ← pToOddsListFl fl ps
  if os.length = 1 then .error .valueError
  else
    let g ← geomeanFl fl lg ex order (.weights ws) os
    oddsToPFl fl g

end Verif
