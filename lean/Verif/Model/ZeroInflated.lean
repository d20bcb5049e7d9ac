import Verif.Model.Weights

/-!
# `zero_inflated` (distributions.py:1777-1808)
-/

namespace Verif

variable {K : Type} [Field K] [LinearOrder K] {α : Type}

/-- What a caller can pass as `p_zero`. -/
inductive PArg (K : Type) where
  | num (p : K)
  | bool (b : Bool)
  | other

/-- `MixtureDistribution.__init__` (distributions.py:1713-1721): the processed weights and
components; `na` is irrelevant because `drop_na` is not set. -/
def mixtureInit (weights relativeWeights : WArg K) (dists : VArg K α) :
    Except PyErr (List K × List (VItem K α)) :=
  (processWeightsValues (fun _ => false) weights relativeWeights dists false).result

/-- `zero_inflated(p_zero, dist)` (distributions.py:1799-1808).  `zero` is the constant component 0. -/
def zeroInflated (p : PArg K) (zero dist : α) : Except PyErr (List K × List (VItem K α)) :=
  match p with
  | .bool _ => .error .valueError
  | .other => .error .valueError
  | .num p =>
    if ¬ (0 ≤ p ∧ p ≤ 1) then .error .valueError
    else if p = 1 then mixtureInit (.list [some 1]) .absent (.list [.plain zero])
    else if p = 0 then mixtureInit (.list [some 1]) .absent (.list [.plain dist])
    else mixtureInit (.num p) .absent (.list [.plain zero, .plain dist])

end Verif
