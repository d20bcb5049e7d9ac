import Mathlib.Algebra.Order.Field.Basic
import Mathlib.Algebra.BigOperators.Group.List.Basic

/-! # What a percentile is -/

namespace Verif.Spec

variable {K : Type} [Field K] [LinearOrder K]

/-- `v` is the `p`-th percentile of the data by linear interpolation: put the data in order,
`s 0 ≤ … ≤ s (n-1)`; walk the fraction `p/100` of the way from position 0 to position `n-1`, which ends a
fraction `t` behind position `k`; take the corresponding mixture of the two neighbours. -/
def IsPercentile (data : List K) (p v : K) : Prop :=
  ∃ (s : List K) (k : ℕ) (t : K), s.Perm data ∧ s.Pairwise (· ≤ ·) ∧ k < s.length ∧
    0 ≤ t ∧ t ≤ 1 ∧ (t = 0 ∨ k + 1 < s.length) ∧
    p / 100 * ((s.length : K) - 1) = k + t ∧ v = (1 - t) * s.getD k 0 + t * s.getD (k + 1) 0

/-- The percentage (0 to 100) of the total weight that lies below `x`, counting half the weight of `x`
itself. -/
def midRank (wd : List (K × K)) (x : K) : K :=
  100 * ((wd.filter fun p => p.2 < x).map Prod.fst).sum / (wd.map Prod.fst).sum +
    100 * (((wd.filter fun p => p.2 = x).map Prod.fst).sum / 2) / (wd.map Prod.fst).sum

/-- Weights that make sense: one for each datum, none negative, not all zero. -/
def ValidWeights (data weights : List K) : Prop :=
  data.length = weights.length ∧ (∀ w ∈ weights, 0 ≤ w) ∧ ∃ w ∈ weights, 0 < w

/-- `x < y` are neighbours in the data. -/
def Neighbours (data : List K) (x y : K) : Prop :=
  x ∈ data ∧ y ∈ data ∧ x < y ∧ ∀ z ∈ data, z ≤ x ∨ y ≤ z

end Verif.Spec
