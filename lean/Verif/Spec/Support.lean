import Verif.Model.Sample

/-! # Specification: the range of each distribution's samples -/

namespace Verif

variable {K : Type} [Field K] [LinearOrder K]

/-- The items a `discrete` argument offers: list items, the second parts of `[weight, item]` pairs,
or the keys of a dict. -/
def VArg.offered {α : Type} : VArg K α → List α
  | .list vs => vs.map fun v => match v with | .plain a => a | .pair _ a => a
  | .ndarray vs => vs.map fun v => match v with | .plain a => a | .pair _ a => a
  | .dict kvs => kvs.map Prod.fst
  | _ => []

/-- The values a sample of the distribution can have.  Continuous distributions return floats,
counting distributions integers, coins strings. -/
def Leaf.Support : Leaf K → Scalar K → Prop
  | .const c, v => v = c
  | .uniform x y, v => ∃ a, v = .flt a ∧ x ≤ a ∧ a ≤ y ∧ (x < y → a < y)
  | .categorical _, _ => True
  | .normal _ _, v => ∃ a, v = .flt a
  | .lognormal _ _, v => ∃ a, v = .flt a ∧ 0 < a
  | .invlognormal _ _, v => ∃ a, v = .flt a ∧ 0 < a
  | .binomial n _, v => ∃ z, v = .int z ∧ 0 ≤ z ∧ z ≤ n
  | .beta _ _, v => ∃ a, v = .flt a ∧ 0 ≤ a ∧ a ≤ 1
  | .bernoulli _, v => v = .int 0 ∨ v = .int 1
  | .poisson _, v => ∃ z, v = .int z ∧ 0 ≤ z
  | .chisquare _, v => ∃ a, v = .flt a ∧ 0 < a
  | .exponential _, v => ∃ a, v = .flt a ∧ 0 ≤ a
  | .gamma _ _, v => ∃ a, v = .flt a ∧ 0 ≤ a
  | .pareto _, v => ∃ a, v = .flt a ∧ 1 ≤ a
  | .triangular l _ r, v => ∃ a, v = .flt a ∧ l ≤ a ∧ a ≤ r
  | .pert l _ r _, v => l ≤ r → ∃ a, v = .flt a ∧ l ≤ a ∧ a ≤ r
  | .tdist _ _ _ _, _ => True
  | .logtdist x y _ _, v => (x = none ∨ x ≠ y) → ∃ a, v = .flt a ∧ 0 < a
  | .geometric _, v => ∃ z, v = .int z ∧ 1 ≤ z
  | .die d, v => ∃ z, v = .int z ∧ 1 ≤ z ∧ (d.explodeOn = none → z ≤ d.sides)
  | .coin, v => v = .str "heads" ∨ v = .str "tails"

end Verif
