import Verif.Model.Constructors

/-!
# Specification: valid arguments of the constructors, and what numpy accepts
-/

namespace Verif

variable {K : Type} [Field K] [LinearOrder K]

/-- A list or array with at least one element, or a dict with at least one key. -/
def NonEmptyContainer {α : Type} : VArg K α → Prop
  | .list vs => vs ≠ []
  | .ndarray vs => vs ≠ []
  | .dict kvs => kvs ≠ []
  | .absent => False
  | .other => False

/-- The documented requirements on constructor arguments. -/
def ValidArgs : DistCall K → Prop
  | .const _ => True
  | .uniform x y => x < y
  | .binomial _ p => 0 < p ∧ p < 1
  | .beta _ _ => True
  | .bernoulli p => ∃ q, p = some q ∧ 0 ≤ q ∧ q ≤ 1
  | .discrete items => NonEmptyContainer items
  | .tdist x y _ _ _ _ => (x = none ∧ y = none) ∨ ∃ a b, x = some a ∧ y = some b ∧ a ≤ b
  | .logTdist x y _ _ _ _ =>
      (x = none ∧ y = none) ∨ ∃ a b, x = some a ∧ y = some b ∧ 0 < a ∧ a ≤ b
  | .triangular l m r _ _ => l ≤ m ∧ m ≤ r ∧ l < r
  | .pert l m r lam _ _ => l ≤ m ∧ m ≤ r ∧ l < r ∧ 0 ≤ lam
  | .poisson _ _ _ => True
  | .chisquare df => 0 < df
  | .exponential sc _ _ => 0 < sc ∧ sc < 10 ^ 20
  | .gamma _ _ _ _ => True
  | .pareto _ => True
  | .geometric p => 0 ≤ p ∧ p ≤ 1
  | .die sides explodeOn => ∃ s : ℤ, sides = some s ∧ 2 ≤ s ∧
      ∀ vs, explodeOn.toList? = some vs →
        (vs.length : ℤ) < s ∧ ∀ v ∈ vs, ∃ z : ℤ, v = some z ∧ 1 ≤ z ∧ z ≤ s
  | .coin => True

/-- The bounds passed to a constructor. -/
def DistCall.bounds : DistCall K → Option (Scalar K) × Option (Scalar K)
  | .tdist _ _ _ _ lc rc => (lc, rc)
  | .logTdist _ _ _ _ lc rc => (lc, rc)
  | .triangular _ _ _ lc rc => (lc, rc)
  | .pert _ _ _ _ lc rc => (lc, rc)
  | .poisson _ lc rc => (lc, rc)
  | .exponential _ lc rc => (lc, rc)
  | .gamma _ _ lc rc => (lc, rc)
  | _ => (none, none)

/-- The parameter values for which numpy's generator methods do not raise. -/
def Prim.Accepted : Prim K → Prop
  | .uniform low high => low ≤ high
  | .normal _ sd => 0 ≤ sd
  | .lognormal _ sd => 0 ≤ sd
  | .binomial n p => 0 ≤ n ∧ 0 ≤ p ∧ p ≤ 1
  | .beta a b => 0 < a ∧ 0 < b
  | .triangular l m r => l ≤ m ∧ m ≤ r ∧ l ≠ r
  | .poisson lam => 0 ≤ lam
  | .exponential sc => 0 ≤ sc
  | .gamma sh sc => 0 ≤ sh ∧ 0 ≤ sc
  | .pareto sh => 0 < sh
  | .chisquare df => 0 < df
  | .standardT df => 0 < df
  | .geometric p => 0 < p ∧ p ≤ 1
  | .integers low high => low < high

/-- The generator raises ValueError for exactly the parameters numpy refuses. -/
def Gen.Decides {σ : Type} (g : Gen σ K) : Prop :=
  ∀ p n s, (p.Accepted → ∃ xs s', g.draw p n s = (.ok xs, s')) ∧
    (¬ p.Accepted → ∃ s', g.draw p n s = (.error .valueError, s'))

/-- The further requirements under which a constructed distribution can be sampled; nothing checks
them at construction. -/
def SampleableArgs : DistCall K → Prop
  | .binomial n _ => 0 ≤ n
  | .beta a b => 0 < a ∧ 0 < b
  | .tdist x y t cred _ _ => x = y ∧ x ≠ none ∨ 0 < t ∧ 0 < cred ∧ cred < 100
  | .logTdist x y t cred _ _ => x = y ∧ x ≠ none ∨ 0 < t ∧ 0 < cred ∧ cred < 100
  | .poisson lam _ _ => 0 ≤ lam
  | .gamma sh sc _ _ => 0 ≤ sh ∧ 0 ≤ sc
  | .pareto sh => 0 < sh
  | .geometric p => p ≠ 0
  | .die _ ex => ex.toList? = none
  | .discrete _ => False
  | _ => True

end Verif
