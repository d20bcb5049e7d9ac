import Verif.Model.Scalar

/-!
# The random number generator as an oracle

`squigglepy/rng.py`: one global `np.random.Generator`.  The model does not contain numpy's algorithms:
a generator is an arbitrary function from a request, a number of values and a state to values and a
next state.  `Lawful` collects what numpy documents about the returned values; a concrete lawful
generator is exhibited in `Verif/Lemmas/DemoGen.lean`.
-/

namespace Verif

variable {K : Type} [Field K] [LinearOrder K] [FloorRing K]

/-- The generator methods that samplers.py calls, with their parameters. -/
inductive Prim (K : Type) where
  | uniform (low high : K)
  | normal (mean sd : K)
  | lognormal (mean sd : K)
  | binomial (n : ℤ) (p : K)
  | beta (a b : K)
  | triangular (left mode right : K)
  | poisson (lam : K)
  | exponential (scale : K)
  | gamma (shape scale : K)
  | pareto (shape : K)
  | chisquare (df : K)
  | standardT (df : K)
  | geometric (p : K)
  | integers (low high : ℤ)

/-- A generator with state type `σ`: `draw request size state`. -/
structure Gen (σ K : Type) where
  draw : Prim K → ℕ → σ → Except PyErr (List (Scalar K)) × σ

/-- numpy's documented range of each request: floats in the closed support, integers in range. -/
def Prim.support : Prim K → Scalar K → Prop
  | .uniform low high, v => ∃ x, v = .flt x ∧ low ≤ x ∧ x ≤ high ∧ (low < high → x < high)
  | .normal _ _, v => ∃ x, v = .flt x
  | .lognormal _ _, v => ∃ x, v = .flt x ∧ 0 < x
  | .binomial n _, v => ∃ z, v = .int z ∧ 0 ≤ z ∧ z ≤ n
  | .beta _ _, v => ∃ x, v = .flt x ∧ 0 ≤ x ∧ x ≤ 1
  | .triangular l _ r, v => ∃ x, v = .flt x ∧ l ≤ x ∧ x ≤ r
  | .poisson _, v => ∃ z, v = .int z ∧ 0 ≤ z
  | .exponential _, v => ∃ x, v = .flt x ∧ 0 ≤ x
  | .gamma _ _, v => ∃ x, v = .flt x ∧ 0 ≤ x
  | .pareto _, v => ∃ x, v = .flt x ∧ 0 ≤ x
  | .chisquare _, v => ∃ x, v = .flt x ∧ 0 < x
  | .standardT _, v => ∃ x, v = .flt x
  | .geometric _, v => ∃ z, v = .int z ∧ 1 ≤ z
  | .integers low high, v => ∃ z, v = .int z ∧ low ≤ z ∧ z < high

/-- The generator returns the requested number of values, all in the documented range. -/
def Gen.Lawful {σ : Type} (g : Gen σ K) : Prop :=
  ∀ p n s xs s', g.draw p n s = (.ok xs, s') → xs.length = n ∧ ∀ v ∈ xs, p.support v

end Verif
