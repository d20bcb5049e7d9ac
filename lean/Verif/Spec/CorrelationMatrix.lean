import Mathlib.Data.Real.Basic
import Mathlib.Algebra.BigOperators.Intervals

/-!
# What a correlation matrix is

Independent of the code: a symmetric matrix with unit diagonal whose quadratic form is non-negative.
-/

namespace Verif.Spec

/-- Entry `i, j` of a matrix given by its rows. -/
def at_ (m : List (List ℝ)) (i j : ℕ) : ℝ := (m.getD i []).getD j 0

/-- `m` is a `k × k` correlation matrix. -/
structure IsCorrelationMatrix (k : ℕ) (m : List (List ℝ)) : Prop where
  rows : m.length = k
  cols : ∀ r ∈ m, r.length = k
  diag : ∀ i < k, at_ m i i = 1
  symm : ∀ i < k, ∀ j < k, at_ m i j = at_ m j i
  psd : ∀ x : ℕ → ℝ, 0 ≤ ∑ i ∈ Finset.range k, ∑ j ∈ Finset.range k, x i * at_ m i j * x j

end Verif.Spec
