import Mathlib.Algebra.BigOperators.Group.Finset.Basic
import Mathlib.Algebra.Order.Field.Basic
import Mathlib.LinearAlgebra.Matrix.NonsingularInverse

/-!
# Specification: linear correlation and Cholesky factors

Textbook notions, independent of the model: the correlation coefficient of two samples, and what the
two Cholesky factors used to re-correlate scores are.
-/

namespace Verif.Spec

open Finset

variable {K : Type} [Field K] [LinearOrder K]

/-- Mean of the first `n` values. -/
def mean (n : ℕ) (x : ℕ → K) : K := (∑ r ∈ range n, x r) / n

/-- Sum of products of deviations from the mean (the covariance up to the factor `n - 1`). -/
def codev (n : ℕ) (x y : ℕ → K) : K := ∑ r ∈ range n, (x r - mean n x) * (y r - mean n y)

/-- `c` is the Pearson correlation of two samples of size `n`: the covariance is `c` times the product
of the (non-zero) standard deviations. -/
def HasCorr (n : ℕ) (x y : ℕ → K) (c : K) : Prop :=
  ∃ sx sy : K, 0 < sx ∧ 0 < sy ∧ sx * sx = codev n x x ∧ sy * sy = codev n y y ∧
    codev n x y = c * (sx * sy)

/-- `p` is the lower Cholesky factor of `c`: lower triangular, positive diagonal, `p pᵀ = c`. -/
structure IsCholesky {m : ℕ} (p c : Matrix (Fin m) (Fin m) K) : Prop where
  lower : ∀ i j, i < j → p i j = 0
  pos : ∀ i, 0 < p i i
  mul : p * p.transpose = c

/-- The re-correlation matrix: `p q⁻¹` for the Cholesky factor `p` of the requested correlations and the
Cholesky factor `q` of the current ones. -/
def IsRecorr {m : ℕ} (c t s : Matrix (Fin m) (Fin m) K) : Prop :=
  ∃ p q : Matrix (Fin m) (Fin m) K, IsCholesky p c ∧ IsCholesky q t ∧ s = p * q⁻¹

end Verif.Spec
