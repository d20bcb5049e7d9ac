import Verif.Spec.Float
import Mathlib.Analysis.SpecialFunctions.Pow.Real

/-!
# Computed logarithms and exponentials, and orders of addition

What is assumed of the `log` and `exp` of the mathematical library: results with a relative error of at most `e`, and
floating-point numbers as exponentials.  They need not be the nearest ones.  Exponents so large that the exponential
overflows are left out, as in `Spec/Float`.
-/

namespace Verif

/-- `lg` computes logarithms of positive numbers with relative error at most `e`. -/
def ComputesLog (e : ℝ) (lg : ℝ → ℝ) : Prop := ∀ x, 0 < x → |lg x - Real.log x| ≤ e * |Real.log x|

/-- `ex` computes exponentials with relative error at most `e`; its results have `p` binary digits. -/
def ComputesExp (p : ℕ) (e : ℝ) (ex : ℝ → ℝ) : Prop := ∀ x, |ex x - Real.exp x| ≤ e * Real.exp x ∧ IsFloat p (ex x)

/-- `pw` computes powers of positive numbers with relative error at most `e`; its results have `p` binary digits. -/
def ComputesPow (p : ℕ) (e : ℝ) (pw : ℝ → ℝ → ℝ) : Prop :=
  ∀ x y, 0 < x → |pw x y - x ^ y| ≤ e * x ^ y ∧ IsFloat p (pw x y)

end Verif
