import Mathlib.Algebra.Order.Field.Basic
import Mathlib.Algebra.Field.Power

/-!
# Floating-point numbers

Binary floating-point numbers with `p` significant digits and exponents of any size (a Python float has
`p = 53`; overflow, underflow, infinities and `nan` are left out), and what it means that an arithmetic rounds
correctly: every result is a floating-point number nearest to the exact one.  Nothing is said about ties.
-/

namespace Verif

/-- A number with at most `p` significant binary digits. -/
def IsFloat {K : Type} [Field K] (p : ℕ) (x : K) : Prop :=
  ∃ m e : ℤ, |m| ≤ 2 ^ p ∧ x = m * (2 : K) ^ e

/-- `fl` rounds to a nearest floating-point number. -/
structure RoundsTo {K : Type} [Field K] [LinearOrder K] (p : ℕ) (fl : K → K) : Prop where
  float : ∀ x, IsFloat p (fl x)
  nearest : ∀ x y, IsFloat p y → |fl x - x| ≤ |y - x|

/-- The relative error of one rounding, `2^(-p)`. -/
def ulp {K : Type} [Field K] (p : ℕ) : K := 1 / 2 ^ p

end Verif
