import Mathlib.Algebra.Order.Field.Basic
import Mathlib.Algebra.Group.Int.Even

/-! # Rounding to a number of digits -/

namespace Verif

/-- `r` is `y` rounded to `k` decimal digits (`k` may be negative): a multiple of `10^(-k)` that is no
further than half of `10^(-k)` away. -/
def IsRounded {K : Type} [Field K] [LinearOrder K] (k : ℤ) (y r : K) : Prop :=
  (∃ m : ℤ, r * (10 : K) ^ k = m) ∧ |r - y| * (10 : K) ^ k ≤ 1 / 2

/-- `m` is the integer nearest to `x`, the even one of two. -/
def IsNearestInt {K : Type} [Field K] [LinearOrder K] (x : K) (m : ℤ) : Prop :=
  |(m : K) - x| ≤ 1 / 2 ∧ (|(m : K) - x| = 1 / 2 → Even m)

end Verif
