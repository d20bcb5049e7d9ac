import Verif.Spec.Special
import Verif.Spec.Float

/-! # Models without cancellation, and how many roundings they collect -/

namespace Verif.Spec

variable {K : Type} [Field K] [LinearOrder K]

/-- Sums, products, quotients, `dist_max`, `dist_min` and bounds of positive quantities: no subtraction. -/
def NoCancel : XExpr K → Prop
  | .src _ => True
  | .num x => 0 < x
  | .neg _ => False
  | .bin o a b => o ≠ .sub ∧ NoCancel a ∧ NoCancel b
  | .lclip e _ => NoCancel e
  | .rclip e c => 0 < c ∧ NoCancel e

/-- The number of rounding errors that can add up in the value of an expression: one for each draw, each number and each
operation; errors of the parts of a product or quotient add up, in a sum, maximum or minimum the larger one counts. -/
def roundings : XExpr K → ℕ
  | .src _ => 1
  | .num _ => 1
  | .neg e => roundings e
  | .bin .add a b => max (roundings a) (roundings b) + 1
  | .bin .sub a b => max (roundings a) (roundings b) + 1
  | .bin .mul a b => roundings a + roundings b + 1
  | .bin .div a b => roundings a + roundings b + 1
  | .bin .max a b => max (roundings a) (roundings b)
  | .bin .min a b => max (roundings a) (roundings b)
  | .lclip e _ => max (roundings e) 1
  | .rclip e _ => max (roundings e) 1

/-- `WholeOp o m m' M`: the operation on whole numbers of size at most `m` and `m'` gives one of size at most `M`. -/
def WholeOp : XOp → ℕ → ℕ → ℕ → Prop
  | .add, m, m', M => m + m' ≤ M
  | .sub, m, m', M => m + m' ≤ M
  | .mul, m, m', M => m * m' ≤ M
  | .div, _, _, _ => False
  | .max, m, m', M => Max.max m m' ≤ M
  | .min, m, m', M => Max.max m m' ≤ M

/-- `Whole p B e m`: with whole draws of size at most `B k` from the `k`-th distribution, all values on the way to the
value of `e` are whole and at most `2 ^ p`, and that of `e` at most `m`. -/
inductive Whole (p : ℕ) (B : ℕ → ℕ) : XExpr K → ℕ → Prop
  | src (k : ℕ) : B k ≤ 2 ^ p → Whole p B (.src k) (B k)
  | num (z : ℤ) : z.natAbs ≤ 2 ^ p → Whole p B (.num z) z.natAbs
  | neg {e : XExpr K} {m : ℕ} : Whole p B e m → Whole p B (.neg e) m
  | bin {o : XOp} {a b : XExpr K} {m m' M : ℕ} : Whole p B a m → Whole p B b m' → WholeOp o m m' M → M ≤ 2 ^ p →
      Whole p B (.bin o a b) M
  | lclip {e : XExpr K} {m : ℕ} {c : ℤ} : Whole p B e m → c.natAbs ≤ 2 ^ p →
      Whole p B (.lclip e c) (Max.max m c.natAbs)
  | rclip {e : XExpr K} {m : ℕ} {c : ℤ} : Whole p B e m → c.natAbs ≤ 2 ^ p →
      Whole p B (.rclip e c) (Max.max m c.natAbs)

end Verif.Spec
