import Verif.Spec.Machine

/-! # Expressions of whole numbers with `//` -/

namespace Verif.Spec

/-- A model of whole numbers with `//`, inside sums, products and other quotients. -/
inductive QExpr where
  | base (e : IExpr)
  | bin (o : IOp) (a b : QExpr)
  | quot (a b : QExpr)

/-- `q` is `x / y` rounded down. -/
def IsFloorOf (x y q : ℤ) : Prop := ∃ r : ℤ, x = q * y + r ∧ (0 < y → 0 ≤ r ∧ r < y) ∧ (y < 0 → y < r ∧ r ≤ 0)

/-- How large the value can be if the draws from the `k`-th distribution have size at most `B k`. -/
def QExpr.size (B : ℕ → ℕ) : QExpr → ℕ
  | .base e => e.size B
  | .bin .add a b => a.size B + b.size B
  | .bin .sub a b => a.size B + b.size B
  | .bin .mul a b => a.size B * b.size B
  | .bin .max a b => Max.max (a.size B) (b.size B)
  | .bin .min a b => Max.max (a.size B) (b.size B)
  | .quot a _ => a.size B

/-- All numbers on the way are smaller than `2 ^ 63` (inside parts without `//`: those that are compared, and the value). -/
def QExpr.Small (B : ℕ → ℕ) : QExpr → Prop
  | .base e => e.ComparesSmall B ∧ e.size B < 2 ^ 63
  | .bin o a b => a.Small B ∧ b.Small B ∧ (QExpr.bin o a b).size B < 2 ^ 63
  | .quot a b => a.Small B ∧ b.Small B

end Verif.Spec
