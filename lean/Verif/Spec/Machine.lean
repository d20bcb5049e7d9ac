import Mathlib.Data.Int.ModEq
import Mathlib.Algebra.Order.Ring.Int

/-! # Whole numbers of 64 bits, and expressions of whole-number draws -/

namespace Verif.Spec

/-- The whole numbers a numpy array of integers can hold. -/
def Fits (z : ℤ) : Prop := -2 ^ 63 ≤ z ∧ z < 2 ^ 63

instance (z : ℤ) : Decidable (Fits z) := inferInstanceAs (Decidable (_ ∧ _))

/-- `w` is what is left of `z` in 64 bits: it fits and differs from `z` by a multiple of `2 ^ 64`. -/
def LeftOf (z w : ℤ) : Prop := Fits w ∧ (2 ^ 64 : ℤ) ∣ z - w

/-- Operators on whole numbers. -/
inductive IOp where
  | add | sub | mul | max | min
  deriving DecidableEq

/-- Their meaning. -/
def IOp.eval : IOp → ℤ → ℤ → ℤ
  | .add, a, b => a + b
  | .sub, a, b => a - b
  | .mul, a, b => a * b
  | .max, a, b => Max.max a b
  | .min, a, b => Min.min a b

/-- Does the operator compare its arguments? -/
def IOp.Compares : IOp → Prop
  | .max => True
  | .min => True
  | _ => False

/-- A model built from whole-number distributions (`src k` is a fresh draw from the `k`-th one) and whole numbers with
`+`, `-`, `*`, `dist_max`, `dist_min`, `** k` and bounds. -/
inductive IExpr where
  | src (k : ℕ)
  | num (z : ℤ)
  | neg (e : IExpr)
  | bin (o : IOp) (a b : IExpr)
  | pow (e : IExpr) (k : ℕ)
  | lclip (e : IExpr) (c : ℤ)
  | rclip (e : IExpr) (c : ℤ)

/-- How large the value of a model can be if the draws from the `k`-th distribution have size at most `B k`. -/
def IExpr.size (B : ℕ → ℕ) : IExpr → ℕ
  | .src k => B k
  | .num z => z.natAbs
  | .neg e => e.size B
  | .bin .add a b => a.size B + b.size B
  | .bin .sub a b => a.size B + b.size B
  | .bin .mul a b => a.size B * b.size B
  | .bin .max a b => Max.max (a.size B) (b.size B)
  | .bin .min a b => Max.max (a.size B) (b.size B)
  | .pow e k => e.size B ^ k
  | .lclip e c => Max.max (e.size B) c.natAbs
  | .rclip e c => Max.max (e.size B) c.natAbs

/-- Whole numbers written in the model fit, and wherever numbers are compared (`dist_max`, `dist_min`, bounds) they fit. -/
def IExpr.ComparesSmall (B : ℕ → ℕ) : IExpr → Prop
  | .src _ => True
  | .num z => Fits z
  | .neg e => e.ComparesSmall B
  | .bin o a b => a.ComparesSmall B ∧ b.ComparesSmall B ∧ (o.Compares → a.size B < 2 ^ 63 ∧ b.size B < 2 ^ 63)
  | .pow e k => e.ComparesSmall B ∧ k < 2 ^ 63
  | .lclip e c => e.ComparesSmall B ∧ e.size B < 2 ^ 63 ∧ Fits c
  | .rclip e c => e.ComparesSmall B ∧ e.size B < 2 ^ 63 ∧ Fits c

/-- No comparison at all: sums, differences, products and powers. -/
def IExpr.Polynomial : IExpr → Prop
  | .src _ => True
  | .num _ => True
  | .neg e => e.Polynomial
  | .bin o a b => ¬ o.Compares ∧ a.Polynomial ∧ b.Polynomial
  | .pow e _ => e.Polynomial
  | .lclip _ _ => False
  | .rclip _ _ => False

end Verif.Spec
