import Verif.Spec.Machine

/-! # Models with whole numbers too wide for 64 bits -/

namespace Verif.Spec

/-- Too wide for any integer type of numpy: an array of such numbers is an array of Python objects. -/
def TooWide (z : ℤ) : Prop := z < -2 ^ 63 ∨ 2 ^ 64 ≤ z

instance (z : ℤ) : Decidable (TooWide z) := inferInstanceAs (Decidable (_ ∨ _))

/-- The names of the powers of a thousand (short scale), from the first power on. -/
def shortScale : List String :=
  ["thousand", "million", "billion", "trillion", "quadrillion", "quintillion", "sextillion", "septillion", "octillion",
    "nonillion", "decillion"]

/-- The letters for the first of them. -/
def scaleLetters : List String := ["K", "M", "B", "T"]

/-- A number too wide for 64 bits takes part in computing the value. -/
def IExpr.HasWide : IExpr → Bool
  | .src _ => false
  | .num z => decide (TooWide z)
  | .neg e => e.HasWide
  | .bin _ a b => a.HasWide || b.HasWide
  | .pow e _ => e.HasWide
  | .lclip _ _ => false
  | .rclip _ _ => false

/-- Every result on the way either fits into 64 bits whatever is drawn, or is computed with a number that is too wide for
them.  (No bounds on results of the second kind; no numbers from `2 ^ 63` up to `2 ^ 64`.) -/
def IExpr.Kept (B : ℕ → ℕ) : IExpr → Prop
  | .src _ => True
  | .num z => Fits z ∨ TooWide z
  | .neg e => e.Kept B ∧ (e.HasWide = true ∨ e.size B < 2 ^ 63)
  | .bin o a b => a.Kept B ∧ b.Kept B ∧ (a.HasWide = true ∨ b.HasWide = true ∨ (IExpr.bin o a b).size B < 2 ^ 63)
  | .pow e k => e.Kept B ∧ k < 2 ^ 63 ∧ (e.HasWide = true ∨ e.size B ^ k < 2 ^ 63)
  | .lclip e c => e.Kept B ∧ e.HasWide = false ∧ Fits c
  | .rclip e c => e.Kept B ∧ e.HasWide = false ∧ Fits c

end Verif.Spec
