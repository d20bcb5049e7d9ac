import Verif.Spec.Float

/-!
# Floating-point numbers of bounded size

A format has `p` binary digits, no number finer than `2^low` and none as large as `2^top`.  A Python float has
`p = 53`, `low = -1074` and `top = 1024`.  Correct rounding first takes a nearest number of the format as if there
were no largest one (small results keep fewer digits); a result that is too large then becomes an infinity.
-/

namespace Verif

/-- Digits, finest unit and size of a floating-point format. -/
structure FloatFormat where
  p : ℕ
  low : ℤ
  top : ℤ

/-- The format of a Python float. -/
def binary64 : FloatFormat := ⟨53, -1074, 1024⟩

/-- A number with at most `p` digits that is a multiple of the finest unit. -/
def InFormat {K : Type} [Field K] (f : FloatFormat) (x : K) : Prop :=
  IsFloat f.p x ∧ ∃ m : ℤ, x = m * (2 : K) ^ f.low

/-- A finite number of the format. -/
def IsDouble {K : Type} [Field K] [LinearOrder K] (f : FloatFormat) (x : K) : Prop :=
  InFormat f x ∧ |x| < (2 : K) ^ f.top

/-- `fl` rounds to a nearest number of the format, before large results become infinities. -/
structure RoundsDouble {K : Type} [Field K] [LinearOrder K] (f : FloatFormat) (fl : K → K) : Prop where
  format : ∀ x, InFormat f (fl x)
  nearest : ∀ x y, InFormat f y → |fl x - x| ≤ |y - x|

/-- Formats with at least two digits that have the numbers from one unit below 1 up to 2 with all their digits. -/
structure FloatFormat.Usual (f : FloatFormat) : Prop where
  digits : 2 ≤ f.p
  fine : f.low + f.p ≤ 0
  large : 1 ≤ f.top

theorem binary64_usual : binary64.Usual := ⟨by decide, by decide, by decide⟩

end Verif
