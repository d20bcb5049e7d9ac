import Mathlib.Algebra.Field.Defs

/-!
# Reading a number in scientific notation
-/

namespace Verif

/-- The whole number written with these digits. -/
def readDigits (cs : List Char) : ℕ := cs.foldl (fun n c => 10 * n + (c.toNat - 48)) 0

/-- A number with an optional minus sign, an optional fraction after a point, and an exponent after `e`. -/
def readSci {K : Type} [Field K] (s : List Char) : K :=
  let body := if s.head? = some '-' then s.tail else s
  let mantissa := body.takeWhile (· ≠ 'e')
  let exponent := (body.dropWhile (· ≠ 'e')).tail
  let whole := mantissa.takeWhile (· ≠ '.')
  let fraction := (mantissa.dropWhile (· ≠ '.')).tail
  let e : ℤ := if exponent.head? = some '-' then -(readDigits exponent.tail : ℤ) else readDigits exponent.tail
  (if s.head? = some '-' then -1 else 1) * (readDigits (whole ++ fraction) : K) * (10 : K) ^ (e - fraction.length)

/-- The shape of a number in scientific notation with `d` decimals: an optional minus sign, one digit, a point and `d`
digits if `d` is not 0, then `e`, a sign and at least two digits. -/
def IsSci (d : ℕ) (s : List Char) : Prop :=
  ∃ (minus : Bool) (first : Char) (decimals : List Char) (sign : Char) (exponent : List Char),
    s = (if minus then ['-'] else []) ++ first :: (if d = 0 then [] else '.' :: decimals) ++ 'e' :: sign :: exponent ∧
    first.isDigit ∧ decimals.length = d ∧ (∀ c ∈ decimals, c.isDigit) ∧ (sign = '+' ∨ sign = '-') ∧
    2 ≤ exponent.length ∧ ∀ c ∈ exponent, c.isDigit

end Verif
