import Verif.Model.Percentiles
import Mathlib.Data.Int.Log

/-!
# Python's format `"{:.<d>e}"`, used by `get_log_percentiles` (`squigglepy/utils.py:547, 553`)

Numbers are exact; the digits are those of the exact value, rounded half to even, as in Python.
-/

namespace Verif

/-- The last `w` decimal digits of `m`. -/
def fixedDigits : ℕ → ℕ → List Char
  | 0, _ => []
  | w + 1, m => fixedDigits w (m / 10) ++ [Nat.digitChar (m % 10)]

/-- The exponent: a sign and at least two digits. -/
def sciExponent (e : ℤ) : List Char :=
  (if e < 0 then '-' else '+') :: fixedDigits (max 2 (Nat.log 10 e.natAbs + 1)) e.natAbs

variable {K : Type} [Field K] [LinearOrder K] [FloorRing K]

/-- The `d + 1` digits, as a whole number, and the exponent of `y ≥ 0`.  A carry out of the first digit moves the
exponent. -/
def sciParts (d : ℕ) (y : K) : ℕ × ℤ :=
  if y = 0 then (0, 0)
  else
    let e := Int.log 10 y
    let m := (roundEven (y * (10 : K) ^ ((d : ℤ) - e))).toNat
    if m = 10 ^ (d + 1) then (10 ^ d, e + 1) else (m, e)

/-- `("{:." + str(d) + "e}").format(x)` (utils.py:547). -/
def sciText (d : ℕ) (x : K) : List Char :=
  let parts := sciParts d |x|
  let digits := fixedDigits (d + 1) parts.1
  (if x < 0 then ['-'] else []) ++ digits.take 1 ++ (if d = 0 then [] else '.' :: digits.drop 1) ++
    'e' :: sciExponent parts.2

/-- The same for the numbers `get_percentiles` returns: floats and whole numbers. -/
def sciFormat (d : ℕ) (v : Scalar K) : String :=
  match v.val? with
  | some x => String.ofList (sciText d x)
  | none => ""

end Verif
