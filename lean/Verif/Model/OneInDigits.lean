import Verif.Model.OneIn
import Verif.Model.SciText

/-!
# The text of `one_in` with digits (`squigglepy/utils.py:403-427`)
-/

namespace Verif

/-- Without the zeros at the end; one zero stays if there is nothing else. -/
def trimZeros (cs : List Char) : List Char :=
  match cs.reverse.dropWhile (· == '0') with
  | [] => ['0']
  | r => r.reverse

/-- `"{:,}".format(v)` (utils.py:427) for the float nearest to `m / 10^k`.  Python prints the shortest decimals that read
as the same float: these are the decimals of `m / 10^k` if that has at most 15 significant digits (`m < 10^15`).
Numbers below 0.0001 (printed with an exponent) and longer ones are not modelled. -/
def floatText (k m : ℕ) : Except PyErr (List Char) :=
  if 10 ^ 15 ≤ m ∨ (m ≠ 0 ∧ m * 10 ^ 4 < 10 ^ k) then .error .unmodelled
  else .ok (thousands (m / 10 ^ k : ℕ) ++ '.' :: trimZeros (fixedDigits k (m % 10 ^ k)))

/-- `one_in(p, digits)` with the default `verbose=True` (utils.py:426-427), also with `digits > 0`.  Negative `p` with
digits are not modelled. -/
def oneInDigitsText {K : Type} [Field K] [LinearOrder K] [FloorRing K] (p : K) (digits : ℤ) :
    Except PyErr (List Char) := do
  match ← oneIn p digits with
  | .int z => .ok ("1 in ".toList ++ thousands z)
  | .flt v => if p < 0 then .error .unmodelled else
      .ok ("1 in ".toList ++ (← floatText digits.toNat (roundEven (v * (10 : K) ^ digits)).toNat))
  | _ => .error .unmodelled

end Verif
