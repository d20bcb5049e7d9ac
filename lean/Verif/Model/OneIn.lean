import Verif.Model.Forecast

/-! # The text of `one_in` (`squigglepy/utils.py:403-427`) -/

namespace Verif

/-- Commas between groups of three digits, for digits from the last to the first. -/
def commas : List Char → List Char
  | a :: b :: c :: d :: rest => a :: b :: c :: ',' :: commas (d :: rest)
  | l => l

/-- `"{:,}".format(z)` for an integer (utils.py:427). -/
def thousands (z : ℤ) : List Char :=
  (if z < 0 then ['-'] else []) ++ (commas (Nat.toDigits 10 z.natAbs).reverse).reverse

/-- `one_in(p, digits)` with the default `verbose=True` (utils.py:426-427).  Only integer results (`digits ≤ 0`)
are modelled here; for floats see `Model/OneInDigits`. -/
def oneInText {K : Type} [Field K] [LinearOrder K] [FloorRing K] (p : K) (digits : ℤ) :
    Except PyErr (List Char) := do
  match ← oneIn p digits with
  | .int z => .ok ("1 in ".toList ++ thousands z)
  | _ => .error .unmodelled

end Verif
