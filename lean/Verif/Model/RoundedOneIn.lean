import Verif.Model.OneIn

/-!
# `one_in` with rounding

As in `Model/Rounded`, `fl` is applied after the division; rounding a float to a whole number is exact.
-/

namespace Verif

/-- `one_in(p, verbose=False)` with the default `digits=0` (utils.py:426-427). -/
def oneInFl {K : Type} [Field K] [LinearOrder K] [FloorRing K] (fl : K → K) (p : K) : Except PyErr ℤ :=
  if p = 0 then .error .zeroDivisionError else .ok (truncZ (roundEven (fl (1 / p)) : K))

/-- `one_in(p)` (utils.py:426-427). -/
def oneInTextFl {K : Type} [Field K] [LinearOrder K] [FloorRing K] (fl : K → K) (p : K) : Except PyErr (List Char) := do
  .ok ("1 in ".toList ++ thousands (← oneInFl fl p))

end Verif
