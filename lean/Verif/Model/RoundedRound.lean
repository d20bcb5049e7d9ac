import Verif.Model.Scalar

/-!
# `_round` with rounding (`squigglepy/utils.py:123-132`)

As in `Model/Rounded`, `fl` is applied after every operation of the code; rounding a float to a whole number is exact.
-/

namespace Verif

variable {K : Type} [Field K] [LinearOrder K] [FloorRing K]

/-- `np.round(x, digits)` of a float (utils.py:127): multiplied by the power of ten, rounded to a whole number (half to
even), divided.  numpy divides and multiplies by `10^(-digits)` for negative digits, which is the same number before
rounding.  The powers of ten are floats (up to 22 digits for doubles). -/
def npRoundFl (fl : K → K) (digits : ℤ) (x : K) : K :=
  fl ((roundEven (fl (x * (10 : K) ^ digits)) : K) / (10 : K) ^ digits)

/-- `_round(x, digits)` of a float (utils.py:123-132); also `dist_round` of a distribution, on every sample
(distributions.py:379-405; arrays of several samples keep floats for negative digits). -/
def roundScalarFl (fl : K → K) (digits : ℤ) (x : K) : Scalar K :=
  if digits ≤ 0 then .int (truncZ (npRoundFl fl digits x)) else .flt (npRoundFl fl digits x)

end Verif
