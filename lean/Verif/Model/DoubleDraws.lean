import Verif.Model.DoubleWeights
import Verif.Model.RoundedDists

/-! # Uniform and PERT draws in floating-point numbers of bounded size -/

namespace Verif

variable {K : Type} [Field K] [LinearOrder K] (f : FloatFormat) (fl : K → K)

/-- One number of `uniform_sample(low, high)` (samplers.py:541), as in `uniformFl`, for finite floats.  `none` is the
`OverflowError` that numpy raises when `high - low` is not finite. -/
def uniformX (low high u : K) : Option (XVal K) :=
  let range := ((XVal.fin high).sub (.fin low)).toDouble f fl
  if range.val? = none then none
  else some (((XVal.fin low).add ((range.mul (.fin u)).toDouble f fl)).toDouble f fl)

/-- One number of `pert_sample` (samplers.py:408, 411), as in `pertFl`, for finite floats. -/
def pertX (left right b : K) : XVal K :=
  ((XVal.fin left).add (((XVal.fin b).mul (((XVal.fin right).sub (.fin left)).toDouble f fl)).toDouble f fl)).toDouble f fl

end Verif
