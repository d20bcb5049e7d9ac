import Verif.Model.DoubleWeights
import Verif.Model.RoundedDists

/-! # The parameters of `norm(x, y)` in floating-point numbers of bounded size -/

namespace Verif

variable {K : Type} [Field K] [LinearOrder K] (f : FloatFormat) (fl : K → K)

/-- `mean` and `sd` of `norm(x, y)` (distributions.py:697-711) for finite floats; `z` is `normed_sigma`, a numpy
number, so that dividing by it does not raise. -/
def normX (x y z : K) : Except PyErr (XVal K × XVal K) :=
  if x > y then .error .valueError
  else
    let mean := ((((XVal.fin x).add (.fin y)).toDouble f fl).div (.fin 2)).toDouble f fl
    .ok (mean, ((((XVal.fin y).sub mean).toDouble f fl).div (.fin z)).toDouble f fl)

end Verif
