import Verif.Model.DoubleWeights
import Verif.Model.RoundedDists

/-! # `update` of normal distributions in floating-point numbers of bounded size -/

namespace Verif

variable {K : Type} [Field K] [LinearOrder K] (f : FloatFormat) (fl : K → K)

/-- The mean of `update(norm, norm)` and its variance, of which the code takes the square root (bayes.py:353-366), for finite
means, standard deviations and evidence weight.  The standard deviations are numpy numbers, as `norm(x, y)` computes them, so
that no operation raises. -/
def updateX (m1 s1 m2 s2 w : K) : XVal K × XVal K :=
  let mul (a b : XVal K) := (a.mul b).toDouble f fl
  let v1 := mul (.fin s1) (.fin s1)                                             -- 355
  let v2 := mul (.fin s2) (.fin s2)                                             -- 357
  let den := ((mul (.fin w) v1).add v2).toDouble f fl                           -- 361, 364
  let num := ((mul v2 (.fin m1)).add (mul (.fin w) (mul v1 (.fin m2)))).toDouble f fl
  ((num.div den).toDouble f fl, ((mul v2 v1).div den).toDouble f fl)

end Verif
