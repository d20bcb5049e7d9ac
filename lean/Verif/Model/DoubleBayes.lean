import Verif.Model.DoubleWeights
import Verif.Model.RoundedDists

/-! # Bayes' rule in floating-point numbers of bounded size -/

namespace Verif

variable {K : Type} [Field K] [LinearOrder K] (f : FloatFormat) (fl : K → K)

/-- `simple_bayes` (bayes.py:60) for finite Python floats: a division by either zero raises. -/
def simpleBayesX (likelihoodH likelihoodNotH prior : K) : Except PyErr (XVal K) :=
  let num := ((XVal.fin likelihoodH).mul (.fin prior)).toDouble f fl
  let rest := ((XVal.fin 1).sub (.fin prior)).toDouble f fl
  let den := (num.add (((XVal.fin likelihoodNotH).mul rest).toDouble f fl)).toDouble f fl
  if den.val? = some 0 then .error .zeroDivisionError
  else .ok ((num.div den).toDouble f fl)

end Verif
