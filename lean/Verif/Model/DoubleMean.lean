import Verif.Model.DoubleWeights
import Verif.Model.RoundedMean

/-! # Means in floating-point numbers of bounded size -/

namespace Verif

variable {K : Type} [Field K] [LinearOrder K] (f : FloatFormat) (fl : K → K)

/-- The sum inside `np.mean` (utils.py:590, bayes.py:304-305), of finite floats added in the given order (as in `sumFl`); each
addition rounds into the bounded format. -/
def SumOrder.sumX : SumOrder K → XVal K
  | .one x => .fin x
  | .add l r => ((SumOrder.sumX l).add (SumOrder.sumX r)).toDouble f fl

/-- `np.mean` (utils.py:590, bayes.py:304-305) of finite floats. -/
def npMeanX (t : SumOrder K) : XVal K := ((t.sumX f fl).div (.fin (t.leaves.length : K))).toDouble f fl

end Verif
