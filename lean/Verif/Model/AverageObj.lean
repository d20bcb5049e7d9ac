import Verif.Model.MixtureObj
import Verif.Model.Update

/-!
# The distribution `average` returns
-/

namespace Verif

variable {K : Type} [Field K] [LinearOrder K] {S : Type}

/-- `average(prior, evidence, weights=[0.5, 0.5], relative_weights=None)` (bayes.py:413-446): the mixture of the
two, as an object that can be sampled. -/
def averageObj (prior evidence : Obj S K) (weights : WArg K := .list [some (1 / 2), some (1 / 2)])
    (relativeWeights : WArg K := .absent) : Except PyErr (Obj S K) :=
  (averageDists prior evidence weights relativeWeights).map mixtureObj

end Verif
