import Verif.Model.Sample
import Verif.Model.ZeroInflated

/-!
# The distribution object a mixture constructor returns
-/

namespace Verif

variable {K : Type} [Field K] [LinearOrder K] {S : Type}

/-- The object `MixtureDistribution.__init__` builds from the processed weights and components
(distributions.py:1713-1721), without bounds. -/
def mixtureObj (p : List K × List (VItem K (Obj S K))) : Obj S K :=
  let ds := p.2.filterMap VItem.plain?
  .mix ds.length (fun i => ds[i]) p.1 none none

/-- `zero_inflated(p_zero, dist)` (distributions.py:1799-1808): the mixture of the number 0 and `dist`. -/
def zeroInflatedObj (p : PArg K) (d : Obj S K) : Except PyErr (Obj S K) :=
  (zeroInflated p (.lit (.int 0)) d).map mixtureObj

end Verif
