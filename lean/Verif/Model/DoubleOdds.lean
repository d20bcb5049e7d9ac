import Verif.Model.DoubleWeights
import Verif.Model.Rounded

/-! # Odds and probabilities in floating-point numbers of bounded size -/

namespace Verif

variable {K : Type} [Field K] [LinearOrder K] (f : FloatFormat) (fl : K → K)

/-- `p_to_odds` of a finite float (utils.py:683-690). -/
def pToOddsX (p : K) : Except PyErr (XVal K) :=
  if p ≤ 0 ∨ p ≥ 1 then .error .valueError
  else .ok (((XVal.fin p).div (((XVal.fin 1).sub (.fin p)).toDouble f fl)).toDouble f fl)

/-- `odds_to_p` of a finite float (utils.py:713-720). -/
def oddsToPX (o : K) : Except PyErr (XVal K) :=
  if o ≤ 0 then .error .valueError
  else .ok (((XVal.fin o).div (((XVal.fin 1).add (.fin o)).toDouble f fl)).toDouble f fl)

end Verif
