import Verif.Model.DoubleWeights
import Verif.Model.Rounded

/-! # Kelly stakes in floating-point numbers of bounded size -/

namespace Verif

variable {K : Type} [Field K] [LinearOrder K] (f : FloatFormat) (fl : K → K)

/-- `np.abs` of a float. -/
def XVal.abs : XVal K → XVal K
  | .fin x => .fin |x|
  | .nzero => .fin 0
  | .pinf => .pinf
  | .ninf => .pinf
  | .nan => .nan

/-- `adj_price`, `kelly`, `target` and `expected_roi` of `kelly`, before they are rounded to be shown. -/
structure KellyX (K : Type) where
  adj : XVal K
  kelly : XVal K
  target : XVal K
  roi : XVal K

/-- `kelly` (utils.py:951-964) for finite floats.  Quotients by zero do not raise here: `1 - market_price` and `market_price`
are never zero (utils.py:951-952). -/
def kellyX (my market deference bankroll : K) (error : Bool) : Except PyErr (KellyX K) :=
  if market ≥ 1 ∨ market ≤ 0 then .error .valueError
  else if my ≥ 1 ∨ my ≤ 0 then .error .valueError
  else if deference > 1 ∨ deference < 0 then .error .valueError
  else if my < market ∧ error = true then .error .valueError
  else
    let rd (v : XVal K) := v.toDouble f fl
    let adj := rd ((rd ((XVal.fin my).mul (rd ((XVal.fin 1).sub (.fin deference))))).add
      (rd ((XVal.fin market).mul (.fin deference))))
    let k := (rd (adj.sub (rd ((rd ((XVal.fin 1).sub adj)).mul
      (rd ((XVal.fin market).div (rd ((XVal.fin 1).sub (.fin market))))))))).abs
    .ok ⟨adj, k, rd ((XVal.fin bankroll).mul k), (rd ((rd (adj.div (.fin market))).sub (.fin 1))).abs⟩

end Verif
