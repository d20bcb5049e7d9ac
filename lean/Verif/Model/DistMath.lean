import Verif.Model.Pipe
import Verif.Model.Forecast

/-!
# Growth rates that are distributions (`squigglepy/utils.py:844-847, 881-884`)
-/

namespace Verif

variable {S K : Type} [Field K]

/-- `growth_rate_to_doubling_time` of a distribution (utils.py:844-847):
`math.log(2) / dist_log(1.0 + growth_rate)`.  `ln2` is `math.log(2)`, `e` is `math.e`, the default base
(distributions.py:456). -/
def growthToDoublingDist (ln2 e : K) (g : Obj S K) : Except PyErr (Obj S K) :=
  match distLog (.dist (.bin (.op .add) (.lit (.flt 1)) g)) (.flt e) with
  | .ok (.cplx c) => .ok (.bin (.op .truediv) (.lit (.flt ln2)) c.toObj)
  | .ok _ => .error .typeError
  | .error err => .error err

/-- `doubling_time_to_growth_rate` of a distribution (utils.py:881-884):
`dist_exp(math.log(2) / doubling_time) - 1`. -/
def doublingToGrowthDist (ln2 : K) (d : Obj S K) : Except PyErr (Obj S K) :=
  match distExp (.dist (.bin (.op .truediv) (.lit (.flt ln2)) d)) with
  | .ok (.cplx c) => .ok (.bin (.op .sub) c.toObj (.lit (.int 1)))
  | .ok _ => .error .typeError
  | .error err => .error err

end Verif
