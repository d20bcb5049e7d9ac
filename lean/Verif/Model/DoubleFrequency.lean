import Verif.Model.DoubleMean

/-! # Relative frequencies in floating-point numbers of bounded size -/

namespace Verif

variable {K : Type} [Field K] [LinearOrder K] (f : FloatFormat) (fl : K → K)

/-- The answer of `bayesnet` (bayes.py:278-305) as in `bayesAnswerFl`, with a `find` and a `conditional_on` that return
booleans; every operation rounds into the bounded format. -/
def bayesAnswerX {α : Type} (order : List K → SumOrder K) (find cond : α → Bool) (events : List α) :
    Except PyErr (XVal K) :=
  let kept := events.filter cond
  if kept.length < 1 then .error .valueError
  else .ok (npMeanX f fl (order (kept.map fun e => if find e then 1 else 0)))

end Verif
