import Verif.Model.DoubleWeights
import Verif.Model.RoundedPercentiles

/-! # Percentiles in floating-point numbers of bounded size -/

namespace Verif

variable {K : Type} [Field K] [LinearOrder K] (f : FloatFormat) (fl : K → K)

/-- numpy's `_lerp(a, b, t)`, as in `lerpFl`, for finite floats `a` and `b`. -/
def lerpX (a b t : K) : XVal K :=
  let range := ((XVal.fin b).sub (.fin a)).toDouble f fl
  if 1 / 2 ≤ t then ((XVal.fin b).sub ((range.mul (.fin (fl (1 - t)))).toDouble f fl)).toDouble f fl
  else ((XVal.fin a).add ((range.mul (.fin t)).toDouble f fl)).toDouble f fl

variable [FloorRing K]

/-- `np.percentile` of sorted finite floats at one percentile between 0 and 100, as in `percentileFl`.  Positions are at most
the number of data and do not overflow. -/
def percentileX (s : List K) (p : K) : XVal K :=
  let h := positionFl fl s.length p
  if (s.length : K) - 1 ≤ h then .fin (s.getD (s.length - 1) 0)
  else
    let j := ⌊h⌋.toNat
    lerpX f fl (s.getD j 0) (s.getD (j + 1) 0) (fl (h - ⌊h⌋))

/-- `np.percentile(data, ps)` (utils.py:495) for finite floats. -/
def npPercentileX (data ps : List K) : Except PyErr (List (XVal K)) :=
  if ∃ p ∈ ps, p < 0 ∨ 100 < p then .error .valueError
  else if data = [] then .error .unmodelled
  else .ok (ps.map (percentileX f fl (data.insertionSort (· ≤ ·))))

end Verif
