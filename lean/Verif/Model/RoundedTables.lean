import Verif.Model.RoundedPercentiles
import Verif.Model.RoundedRound

/-!
# Percentiles with digits, with rounding (`squigglepy/utils.py:489-500, 584-630`)
-/

namespace Verif

variable {K : Type} [Field K] [LinearOrder K] [FloorRing K] (fl : K → K)

/-- The values of `get_percentiles(data, ps, digits=digits)` without weights (utils.py:495-496), in the order of `ps`. -/
def percentilesDigitsFl (digits : ℤ) (data ps : List K) : Except PyErr (List (Scalar K)) := do
  .ok ((← npPercentileFl fl data ps).map (roundScalarFl fl digits))

/-- `get_median_and_ci(data, credibility, digits=digits)` without weights (utils.py:621-630): lower end, median, upper
end. -/
def medianAndCIDigitsFl (digits : ℤ) (data : List K) (credibility : K) : Except PyErr (Scalar K × Scalar K × Scalar K) := do
  let r ← medianAndCIFl fl data credibility
  .ok (roundScalarFl fl digits r.1, roundScalarFl fl digits r.2.1, roundScalarFl fl digits r.2.2)

end Verif
