import Verif.Model.Forecast

/-!
# `kelly` with a resolution date (utils.py:965-969)

Times are real numbers counted in days, so that every integer is a midnight; `resolve_date` is parsed by
`datetime.strptime(resolve_date, "%Y-%m-%d")`, which gives the midnight at which that day begins
(simplification: the parsed day number is the argument here).
-/

namespace Verif

/-- `timedelta.days` (utils.py:969): the number of whole days, rounded down. -/
noncomputable def wholeDays (t : ℝ) : ℤ := ⌊t⌋

/-- `kelly(..., resolve_date)` called at time `now` (utils.py:951-986). -/
noncomputable def kellyAt (now : ℝ) (my market : ℝ) (deference : ℝ := 0) (bankroll : ℝ := 1)
    (resolve : Option ℤ := none) (current : ℝ := 0) (error : Bool := true) : Except PyErr KellyBet :=
  kelly my market deference bankroll (resolve.map fun r => wholeDays ((r : ℝ) - now)) current error

end Verif
