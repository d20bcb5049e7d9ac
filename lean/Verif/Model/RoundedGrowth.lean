import Verif.Model.Rounded
import Mathlib.Data.Real.Basic

/-!
# Growth rates, doubling times and `extremize` with rounding

As in `Model/Rounded`, `fl` is applied after every arithmetic operation; `lg`, `ex` and `pw` are the computed `math.log`,
`math.exp` and `**`.  Only numbers, not arrays or distributions; no overflow.
-/

namespace Verif

/-- `growth_rate_to_doubling_time` of a number (utils.py:850-851): `math.log` raises ValueError at and below 0. -/
noncomputable def growthToDoublingFl (fl lg : ℝ → ℝ) (g : ℝ) : Except PyErr ℝ :=
  if fl (1 + g) ≤ 0 then .error .valueError
  else if lg (fl (1 + g)) = 0 then .error .zeroDivisionError
  else .ok (fl (lg 2 / lg (fl (1 + g))))

/-- `doubling_time_to_growth_rate` of a number (utils.py:887-888). -/
noncomputable def doublingToGrowthFl (fl lg ex : ℝ → ℝ) (d : ℝ) : Except PyErr ℝ :=
  if d = 0 then .error .zeroDivisionError else .ok (fl (ex (fl (lg 2 / d)) - 1))

/-- `extremize` (utils.py:1275-1281). -/
noncomputable def extremizeFl (fl : ℝ → ℝ) (pw : ℝ → ℝ → ℝ) (p e : ℝ) : Except PyErr ℝ :=
  if p ≤ 0 ∨ p ≥ 1 then .error .valueError
  else if p > 1 / 2 then .ok (fl (1 - pw (fl (1 - p)) e))
  else .ok (pw p e)

end Verif
