import Verif.Model.Rounded
import Mathlib.Analysis.SpecialFunctions.Pow.Real

/-!
# `laplace` over time with rounding

As in `Model/Rounded`, `fl` is applied after every arithmetic operation; `pw` is the computed `**`.
-/

namespace Verif

/-- `1 - ((1 + r / t) ** -k)` (utils.py:799, 801, 803, 805, 807, 809).  Dividing by zero and a negative power of zero
raise; a fractional power of a negative number would be complex and is left out, as in `Model/Forecast`. -/
noncomputable def laplaceTimeFl (fl : ℝ → ℝ) (pw : ℝ → ℝ → ℝ) (r t : ℝ) (k : ℕ) : Except PyErr ℝ :=
  if t = 0 then .error .zeroDivisionError
  else
    let base := fl (1 + fl (r / t))
    if 0 < base then .ok (fl (1 - pw base (-(k : ℝ))))
    else if base = 0 then .error .zeroDivisionError
    else .error .unmodelled

/-- `laplace(s, time_passed=t, time_remaining=r, time_fixed=fixed)` without `n` (utils.py:798-809); `s` is a number
of events, so that `-s` and `-(s + 1)` are exact.  Without `time_remaining` it is 1. -/
noncomputable def laplaceOverTimeFl (fl : ℝ → ℝ) (pw : ℝ → ℝ → ℝ) (s : ℕ) (t : ℝ) (r : Option ℝ) (fixed : Bool) :
    Except PyErr ℝ :=
  if s = 0 then laplaceTimeFl fl pw (r.getD 1) t 1
  else if fixed then laplaceTimeFl fl pw (r.getD 1) t (s + 1)
  else laplaceTimeFl fl pw (r.getD 1) t s

end Verif
