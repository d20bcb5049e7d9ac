import Mathlib.Analysis.SpecialFunctions.Log.Basic
import Mathlib.Analysis.SpecialFunctions.Pow.Real

/-!
# Specification: growth of wealth under repeated bets
-/

namespace Verif.Spec

/-- Expected log growth when an event of probability `p` is bought at price `m` with the fraction `f`
of the wealth: one pays `f` and holds `f / m` shares that pay 1 each if the event happens. -/
noncomputable def logGrowth (p m f : ℝ) : ℝ :=
  p * Real.log (1 - f + f / m) + (1 - p) * Real.log (1 - f)

/-- `a` is the yearly return that gives the total return `roi` after `t` days. -/
def IsYearlyReturn (a roi t : ℝ) : Prop := 0 < 1 + a ∧ (1 + a) ^ (t / 365) = 1 + roi

end Verif.Spec
