import Mathlib.MeasureTheory.Measure.Lebesgue.Basic

/-!
# The uniform law on an interval
-/

namespace Verif.Spec

open MeasureTheory

/-- `rng.uniform(a, b)`: the length of the part of a set in `[a, b)`, divided by the length of `[a, b)`. -/
noncomputable def uniformLaw (a b : ℝ) : Measure ℝ :=
  (ENNReal.ofReal (b - a))⁻¹ • volume.restrict (Set.Ico a b)

end Verif.Spec
