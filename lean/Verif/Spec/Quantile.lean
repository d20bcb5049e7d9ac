import Mathlib.MeasureTheory.Measure.Real
import Mathlib.MeasureTheory.Constructions.BorelSpace.Real

/-!
# Quantiles of a law
-/

namespace Verif.Spec

open MeasureTheory

/-- `x` is the only point that splits the law `μ` in the proportion `p : 1 - p`: any smaller point has less
than `p` below it, any larger point has less than `1 - p` above it. -/
structure IsQuantile (μ : Measure ℝ) (p x : ℝ) : Prop where
  below : ∀ a < x, μ.real (Set.Iio a) < p
  above : ∀ b > x, μ.real (Set.Ioi b) < 1 - p

end Verif.Spec
