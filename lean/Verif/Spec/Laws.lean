import Mathlib.Probability.Distributions.Gaussian.Real
import Mathlib.Probability.Distributions.Beta

/-!
# Laws of one draw

numpy documents the law of the number returned by each generator method.  The laws are Mathlib's.
-/

namespace Verif.Spec

open MeasureTheory ProbabilityTheory

/-- `rng.normal(mean, sd)`. -/
noncomputable def normalLaw (m s : ℝ) : Measure ℝ := gaussianReal m (.mk (s ^ 2) (sq_nonneg s))

/-- `rng.lognormal(mean, sd)`: the exponential of a normal variable. -/
noncomputable def lognormalLaw (m s : ℝ) : Measure ℝ := (normalLaw m s).map Real.exp

/-- The reciprocal of a lognormal variable. -/
noncomputable def invlognormalLaw (m s : ℝ) : Measure ℝ := (lognormalLaw m s).map fun x => 1 / x

/-- `norm.ppf` is the quantile function of the standard normal law. -/
def IsPpf (ppf : ℝ → ℝ) : Prop :=
  ∀ p, 0 < p → p < 1 → gaussianReal 0 1 (Set.Iic (ppf p)) = ENNReal.ofReal p

/-- `[x, y]` is the central credible interval of the law: it has the stated probability (in percent)
and the two tails are equally likely. -/
structure HasCI (μ : Measure ℝ) (x y cred : ℝ) : Prop where
  inside : μ (Set.Icc x y) = ENNReal.ofReal (cred / 100)
  below : μ (Set.Iio x) = ENNReal.ofReal ((1 - cred / 100) / 2)
  above : μ (Set.Ioi y) = ENNReal.ofReal ((1 - cred / 100) / 2)

/-- The first shape parameter of the beta law behind a PERT law: 1 plus `lam` times the position of the mode. -/
noncomputable def pertAlpha (l m r lam : ℝ) : ℝ := 1 + lam * ((m - l) / (r - l))

/-- The second shape parameter. -/
noncomputable def pertBeta (l m r lam : ℝ) : ℝ := 1 + lam * ((r - m) / (r - l))

end Verif.Spec
