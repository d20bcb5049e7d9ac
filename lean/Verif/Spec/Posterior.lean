import Mathlib.MeasureTheory.Measure.WithDensity
import Mathlib.MeasureTheory.Constructions.BorelSpace.Real
import Mathlib.MeasureTheory.Measure.Lebesgue.Basic
import Mathlib.Analysis.SpecialFunctions.Pow.Real
import Mathlib.Probability.Distributions.Gaussian.Real

/-!
# Bayes' theorem

A prior is a measure on the possible values of an unknown number (of any total mass), a likelihood says how probable the
data are for each of these values.
-/

namespace Verif.Spec

open MeasureTheory

/-- Bayes' theorem: the posterior has the density "likelihood of the data / total probability of the data" with respect
to the prior. -/
noncomputable def posterior (prior : Measure ℝ) (likelihood : ℝ → ENNReal) : Measure ℝ :=
  (∫⁻ θ, likelihood θ ∂prior)⁻¹ • prior.withDensity likelihood

/-- The probability of an event given the data, if the event has probability `q θ` when the unknown number is `θ`: the
probability of data and event, divided by the probability of the data. -/
noncomputable def predictive (prior : Measure ℝ) (likelihood q : ℝ → ENNReal) : ENNReal :=
  (∫⁻ θ, likelihood θ * q θ ∂prior) / ∫⁻ θ, likelihood θ ∂prior

/-- The likelihood of `s` successes and `f` failures (in a given order) if a success has probability `p`. -/
noncomputable def trialsLikelihood (s f : ℝ) (p : ℝ) : ENNReal := ENNReal.ofReal (p ^ s * (1 - p) ^ f)

/-- The likelihood of `s` events within the time `t`, up to a factor that does not depend on the rate, if events happen
at the rate `lam` (a Poisson process). -/
noncomputable def eventsLikelihood (s t : ℝ) (lam : ℝ) : ENNReal := ENNReal.ofReal (lam ^ s * Real.exp (-(t * lam)))

/-- Total ignorance of a rate: the same weight for every positive rate … -/
noncomputable def flatRate : Measure ℝ := volume.restrict (Set.Ioi 0)

/-- … or the same weight for every order of magnitude of the rate. -/
noncomputable def scaleFreeRate : Measure ℝ := flatRate.withDensity fun lam => ENNReal.ofReal (1 / lam)

/-- The probability of at least one event within the time `r`, if events happen at the rate `lam`. -/
noncomputable def someEvent (r : ℝ) (lam : ℝ) : ENNReal := ENNReal.ofReal (1 - Real.exp (-(r * lam)))

/-- The likelihood of `w` independent measurements that all came out as `x`, if a measurement is the unknown number plus
a normal error of standard deviation `sd` (`w` need not be whole). -/
noncomputable def measuredLikelihood (x sd w : ℝ) (θ : ℝ) : ENNReal :=
  ENNReal.ofReal (ProbabilityTheory.gaussianPDFReal θ (sd ^ 2).toNNReal x ^ w)

end Verif.Spec
