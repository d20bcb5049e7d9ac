import Verif.Model.Update
import Mathlib.Probability.Distributions.Gaussian.Real

/-!
# Specification vocabulary for updating
-/

namespace Verif

/-- A normal distribution object with the given mean and standard deviation (any bounds). -/
def IsNormal (d : PDist) (m s : ℝ) : Prop := ∃ lc rc, d = .norm ⟨some m, some s⟩ lc rc

/-- A lognormal distribution object whose logarithm has the given mean and standard deviation. -/
def IsLognormal (d : PDist) (m s : ℝ) : Prop :=
  ∃ lm ls lc rc, d = .lognorm ⟨some m, some s, lm, ls⟩ lc rc

/-- A gamma distribution object. -/
def IsGamma (d : PDist) (shape scale : ℝ) : Prop := ∃ lc rc, d = .gamma shape scale lc rc

/-- One piece of normal evidence: mean, standard deviation, weight. -/
structure Evidence where
  mean : ℝ
  sd : ℝ
  weight : ℝ

/-- The evidence makes sense. -/
def Evidence.Valid (e : Evidence) : Prop := 0 < e.sd ∧ 0 ≤ e.weight

/-- Precision is the reciprocal of the variance; evidence counts with its weight. -/
noncomputable def Evidence.precision (e : Evidence) : ℝ := e.weight * (1 / e.sd ^ 2)

end Verif
