import Verif.Model.Rounded
import Mathlib.Analysis.Real.Sqrt

/-!
# Samplers, interval parameters and Bayes' rule with rounding

As in `Model/Rounded`, `fl` is applied after every operation.
-/

namespace Verif

variable {K : Type} [Field K] [LinearOrder K] (fl : K → K)

/-- One number of `uniform_sample(low, high)` (samplers.py:541); numpy documents the value as
`low + (high - low) * random()`, where `u` is the number in `[0, 1)` that is drawn. -/
def uniformFl (low high u : K) : K := fl (low + fl (fl (high - low) * u))

/-- One number of `pert_sample` (samplers.py:408, 411), where `b` is the number drawn from the beta
distribution. -/
def pertFl (left right b : K) : K := fl (left + fl (b * fl (right - left)))

/-- `simple_bayes` (bayes.py:60). -/
def simpleBayesFl (likelihoodH likelihoodNotH prior : K) : Except PyErr K :=
  let den := fl (fl (likelihoodH * prior) + fl (likelihoodNotH * fl (1 - prior)))
  if den = 0 then .error .zeroDivisionError
  else .ok (fl (fl (likelihoodH * prior) / den))

/-- `mean` and `sd` of `norm(x, y)` (distributions.py:697-711); `z` is `normed_sigma`. -/
def normFl (x y z : K) : Except PyErr (K × K) :=
  if x > y then .error .valueError
  else
    let mean := fl (fl (x + y) / 2)
    .ok (mean, fl (fl (y - mean) / z))

/-- The mean of `update` for two normal distributions (bayes.py:353-362); `sd ** 2` is the rounded square. -/
def updateMeanFl (m1 s1 m2 s2 w : K) : K :=
  let v1 := fl (s1 * s1)
  let v2 := fl (s2 * s2)
  fl (fl (fl (v2 * m1) + fl (w * fl (v1 * m2))) / fl (fl (w * v1) + v2))

/-- The standard deviation of `update` for two normal distributions (bayes.py:363-365). -/
noncomputable def updateSdFl (fl : ℝ → ℝ) (s1 s2 w : ℝ) : ℝ :=
  let v1 := fl (s1 * s1)
  let v2 := fl (s2 * s2)
  fl (Real.sqrt (fl (fl (v2 * v1) / fl (fl (w * v1) + v2))))

end Verif
