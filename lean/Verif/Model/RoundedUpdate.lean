import Verif.Model.RoundedDists

/-!
# Updating beta, gamma and lognormal priors with rounding

As in `Model/Rounded`, `fl` is applied after every arithmetic operation.
-/

namespace Verif

variable {K : Type} [Field K] [LinearOrder K]

/-- `update` for two beta distributions (bayes.py:383-388): the parameters of the posterior.  `evidence_weight` is not
used. -/
def betaUpdateFl (fl : K → K) (prior evidence : K × K) : K × K :=
  (fl (prior.1 + evidence.1), fl (prior.2 + evidence.2))

/-- Updating a beta prior on one piece of evidence after the other. -/
def betaUpdatesFl (fl : K → K) (prior : K × K) (evidence : List (K × K)) : K × K :=
  evidence.foldl (betaUpdateFl fl) prior

/-- `update` for two gamma distributions (bayes.py:389-408): shape and scale of the posterior. -/
def gammaUpdateFl (fl : K → K) (shape scale shape' scale' w : K) : Except PyErr (K × K) :=
  if scale = 0 ∨ scale' = 0 then .error .zeroDivisionError
  else
    let es := fl (shape' * w)
    let ps := fl (shape + es)
    let pr := fl (1 / scale)
    let er := fl (1 / scale')
    if ps = 0 then .error .zeroDivisionError
    else
      let rate := fl (fl (fl (shape * pr) + fl (es * er)) / ps)
      if rate = 0 then .error .zeroDivisionError else .ok (ps, fl (1 / rate))

/-- `update` for two lognormal distributions (bayes.py:367-382): `norm_mean` and `norm_sd` of the posterior, by the
formulas for normal distributions. -/
noncomputable def lognormUpdateFl (fl : ℝ → ℝ) (prior evidence : ℝ × ℝ) (w : ℝ) : ℝ × ℝ :=
  (updateMeanFl fl prior.1 prior.2 evidence.1 evidence.2 w, updateSdFl fl prior.2 evidence.2 w)

end Verif
