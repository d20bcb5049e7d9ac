import Verif.Model.Rounded
import Mathlib.Analysis.Real.Sqrt

/-!
# The parameters of lognormal distributions with rounding

As in `Model/Rounded`, `fl` is applied after every arithmetic operation, also after square roots; `lg` is the computed
`np.log`.  `v ** 2` is the rounded square.  No overflow or underflow.
-/

namespace Verif

/-- `norm_mean` and `norm_sd` of `lognorm(x, y)` (distributions.py:790-793, 816-820); `z` is `normed_sigma`. -/
noncomputable def lognormFl (fl lg : ℝ → ℝ) (x y z : ℝ) : Except PyErr (ℝ × ℝ) :=
  if x > y then .error .valueError
  else if x ≤ 0 then .error .valueError
  else
    let mean := fl (fl (lg x + lg y) / 2)
    .ok (mean, fl (fl (lg y - mean) / z))

/-- `norm_mean` of `lognorm(lognorm_mean=m, lognorm_sd=s)` (distributions.py:828-830); `m` is positive here. -/
noncomputable def lognormMeanFl (fl lg : ℝ → ℝ) (m s : ℝ) : ℝ :=
  lg (fl (fl (m * m) / fl (Real.sqrt (fl (fl (s * s) + fl (m * m))))))

/-- `norm_sd` of `lognorm(lognorm_mean=m, lognorm_sd=s)` (distributions.py:831); `m` is positive here. -/
noncomputable def lognormSdFl (fl lg : ℝ → ℝ) (m s : ℝ) : ℝ :=
  fl (Real.sqrt (lg (fl (1 + fl (fl (s * s) / fl (m * m))))))

end Verif
