import Verif.Model.Update
import Verif.Model.Sample

/-!
# Sampling what `update` returns (`squigglepy/bayes.py:353-413`, `squigglepy/samplers.py:1151-1179`)
-/

namespace Verif

/-- The distribution object as `sample` sees it: `sample` passes `mean`, `sd` of a normal distribution
(samplers.py:1151-1152), `norm_mean`, `norm_sd` of a lognormal one (samplers.py:1154-1155), the two parameters of a beta
(samplers.py:1163-1164) and of a gamma distribution (samplers.py:1178-1179) to their samplers.  Missing parameters and other
classes: `none`. -/
def PDist.obj {T : Type} : PDist → Option (Obj T ℝ)
  | .norm ⟨some m, some s⟩ lc rc => some (.leaf (.normal m s) (lc.map .flt) (rc.map .flt))
  | .lognorm ⟨some m, some s, _, _⟩ lc rc => some (.leaf (.lognormal m s) (lc.map .flt) (rc.map .flt))
  | .beta a b => some (.leaf (.beta a b) none none)
  | .gamma a s lc rc => some (.leaf (.gamma a s) (lc.map .flt) (rc.map .flt))
  | _ => none

end Verif
