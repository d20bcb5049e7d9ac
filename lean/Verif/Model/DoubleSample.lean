import Verif.Model.DoubleWeights
import Verif.Model.RoundedSample

/-!
# Sampling an expression in floating-point numbers of bounded size

As `Model/SpecialSample`, with a rounding into the format after every operation; what is too large becomes infinite.
-/

namespace Verif

open Spec

variable {σ K : Type} [Field K] [LinearOrder K] [FloorRing K] (f : FloatFormat) (fl : K → K)

/-- One operation on array elements (distributions.py:129-149, 320-380); maxima and minima need no rounding. -/
def opDouble : XOp → XVal K → XVal K → XVal K
  | .max, a, b => XVal.max a b
  | .min, a, b => XVal.min a b
  | o, a, b => (XVal.op o a b).toDouble f fl

/-- `sample(e, n)` for `n > 1` (samplers.py:1216-1227) in floats: what a generator returns and the numbers of the expression
are rounded too; the bounds of `lclip` and `rclip` are finite. -/
def sampleDouble (E : Env σ K) (ds : ℕ → Obj (St σ K) K) (n : ℕ) : XExpr K → SM σ K (List (XVal K))
  | .src k => SM.bind (sampleObj E (ds k) n none none) fun z =>
      SM.lift (do .ok ((← floats z).map fun x => (XVal.fin x).toDouble f fl))
  | .num x => SM.pure (List.replicate n ((XVal.fin x).toDouble f fl))
  | .neg e => SM.bind (sampleDouble E ds n e) fun xs => SM.pure (xs.map XVal.neg)
  | .bin o a b => SM.bind (sampleDouble E ds n a) fun xs => SM.bind (sampleDouble E ds n b) fun ys =>
      SM.pure (List.zipWith (opDouble f fl o) xs ys)
  | .lclip e c => SM.bind (sampleDouble E ds n e) fun xs => SM.pure (xs.map (XVal.lclip · (fl c)))
  | .rclip e c => SM.bind (sampleDouble E ds n e) fun xs => SM.pure (xs.map (XVal.rclip · (fl c)))

end Verif
