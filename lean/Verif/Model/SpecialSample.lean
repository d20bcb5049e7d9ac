import Verif.Model.Special
import Verif.Model.Sample

/-!
# Sampling an expression with infinities and `nan`

`Model/Special.lean` evaluates an expression on given draws.  Here the draws come from the sampler: the
distributions the expression is built from are sampled one after the other, left to right.
-/

namespace Verif

open Spec

variable {σ K : Type} [Field K] [LinearOrder K] [FloorRing K]

/-- The operators of the main model. -/
def XOp.toBinOp : Spec.XOp → BinOp
  | .add => .add
  | .sub => .sub
  | .mul => .mul
  | .div => .truediv
  | .max => .max
  | .min => .min

/-- The expression as an object `sample` accepts (distributions.py:129-149, 320-380, 504-580); `ds k` is the `k`-th
distribution. -/
def toObj (ds : ℕ → Obj (St σ K) K) : XExpr K → Obj (St σ K) K
  | .src k => ds k
  | .num x => .lit (.flt x)
  | .neg e => .un .neg (toObj ds e)
  | .bin o a b => .bin (.op (XOp.toBinOp o)) (toObj ds a) (toObj ds b)
  | .lclip e c => .bin .lclip (toObj ds e) (.lit (.flt c))
  | .rclip e c => .bin .rclip (toObj ds e) (.lit (.flt c))

/-- The samples as floats; other values are left out of this model. -/
def floats (z : Samples K) : Except PyErr (List K) :=
  mapExcept (fun v => match v with
    | .flt x => .ok x
    | _ => .error .unmodelled) z.toList

/-- `sample(e, n)` for `n > 1` (samplers.py:1216-1227) with numpy's arithmetic, including its infinities and
`nan`.  Bounds inside `ds k` are the distribution's own. -/
def sampleX (E : Env σ K) (ds : ℕ → Obj (St σ K) K) (n : ℕ) : XExpr K → SM σ K (List (XVal K))
  | .src k => SM.bind (sampleObj E (ds k) n none none) fun z =>
      SM.lift (do .ok ((← floats z).map .fin))
  | .num x => SM.pure (List.replicate n (.fin x))
  | .neg e => SM.bind (sampleX E ds n e) fun xs => SM.pure (xs.map XVal.neg)
  | .bin o a b => SM.bind (sampleX E ds n a) fun xs => SM.bind (sampleX E ds n b) fun ys =>
      SM.pure (List.zipWith (XVal.op o) xs ys)
  | .lclip e c => SM.bind (sampleX E ds n e) fun xs => SM.pure (xs.map (XVal.lclip · c))
  | .rclip e c => SM.bind (sampleX E ds n e) fun xs => SM.pure (xs.map (XVal.rclip · c))

end Verif
