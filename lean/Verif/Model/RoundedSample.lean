import Verif.Model.SpecialSample

/-!
# Sampling an expression in floating-point arithmetic

As in `Model/Rounded`, `fl` is applied after every operation; what a generator returns and the numbers written in an
expression are floats too, so they are rounded as well.  Overflow and divisions by zero are left out
(see `Model/Special`).
-/

namespace Verif

open Spec

variable {σ K : Type} [Field K] [LinearOrder K] [FloorRing K] (fl : K → K)

/-- One operation on two floats (distributions.py:129-149, 504-580). -/
def opFl : XOp → K → K → Except PyErr K
  | .add, a, b => .ok (fl (a + b))
  | .sub, a, b => .ok (fl (a - b))
  | .mul, a, b => .ok (fl (a * b))
  | .div, a, b => if b = 0 then .error .unmodelled else .ok (fl (a / b))
  | .max, a, b => .ok (max a b)
  | .min, a, b => .ok (min a b)

/-- `sample(e, n)` (samplers.py:1216-1227) with an operation of floats for each operation. -/
def sampleFl (E : Env σ K) (ds : ℕ → Obj (St σ K) K) (n : ℕ) : XExpr K → SM σ K (List K)
  | .src k => SM.bind (sampleObj E (ds k) n none none) fun z =>
      SM.lift (do .ok ((← floats z).map fl))
  | .num x => SM.pure (List.replicate n (fl x))
  | .neg e => SM.bind (sampleFl E ds n e) fun xs => SM.pure (xs.map fun x => -x)
  | .bin o a b => SM.bind (sampleFl E ds n a) fun xs => SM.bind (sampleFl E ds n b) fun ys =>
      SM.lift (mapExcept (fun p => opFl fl o p.1 p.2) (xs.zip ys))
  | .lclip e c => SM.bind (sampleFl E ds n e) fun xs => SM.pure (xs.map fun x => if x < fl c then fl c else x)
  | .rclip e c => SM.bind (sampleFl E ds n e) fun xs => SM.pure (xs.map fun x => if fl c < x then fl c else x)

end Verif
