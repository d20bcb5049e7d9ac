import Verif.Model.MachineSample
import Verif.Spec.Quotient

/-!
# `//` of whole numbers with numpy's 64-bit integers

As in `Model/MachineSample`.
-/

namespace Verif

open Spec

variable {σ K : Type} [Field K] [LinearOrder K] [FloorRing K]

/-- The model as an object `sample` accepts (distributions.py:129-169, 320-380). -/
def toObjQ {S : Type} (ds : ℕ → Leaf K) : QExpr → Obj S K
  | .base e => toObjI ds e
  | .bin o a b => .bin (.op (IOp.toBinOp o)) (toObjQ ds a) (toObjQ ds b)
  | .quot a b => .bin (.op .floordiv) (toObjQ ds a) (toObjQ ds b)

/-- `//` of 64-bit integers in numpy (distributions.py:159-163): 0 (and a warning) for the divisor 0; `-2^63 // -1`
does not fit. -/
def quotI64 (x y : ℤ) : ℤ := if y = 0 then 0 else toI64 (x.fdiv y)

/-- `sample(e, n)` for `n > 1` (samplers.py:1104-1111, 1216-1227): arrays of 64-bit integers. -/
def sampleQ64 (E : Env σ K) (ds : ℕ → Leaf K) (n : ℕ) : QExpr → SM σ K (List ℤ)
  | .base e => sampleI64 E ds n e
  | .bin o a b => SM.bind (sampleQ64 E ds n a) fun xs => SM.bind (sampleQ64 E ds n b) fun ys =>
      SM.pure (List.zipWith (opI64 o) xs ys)
  | .quot a b => SM.bind (sampleQ64 E ds n a) fun xs => SM.bind (sampleQ64 E ds n b) fun ys =>
      SM.pure (List.zipWith quotI64 xs ys)

/-- `//` of two single numbers (distributions.py:159-163): Python's if both are Python's, else numpy's. -/
def quotOne (a b : PyWhole) : Except PyErr PyWhole :=
  if a.np || b.np then do .ok ⟨true, quotI64 (← fitI64 a.val) (← fitI64 b.val)⟩
  else if b.val = 0 then .error .zeroDivisionError
  else .ok ⟨false, a.val.fdiv b.val⟩

/-- `sample(a // b)`: a single sample (samplers.py:1104-1111, 1216-1227). -/
def sampleQuotOne (E : Env σ K) (ds : ℕ → Leaf K) (a b : IExpr) : SM σ K PyWhole :=
  SM.bind (sampleOne E ds a) fun x => SM.bind (sampleOne E ds b) fun y => SM.lift (quotOne x y)

end Verif
