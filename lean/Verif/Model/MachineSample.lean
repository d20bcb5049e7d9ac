import Verif.Model.Sample
import Verif.Spec.Machine

/-!
# Sampling a model of whole numbers with numpy's 64-bit integers

In the main model whole numbers have any size.  In Python a single sample is a Python `int`, which has any size too, until
a numpy function (`np.maximum`, `np.minimum`, `np.vectorize`) returns a numpy number; several samples are an array of
64-bit integers, whose operations drop what does not fit without an error.

Distributions are leaves without bounds of their own.  Powers have exponents that are numbers.  Where numpy refuses a
Python `int` that does not fit, or switches to arrays of Python objects, the model gives `unmodelled`.
-/

namespace Verif

open Spec

variable {σ K : Type} [Field K] [LinearOrder K] [FloorRing K]

/-- The operators of the main model. -/
def IOp.toBinOp : IOp → BinOp
  | .add => .add
  | .sub => .sub
  | .mul => .mul
  | .max => .max
  | .min => .min

/-- The model as an object `sample` accepts (distributions.py:129-169, 320-380, 504-580). -/
def toObjI {S : Type} (ds : ℕ → Leaf K) : IExpr → Obj S K
  | .src k => .leaf (ds k) none none
  | .num z => .lit (.int z)
  | .neg e => .un .neg (toObjI ds e)
  | .bin o a b => .bin (.op (IOp.toBinOp o)) (toObjI ds a) (toObjI ds b)
  | .pow e k => .bin (.op .pow) (toObjI ds e) (.lit (.int k))
  | .lclip e c => .bin .lclip (toObjI ds e) (.lit (.int c))
  | .rclip e c => .bin .rclip (toObjI ds e) (.lit (.int c))

/-- A 64-bit operation keeps the remainder modulo `2 ^ 64` between `-2 ^ 63` and `2 ^ 63 - 1`. -/
def toI64 (z : ℤ) : ℤ := z.bmod (2 ^ 64)

/-- Whole numbers that numpy can hold, or nothing. -/
def fitI64 (z : ℤ) : Except PyErr ℤ := if Fits z then .ok z else .error .unmodelled

/-- The samples as 64-bit integers; other values are left out of this model. -/
def ints (z : Samples K) : Except PyErr (List ℤ) :=
  mapExcept (fun v => match v with
    | .int x => fitI64 x
    | _ => .error .unmodelled) z.toList

/-- One operation on 64-bit integers (distributions.py:129-149, 320-380). -/
def opI64 : IOp → ℤ → ℤ → ℤ
  | .add, a, b => toI64 (a + b)
  | .sub, a, b => toI64 (a - b)
  | .mul, a, b => toI64 (a * b)
  | .max, a, b => max a b
  | .min, a, b => min a b

/-- `sample(e, n)` for `n > 1` (samplers.py:1104-1111, 1216-1227): arrays of 64-bit integers. -/
def sampleI64 (E : Env σ K) (ds : ℕ → Leaf K) (n : ℕ) : IExpr → SM σ K (List ℤ)
  | .src k => SM.bind (sampleObj E (.leaf (ds k) none none) n none none) fun z => SM.lift (ints z)
  | .num z => SM.lift (do .ok (List.replicate n (← fitI64 z)))
  | .neg e => SM.bind (sampleI64 E ds n e) fun xs => SM.pure (xs.map fun x => toI64 (-x))
  | .bin o a b => SM.bind (sampleI64 E ds n a) fun xs => SM.bind (sampleI64 E ds n b) fun ys =>
      SM.pure (List.zipWith (opI64 o) xs ys)
  | .pow e k => SM.bind (sampleI64 E ds n e) fun xs => SM.lift (do
      let _ ← fitI64 k
      .ok (xs.map fun x => toI64 (x ^ k)))
  | .lclip e c => SM.bind (sampleI64 E ds n e) fun xs => SM.lift (do
      let c ← fitI64 c
      .ok (xs.map fun x => if x < c then c else x))
  | .rclip e c => SM.bind (sampleI64 E ds n e) fun xs => SM.lift (do
      let c ← fitI64 c
      .ok (xs.map fun x => if x > c then c else x))

/-- A whole number in Python: an `int` of any size, or a numpy integer of 64 bits. -/
structure PyWhole where
  np : Bool
  val : ℤ
  deriving DecidableEq

/-- One operation on two single numbers: Python's if both are Python's; numpy's if one of them is, after converting the
other; `np.maximum` and `np.minimum` always convert (distributions.py:129-149, 320-380). -/
def opOne (o : IOp) (a b : PyWhole) : Except PyErr PyWhole :=
  match o with
  | .max => do .ok ⟨true, max (← fitI64 a.val) (← fitI64 b.val)⟩
  | .min => do .ok ⟨true, min (← fitI64 a.val) (← fitI64 b.val)⟩
  | o => if a.np || b.np then do .ok ⟨true, opI64 o (← fitI64 a.val) (← fitI64 b.val)⟩
      else .ok ⟨false, o.eval a.val b.val⟩

/-- `sample(e)`: a single sample (samplers.py:1104-1111, 1216-1227, `_simplify` utils.py:135-140). -/
def sampleOne (E : Env σ K) (ds : ℕ → Leaf K) : IExpr → SM σ K PyWhole
  | .src k => SM.bind (sampleObj E (.leaf (ds k) none none) 1 none none) fun z st =>
      match z with
      | .scalar (.int x) => SM.pure ⟨false, x⟩ st
      | _ => SM.throw .unmodelled st
  | .num z => SM.pure ⟨false, z⟩
  | .neg e => SM.bind (sampleOne E ds e) fun x => SM.pure ⟨x.np, if x.np then toI64 (-x.val) else -x.val⟩
  | .bin o a b => SM.bind (sampleOne E ds a) fun x => SM.bind (sampleOne E ds b) fun y => SM.lift (opOne o x y)
  | .pow e k => SM.bind (sampleOne E ds e) fun x =>
      if x.np then SM.lift (do
        let _ ← fitI64 k
        .ok ⟨true, toI64 (x.val ^ k)⟩)
      else SM.pure ⟨false, x.val ^ k⟩
  | .lclip e c => SM.bind (sampleOne E ds e) fun x => SM.lift (do
      let v ← fitI64 x.val
      let c ← fitI64 c
      .ok ⟨true, if v < c then c else v⟩)
  | .rclip e c => SM.bind (sampleOne E ds e) fun x => SM.lift (do
      let v ← fitI64 x.val
      let c ← fitI64 c
      .ok ⟨true, if v > c then c else v⟩)

end Verif
