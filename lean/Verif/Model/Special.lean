import Verif.Model.Py
import Verif.Spec.Special
import Mathlib.Algebra.BigOperators.Group.List.Basic

/-!
# Infinities, `nan` and negative zero

Floating-point values with the special ones of IEEE 754, and exact (unrounded, without overflow) otherwise:
what `sample` returns for an expression of float-valued distributions in which a divisor can be zero.  Several
samples are numpy arrays, on which a division by zero only warns; one sample is a Python float, on which it
raises – unless `np.maximum`, `np.minimum` or `np.vectorize` made a numpy number of it.
-/

namespace Verif

open Spec

variable {K : Type} [Field K] [LinearOrder K]

/-- A float: a number (`fin 0` is positive zero), negative zero, an infinity or `nan`. -/
inductive XVal (K : Type) where
  | fin (x : K)
  | nzero
  | pinf
  | ninf
  | nan
  deriving DecidableEq

namespace XVal

/-- The number, if it is one. -/
def val? : XVal K → Option K
  | .fin x => some x
  | .nzero => some 0
  | _ => none

/-- The sign bit. -/
def negative : XVal K → Bool
  | .fin x => decide (x < 0)
  | .nzero => true
  | .ninf => true
  | _ => false

/-- Zero with the given sign bit. -/
def zero (neg : Bool) : XVal K := if neg then .nzero else .fin 0

/-- Infinity with the given sign bit. -/
def inf (neg : Bool) : XVal K := if neg then .ninf else .pinf

/-- A number whose sign bit is given in case it is zero. -/
def signed (neg : Bool) (x : K) : XVal K := if x = 0 then zero neg else .fin x

/-- Negation (`operator.neg`, distributions.py:132-133): flips the sign. -/
def neg : XVal K → XVal K
  | .fin x => signed true (-x)
  | .nzero => .fin 0
  | .pinf => .ninf
  | .ninf => .pinf
  | .nan => .nan

/-- IEEE addition (`operator.add`, distributions.py:84-88). -/
def add (a b : XVal K) : XVal K :=
  if a = .nan ∨ b = .nan then .nan
  else match a.val?, b.val? with
    | some x, some y => if a = .nzero ∧ b = .nzero then .nzero else .fin (x + y)
    | some _, none => b
    | none, some _ => a
    | none, none => if a = b then a else .nan

/-- IEEE subtraction (distributions.py:90-94). -/
def sub (a b : XVal K) : XVal K := add a (neg b)

/-- IEEE multiplication (distributions.py:96-100). -/
def mul (a b : XVal K) : XVal K :=
  if a = .nan ∨ b = .nan then .nan
  else match a.val?, b.val? with
    | some x, some y => signed (xor a.negative b.negative) (x * y)
    | some x, none => if x = 0 then .nan else inf (xor a.negative b.negative)
    | none, some y => if y = 0 then .nan else inf (xor a.negative b.negative)
    | none, none => inf (xor a.negative b.negative)

/-- IEEE division as numpy does it (distributions.py:102-106). -/
def div (a b : XVal K) : XVal K :=
  if a = .nan ∨ b = .nan then .nan
  else match a.val?, b.val? with
    | some x, some y =>
      if y = 0 then (if x = 0 then .nan else inf (xor a.negative b.negative))
      else signed (xor a.negative b.negative) (x / y)
    | some _, none => zero (xor a.negative b.negative)
    | none, some _ => inf (xor a.negative b.negative)
    | none, none => .nan

/-- `a < b`: false if one of them is `nan`. -/
def lt (a b : XVal K) : Bool :=
  if a = .nan ∨ b = .nan then false
  else match a.val?, b.val? with
    | some x, some y => decide (x < y)
    | some _, none => b = .pinf
    | none, some _ => a = .ninf
    | none, none => a = .ninf && b = .pinf

/-- `a <= b`: false if one of them is `nan`. -/
def le (a b : XVal K) : Bool :=
  if a = .nan ∨ b = .nan then false else !(lt b a)

/-- `np.maximum` (distributions.py:345-348): `nan` if one of them is `nan`.  Of two zeros of different sign the
first is taken here; numpy leaves that open. -/
def max (a b : XVal K) : XVal K := if le b a ∨ a = .nan then a else b

/-- `np.minimum` (distributions.py:373-376). -/
def min (a b : XVal K) : XVal K := if le a b ∨ a = .nan then a else b

/-- One operation on array elements. -/
def op : XOp → XVal K → XVal K → XVal K
  | .add => add
  | .sub => sub
  | .mul => mul
  | .div => div
  | .max => max
  | .min => min

/-- `_lclip` on one element (distributions.py:504-509). -/
def lclip (x : XVal K) (bound : K) : XVal K := if lt x (.fin bound) then .fin bound else x

/-- `_rclip` on one element (distributions.py:544-549). -/
def rclip (x : XVal K) (bound : K) : XVal K := if lt (.fin bound) x then .fin bound else x

end XVal

/-- `sample(e, n)` for `n > 1` (samplers.py:1216-1227): `f k` are the samples of the `k`-th distribution
(each of length `n`), a number is repeated `n` times, and numpy works elementwise.  Nothing raises. -/
def evalMany (n : ℕ) (f : ℕ → List K) : XExpr K → List (XVal K)
  | .src k => (f k).map .fin
  | .num x => List.replicate n (.fin x)
  | .neg e => (evalMany n f e).map XVal.neg
  | .bin o a b => List.zipWith (XVal.op o) (evalMany n f a) (evalMany n f b)
  | .lclip e c => (evalMany n f e).map (XVal.lclip · c)
  | .rclip e c => (evalMany n f e).map (XVal.rclip · c)

/-- One sample: the value, and whether it is a numpy number rather than a Python float. -/
structure XOne (K : Type) where
  value : XVal K
  numpy : Bool

/-- `sample(e)` for one sample (samplers.py:1216-1227, `_simplify` in utils.py:135-140 turns single draws into
Python floats): dividing a Python float by a Python zero raises; `np.maximum`, `np.minimum` and the vectorized
`_lclip`, `_rclip` return numpy numbers, and arithmetic with a numpy number is numpy's. -/
def evalOne (f : ℕ → K) : XExpr K → Except PyErr (XOne K)
  | .src k => .ok ⟨.fin (f k), false⟩
  | .num x => .ok ⟨.fin x, false⟩
  | .neg e => do
    let v ← evalOne f e
    .ok ⟨v.value.neg, v.numpy⟩
  | .bin o a b => do
    let v ← evalOne f a
    let w ← evalOne f b
    if o = .div ∧ v.numpy = false ∧ w.numpy = false ∧ w.value.val? = some 0 then .error .zeroDivisionError
    else .ok ⟨XVal.op o v.value w.value, v.numpy || w.numpy || o = .max || o = .min⟩
  | .lclip e c => do
    let v ← evalOne f e
    .ok ⟨v.value.lclip c, true⟩
  | .rclip e c => do
    let v ← evalOne f e
    .ok ⟨v.value.rclip c, true⟩

/-- The bounds of the call on several samples (samplers.py:1231-1235): `np.maximum`, then `np.minimum`. -/
def boundMany (lc rc : Option K) (xs : List (XVal K)) : List (XVal K) :=
  let ys := match lc with
    | none => xs
    | some l => xs.map fun x => XVal.max x (.fin l)
  match rc with
  | none => ys
  | some r => ys.map fun y => XVal.min y (.fin r)

/-- `np.mean` (utils.py:590): add up, divide by the number of samples. -/
def xMean (xs : List (XVal K)) : XVal K := (xs.foldl XVal.add (.fin 0)).div (.fin xs.length)

/-- `np.mean` of a comparison of samples with a number (the usual way to get a chance from samples): the share
of positions at which it holds. -/
def shareWhere (p : XVal K → Bool) (xs : List (XVal K)) : K := xs.countP p / xs.length

end Verif
