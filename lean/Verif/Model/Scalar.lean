import Verif.Model.Py
import Mathlib.Algebra.Order.Field.Basic
import Mathlib.Algebra.Order.Floor.Ring

/-!
# Python / numpy values that samples consist of

`int` and `float` are kept apart because the code depends on it (`np.vectorize` picks the output
type from the first value).  Floats are exact elements of an ordered field `K`; 64-bit overflow of
integers is not modelled.
-/

namespace Verif

/-- A Python scalar as it can occur among samples. -/
inductive Scalar (K : Type) where
  | none
  | bool (b : Bool)
  | int (z : ℤ)
  | flt (x : K)
  | str (s : String)
  deriving DecidableEq

/-- What `sample` works with: one Python scalar (also used for numpy scalars and 0-d arrays) or a
one-dimensional numpy array. -/
inductive Samples (K : Type) where
  | scalar (v : Scalar K)
  | arr (vs : List (Scalar K))
  deriving DecidableEq

namespace Samples
variable {K : Type}

/-- The values, as a list: `_enlist` (utils.py:143-149). -/
def toList : Samples K → List (Scalar K)
  | scalar v => [v]
  | arr vs => vs

/-- `_safe_len` (utils.py:152-162); `None` has length 0. -/
def safeLen : Samples K → ℕ
  | scalar .none => 0
  | scalar _ => 1
  | arr vs => vs.length

/-- `_simplify` (utils.py:135-140) of an array: one element becomes a Python scalar. -/
def simplify : Samples K → Samples K
  | arr [v] => scalar v
  | s => s

end Samples

variable {K : Type} [Field K] [LinearOrder K] [FloorRing K]

/-- A number as seen by arithmetic: `bool` counts as `int`. -/
inductive Num (K : Type) where
  | I (z : ℤ)
  | F (x : K)

/-- Python's view of a scalar as a number. -/
def Scalar.num? : Scalar K → Option (Num K)
  | .bool b => some (.I (if b then 1 else 0))
  | .int z => some (.I z)
  | .flt x => some (.F x)
  | .none => Option.none
  | .str _ => Option.none

/-- The mathematical value of a number. -/
def Num.val : Num K → K
  | .I z => (z : K)
  | .F x => x

/-- The mathematical value of a scalar, if it is a number. -/
def Scalar.val? (v : Scalar K) : Option K := v.num?.map Num.val

/-- numpy dtype classes, ordered by promotion. -/
inductive DT where
  | bool | int | flt | str | obj
  deriving DecidableEq

/-- dtype of a single value. -/
def Scalar.dt : Scalar K → DT
  | .bool _ => .bool
  | .int _ => .int
  | .flt _ => .flt
  | .str _ => .str
  | .none => .obj

/-- numpy promotion of two dtypes. -/
def DT.join : DT → DT → DT
  | .obj, _ => .obj
  | _, .obj => .obj
  | .str, _ => .str
  | _, .str => .str
  | .flt, _ => .flt
  | _, .flt => .flt
  | .int, _ => .int
  | _, .int => .int
  | .bool, .bool => .bool

/-- Value converted to a dtype by `np.array([...])`; `fmt` is Python's `str` on numbers (only used
when numbers and strings are mixed in one list). -/
def Scalar.castTo (fmt : Scalar K → String) (d : DT) (v : Scalar K) : Scalar K :=
  match d with
  | .obj => v
  | .bool => v
  | .int => match v with
    | .bool b => .int (if b then 1 else 0)
    | v => v
  | .flt => match v with
    | .bool b => .flt (if b then 1 else 0)
    | .int z => .flt (z : K)
    | v => v
  | .str => match v with
    | .str s => .str s
    | v => .str (fmt v)

/-- The common dtype of a list of values. -/
def commonDT (vs : List (Scalar K)) : DT := vs.foldl (fun d v => d.join v.dt) .bool

/-- `np.array([v0, v1, ...])` on scalars: all values are converted to one dtype. -/
def npArray (fmt : Scalar K → String) (vs : List (Scalar K)) : List (Scalar K) :=
  vs.map (Scalar.castTo fmt (commonDT vs))

/-! ### Comparisons -/

/-- Is `a < b` for two scalars?  Numbers only; anything else is a `TypeError`.  (Comparing two
strings is possible in Python but does not occur in the modelled uses.) -/
def Scalar.lt (a b : Scalar K) : Except PyErr Bool :=
  match a.num?, b.num? with
  | some x, some y => .ok (decide (x.val < y.val))
  | _, _ => .error .typeError

/-- `max(a, b)` on two numbers (samplers.py:1067): Python returns the first unless the second is
greater. -/
def pyMax (a b : Scalar K) : Except PyErr (Scalar K) := do
  let c ← a.lt b
  .ok (if c then b else a)

/-- `min(a, b)` (samplers.py:1072): the first unless the second is smaller. -/
def pyMin (a b : Scalar K) : Except PyErr (Scalar K) := do
  let c ← b.lt a
  .ok (if c then b else a)

/-! ### Operators of expression trees -/

/-- The operators an expression can contain (distributions.py:114-169), plus the two-argument
functions `dist_max`, `dist_min` (distributions.py:320-376). -/
inductive BinOp where
  | add | sub | mul | truediv | floordiv | pow
  | gt | ge | lt | le
  | max | min
  deriving DecidableEq

/-- Which comparison a `BinOp` performs, if any. -/
def BinOp.cmp? : BinOp → Option (K → K → Bool)
  | .gt => some fun a b => decide (a > b)
  | .ge => some fun a b => decide (a ≥ b)
  | .lt => some fun a b => decide (a < b)
  | .le => some fun a b => decide (a ≤ b)
  | _ => Option.none

/-- Python scalar arithmetic (`operator.add(x, y)` etc. on `int`/`float`/`bool`).  `powf` is
`float ** float` (`none`: complex or non-finite result).  Arithmetic on strings is not modelled.
Simplification: a single sample that comes from `np.maximum`, `np.minimum`, `np.round` or a clip is a numpy number,
for which division by zero gives an infinity with a warning instead of `ZeroDivisionError` (`Model/Special`
distinguishes the two). -/
def pyBin (powf : K → K → Option K) (op : BinOp) (a b : Scalar K) : Except PyErr (Scalar K) :=
  match a.num?, b.num? with
  | some x, some y =>
    match op with
    | .add => .ok (match x, y with | .I m, .I n => .int (m + n) | x, y => .flt (x.val + y.val))
    | .sub => .ok (match x, y with | .I m, .I n => .int (m - n) | x, y => .flt (x.val - y.val))
    | .mul => .ok (match x, y with | .I m, .I n => .int (m * n) | x, y => .flt (x.val * y.val))
    | .truediv => if y.val = 0 then .error .zeroDivisionError else .ok (.flt (x.val / y.val))
    | .floordiv =>
      if y.val = 0 then .error .zeroDivisionError
      else .ok (match x, y with
        | .I m, .I n => .int (m.fdiv n)
        | x, y => .flt (⌊x.val / y.val⌋ : ℤ))
    | .pow => match x, y with
      | .I m, .I n =>
        if 0 ≤ n then .ok (.int (m ^ n.toNat))
        else if m = 0 then .error .zeroDivisionError
        else .ok (.flt ((m : K) ^ n))
      | x, y =>
        if x.val = 0 ∧ y.val < 0 then .error .zeroDivisionError
        else match powf x.val y.val with
          | some r => .ok (.flt r)
          | Option.none => .error .unmodelled
    | .gt => .ok (.bool (decide (x.val > y.val)))
    | .ge => .ok (.bool (decide (x.val ≥ y.val)))
    | .lt => .ok (.bool (decide (x.val < y.val)))
    | .le => .ok (.bool (decide (x.val ≤ y.val)))
    -- `np.maximum`/`np.minimum` promote to the common type
    | .max => .ok (match x, y with
        | .I m, .I n => .int (Max.max m n)
        | x, y => .flt (Max.max x.val y.val))
    | .min => .ok (match x, y with
        | .I m, .I n => .int (Min.min m n)
        | x, y => .flt (Min.min x.val y.val))
  | _, _ =>
    if a = .none ∨ b = .none then .error .typeError else .error .unmodelled

/-- numpy elementwise arithmetic.  It differs from Python's on booleans (`+` is "or", `-` is refused)
and on division by zero / negative integer powers. -/
def npBin (powf : K → K → Option K) (op : BinOp) (a b : Scalar K) : Except PyErr (Scalar K) :=
  match a, b with
  | .bool p, .bool q =>
    match op with
    | .add => .ok (.bool (p || q))
    | .mul => .ok (.bool (p && q))
    | .max => .ok (.bool (p || q))
    | .min => .ok (.bool (p && q))
    | .sub => .error .typeError
    | .truediv => if q then .ok (.flt (if p then 1 else 0)) else .error .unmodelled
    | .floordiv => .ok (.int (if q && p then 1 else 0))
    | .pow => .ok (.int (if !q || p then 1 else 0))
    | op => pyBin powf op a b
  | a, b =>
    match a.num?, b.num? with
    | some x, some y =>
      match op with
      | .truediv => if y.val = 0 then .error .unmodelled else pyBin powf op a b
      | .floordiv =>
        if y.val = 0 then
          match x, y with
          | .I _, .I _ => .ok (.int 0)
          | _, _ => .error .unmodelled
        else pyBin powf op a b
      | .pow => match x, y with
        | .I _, .I n => if n < 0 then .error .valueError else pyBin powf op a b
        | x, y => if x.val = 0 ∧ y.val < 0 then .error .unmodelled else pyBin powf op a b
      | op => pyBin powf op a b
    | _, _ => pyBin powf op a b

/-- Apply a fallible function to every element, left to right; the first failure wins. -/
def mapExcept {α β : Type} (f : α → Except PyErr β) : List α → Except PyErr (List β)
  | [] => .ok []
  | a :: as => do
    let b ← f a
    let bs ← mapExcept f as
    .ok (b :: bs)

/-- numpy broadcasting of two one-dimensional operands. -/
def broadcast {α : Type} (xs ys : List α) : Except PyErr (List (α × α)) :=
  if xs.length = ys.length then .ok (xs.zip ys)
  else match xs, ys with
    | [x], ys => .ok (ys.map fun y => (x, y))
    | xs, [y] => .ok (xs.map fun x => (x, y))
    | _, _ => .error .valueError

/-- A binary operator on samples: Python arithmetic on two scalars, numpy arithmetic otherwise. -/
def binSamples (powf : K → K → Option K) (op : BinOp) (a b : Samples K) :
    Except PyErr (Samples K) :=
  match a, b with
  | .scalar x, .scalar y => do .ok (.scalar (← pyBin powf op x y))
  | a, b => do
    let ps ← broadcast a.toList b.toList
    let rs ← mapExcept (fun p => npBin powf op p.1 p.2) ps
    .ok (.arr rs)

/-- `operator.neg` on a Python scalar / a numpy element (distributions.py:132-133). -/
def pyNeg (a : Scalar K) : Except PyErr (Scalar K) :=
  match a with
  | .bool b => .ok (.int (if b then -1 else 0))
  | .int z => .ok (.int (-z))
  | .flt x => .ok (.flt (-x))
  | _ => .error .typeError

/-- numpy refuses to negate booleans. -/
def npNeg (a : Scalar K) : Except PyErr (Scalar K) :=
  match a with
  | .bool _ => .error .typeError
  | a => pyNeg a

/-- Rounding to the nearest integer, ties to even (`np.round`). -/
def roundEven (x : K) : ℤ :=
  let f := ⌊x⌋
  let d := x - f
  if d < 1 / 2 then f
  else if 1 / 2 < d then f + 1
  else if f % 2 = 0 then f else f + 1

/-- `int(x)` of a float: towards zero. -/
def truncZ (x : K) : ℤ := if 0 ≤ x then ⌊x⌋ else ⌈x⌉

/-- `_round(x, digits)` on a scalar with an integer `digits` (utils.py:123-132). -/
def roundScalar (digits : ℤ) (v : Scalar K) : Except PyErr (Scalar K) :=
  match v.num? with
  | some x =>
    let r : K := (roundEven (x.val * (10 : K) ^ digits) : K) / (10 : K) ^ digits
    .ok (if digits ≤ 0 then .int (truncZ r) else
      match x with | .I z => .int z | .F _ => .flt r)
  | _ => .error .typeError

/-- One element of `_lclip` (distributions.py:504-509), before vectorisation. -/
def lclipElem (n val : Scalar K) : Except PyErr (Scalar K) :=
  match val with
  | .none => .ok n
  | v => do .ok (if ← n.lt v then v else n)

/-- One element of `_rclip` (distributions.py:544-549). -/
def rclipElem (n val : Scalar K) : Except PyErr (Scalar K) :=
  match val with
  | .none => .ok n
  | v => do .ok (if ← v.lt n then v else n)

/-- Conversion of an output of `np.vectorize` to the type of the first output: a float stored into an
integer array is truncated towards zero, into a boolean array becomes `!= 0`. -/
def vecCast (d : DT) (v : Scalar K) : Except PyErr (Scalar K) :=
  match d, v with
  | .obj, v => .ok v
  | .str, v => (match v with | .str s => .ok (.str s) | _ => .error .unmodelled)
  | .flt, v => (match v.num? with | some x => .ok (.flt x.val) | _ => .error .unmodelled)
  | .int, v => (match v.num? with
      | some (.I z) => .ok (.int z)
      | some (.F x) => .ok (.int (truncZ x))
      | _ => .error .unmodelled)
  | .bool, v => (match v.num? with | some x => .ok (.bool (x.val ≠ 0)) | _ => .error .unmodelled)

/-- `np.vectorize(f)(xs, ys)` (distributions.py:504, 544): apply `f` to all (broadcast) pairs, then
convert every output to the type of the first output.  On scalar inputs the result is a 0-d array,
represented as a scalar. -/
def vectorize2 (f : Scalar K → Scalar K → Except PyErr (Scalar K)) (a b : Samples K) :
    Except PyErr (Samples K) :=
  match a, b with
  | .scalar x, .scalar y => do .ok (.scalar (← f x y))
  | a, b => do
    let ps ← broadcast a.toList b.toList
    let rs ← mapExcept (fun p => f p.1 p.2) ps
    match rs with
    | [] => .error .valueError
    | r :: _ => do
      let out ← mapExcept (vecCast r.dt) rs
      .ok (.arr out)

end Verif
