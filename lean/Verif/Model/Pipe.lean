import Verif.Model.Sample

/-!
# Function wrappers and piping (`squigglepy/distributions.py:103-109, 204-212, 243-617`)

`dist_fn`, `dist_max`, `dist_min`, `dist_round`, `dist_ceil`, `dist_floor`, `dist_exp`, `lclip`,
`rclip`, `clip` and the operator `>>`.  `_get_fname` (distributions.py:243-249), which only computes
a display name, is modelled by its failure on `None`.
-/

namespace Verif

/-- A user's function: what it does with one and with two sampled arguments.  It may return a
distribution (`isDist`), which is then sampled (samplers.py:1224-1225). -/
structure UserFn (S K : Type) where
  isDist1 : Samples K → Bool
  val1 : Samples K → Except PyErr (Samples K)
  d1 : Samples K → Obj S K
  isDist2 : Samples K → Samples K → Bool
  val2 : Samples K → Samples K → Except PyErr (Samples K)
  d2 : Samples K → Samples K → Obj S K

/-- The functions a `ComplexDistribution` can hold. -/
inductive Fn (S K : Type) where
  | op (o : BinOp)
  | neg | lclip | rclip | round | ceil | floor | exp | log
  | user (u : UserFn S K)

/-- A `ComplexDistribution` (distributions.py:204-212): left, right (may be `None`), function. -/
structure Cplx (S K : Type) where
  left : Obj S K
  right : Option (Obj S K)
  fn : Fn S K

variable {S K : Type}

/-- The meaning of a `ComplexDistribution` for the sampler (samplers.py:1215-1225): a function called
with a number of arguments it does not take raises `TypeError` when sampled. -/
def Cplx.toObj (c : Cplx S K) : Obj S K :=
  let bad1 : Obj S K := .userUn (fun _ => false) (fun _ => .error .typeError) (fun _ => .lit .none) c.left
  match c.right with
  | none => (match c.fn with
    | .neg => .un .neg c.left
    | .lclip => .un .clipNone c.left
    | .rclip => .un .clipNone c.left
    | .round => .un .round0 c.left
    | .ceil => .un .ceil c.left
    | .floor => .un .floor c.left
    | .exp => .un .exp c.left
    | .user u => .userUn u.isDist1 u.val1 u.d1 c.left
    | .op _ => bad1
    | .log => .userUn (fun _ => false) (fun _ => .error .unmodelled) (fun _ => .lit .none) c.left)
  | some r => (match c.fn with
    | .op o => .bin (.op o) c.left r
    | .lclip => .bin .lclip c.left r
    | .rclip => .bin .rclip c.left r
    | .round => .bin .round c.left r
    | .log => .bin .log c.left r
    | .user u => .userBin u.isDist2 u.val2 u.d2 c.left r
    | _ => .userBin (fun _ _ => false) (fun _ _ => .error .typeError) (fun _ _ => .lit .none) c.left r)

/-- A Python argument: `None`, a number, a distribution, a function or a list of functions. -/
inductive PyArg (S K : Type) where
  | none
  | num (v : Scalar K)
  | dist (d : Obj S K)
  | fn (f : Fn S K)
  | fns (fs : List (Fn S K))

/-- What the wrappers return: a `ComplexDistribution`, a function from distributions to
distributions (for use in a pipe), or a plain value. -/
inductive PyRes (S K : Type) where
  | cplx (c : Cplx S K)
  | pipe (f : Obj S K → Except PyErr (Cplx S K))
  | value

/-- An argument as operand of a `ComplexDistribution`. -/
def PyArg.operand : PyArg S K → Except PyErr (Obj S K)
  | .num v => .ok (.lit v)
  | .dist d => .ok d
  | .none => .ok (.lit .none)
  | _ => .error .unmodelled

/-- An argument as second operand: `None` means "no second operand". -/
def PyArg.operand? : PyArg S K → Except PyErr (Option (Obj S K))
  | .none => .ok Option.none
  | .num v => .ok (some (.lit v))
  | .dist d => .ok (some d)
  | _ => .error .unmodelled

/-- distributions.py:291-295 and 313-317: wrap in one function after the other. -/
def wrapAll (right : Option (Obj S K)) : Obj S K → List (Fn S K) → Except PyErr (Cplx S K)
  | _, [] => .error .unmodelled
  | d, [f] => .ok ⟨d, right, f⟩
  | d, f :: g :: fs => wrapAll right (Cplx.toObj ⟨d, right, f⟩) (g :: fs)

/-- `dist_fn(dist1, dist2=None, fn=None)` (distributions.py:288-317).  A list of functions must not
be empty (`dist1[0]` raises `IndexError`). -/
def distFn (dist1 dist2 fn : PyArg S K) : Except PyErr (PyRes S K) :=
  match dist1, dist2, fn with
  | .fns [], _, _ => .error .indexError
  | .fns fs, .none, .none => .ok (.pipe fun d => wrapAll none d fs)
  | .fn f, .none, .none => .ok (.pipe fun d => .ok ⟨d, none, f⟩)
  | d, .fns [], .none => if (match d with | .dist _ => true | .num _ => true | _ => false)
      then .error .indexError else .error .unmodelled
  | d, .fns fs, .none => do .ok (.cplx (← wrapAll none (← d.operand) fs))
  | d, .fn f, .none => do .ok (.cplx ⟨← d.operand, none, f⟩)
  | _, _, .none => .error .attributeError
  | d, r, .fn f => do .ok (.cplx ⟨← d.operand, ← r.operand?, f⟩)
  | d, r, .fns fs => do .ok (.cplx (← wrapAll (← r.operand?) (← d.operand) fs))
  | _, _, _ => .error .unmodelled

/-- `dist_max(dist1, dist2=None)` (distributions.py:344-347) for `o = max`, `dist_min`
(distributions.py:373-376) for `o = min`. -/
def distMaxMin (o : BinOp) (dist1 dist2 : PyArg S K) : Except PyErr (PyRes S K) :=
  match dist1, dist2 with
  | .dist e, .none => .ok (.pipe fun d => .ok ⟨d, some e, .op o⟩)
  | d1, d2 => distFn d1 d2 (.fn (.op o))

/-- `dist_round(dist1, digits=0)` (distributions.py:402-405). -/
def distRound (dist1 : PyArg S K) (digits : PyArg S K) (digitsIsZero : Bool) :
    Except PyErr (PyRes S K) :=
  match dist1 with
  | .num (.int z) =>
    if digitsIsZero then .ok (.pipe fun d => .ok ⟨d, some (.lit (.int z)), .round⟩)
    else distFn dist1 digits (.fn .round)
  | d => distFn d digits (.fn .round)

/-- `dist_ceil(dist1)` (distributions.py:429). -/
def distCeil (dist1 : PyArg S K) : Except PyErr (PyRes S K) := distFn dist1 .none (.fn .ceil)

/-- `dist_floor(dist1)` (distributions.py:453). -/
def distFloor (dist1 : PyArg S K) : Except PyErr (PyRes S K) := distFn dist1 .none (.fn .floor)

/-- `dist_log(dist1, base)` (distributions.py:477): the base is wrapped in `const`. -/
def distLog (dist1 : PyArg S K) (base : Scalar K) : Except PyErr (PyRes S K) :=
  distFn dist1 (.dist (.leaf (.const base) Option.none Option.none)) (.fn .log)

/-- `dist_exp(dist1)` (distributions.py:501). -/
def distExp (dist1 : PyArg S K) : Except PyErr (PyRes S K) := distFn dist1 .none (.fn .exp)

/-- `isinstance(x, int) or isinstance(x, float)`. -/
def PyArg.isNum : PyArg S K → Bool
  | .num (.int _) => true
  | .num (.flt _) => true
  | .num (.bool _) => true
  | _ => false

/-- `lclip(dist1, val=None)` (distributions.py:536-541) for `fn = .lclip`, `rclip`
(distributions.py:576-581) for `fn = .rclip`.  On a plain first argument with a bound the result is a
clipped number. -/
def clipOne (f : Fn S K) (dist1 val : PyArg S K) : Except PyErr (PyRes S K) :=
  match dist1, val with
  | .dist d, val => do .ok (.cplx ⟨d, ← val.operand?, f⟩)
  | .num v, .none => if (PyArg.num v : PyArg S K).isNum
      then .ok (.pipe fun d => .ok ⟨d, some (.lit v), f⟩) else .error .unmodelled
  | .num _, _ => .ok .value
  -- `None < val` (`_lclip(None, val)`)
  | .none, .none => .ok .value
  | .none, _ => .error .typeError
  | _, _ => .ok .value

/-- `clip(dist1, left, right=None)` (distributions.py:610-617). -/
def clipBoth (dist1 left right : PyArg S K) : Except PyErr (PyRes S K) :=
  match dist1, left, right with
  | .dist d, l, r => do
    -- rclip(lclip(dist1, left), right)
    match ← clipOne .lclip (.dist d) l with
    | .cplx c => clipOne .rclip (.dist c.toObj) r
    | _ => .error .unmodelled
  | .num a, .num b, .none =>
    if (PyArg.num a : PyArg S K).isNum ∧ (PyArg.num b : PyArg S K).isNum then
      .ok (.pipe fun d => do
        match ← clipOne .lclip (.dist d) (.num a) with
        | .cplx c => (match ← clipOne .rclip (.dist c.toObj) (.num b) with
            | .cplx c' => .ok c'
            | _ => .error .unmodelled)
        | _ => .error .unmodelled)
    else .error .unmodelled
  | d1, l, r => do
    match ← clipOne .lclip d1 l with
    | .cplx c => clipOne .rclip (.dist c.toObj) r
    -- `rclip(<function>, ...)` and `rclip(<0-d array>, ...)` are array values, not callable
    | _ => .ok .value

/-- `d >> fn` (distributions.py:103-109). -/
def rshift (d : Obj S K) (f : Except PyErr (PyRes S K)) : Except PyErr (PyRes S K) :=
  match f with
  | .error e => .error e
  | .ok (.pipe f) => (match f d with
      | .ok c => .ok (.cplx c)
      | .error e => .error e)
  | .ok (.cplx c) => .ok (.cplx ⟨d, some c.left, c.fn⟩)
  | .ok .value => .error .valueError

end Verif
