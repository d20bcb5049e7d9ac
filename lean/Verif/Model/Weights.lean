import Verif.Model.Py
import Mathlib.Algebra.Order.Field.Basic
import Mathlib.Algebra.BigOperators.Group.List.Basic

/-!
# Model of the weight processing in `squigglepy/utils.py`

Numbers are elements of an arbitrary linearly ordered field `K` (exact arithmetic; IEEE rounding is
not modelled).  NA-like numbers (`None`, `nan`) are `none : Option K`.
-/

namespace Verif

variable {K : Type} [Field K] [LinearOrder K] {α : Type}

/-- What a caller can pass as `weights=` / `relative_weights=` (utils.py:24, 35-40). -/
inductive WArg (K : Type) where
  /-- `None` -/
  | absent
  /-- a Python `int`/`float` that is not a `bool` -/
  | num (w : K)
  /-- a Python list (mutable, shared with the caller) -/
  | list (ws : List (Option K))
  /-- a numpy array -/
  | ndarray (ws : List (Option K))
  /-- another iterable that is not a list, e.g. a tuple -/
  | tuple (ws : List (Option K))
  /-- not iterable and not a number (e.g. `True`, a distribution, a string) -/
  | other

/-- `weights is None` (utils.py:25, 30-33). -/
def WArg.isAbsent : WArg K → Bool
  | .absent => true
  | _ => false

/-- One element of `values=`: a plain value, or a two-element list `[w, v]` (utils.py:56-58). -/
inductive VItem (K α : Type) where
  | plain (a : α)
  | pair (w : Option K) (a : α)
  deriving DecidableEq

/-- What a caller can pass as `values=` (utils.py:27, 42-53).  A numpy array and a pandas series are
both converted to a list first (utils.py:42-45), so they share a constructor. -/
inductive VArg (K α : Type) where
  | absent
  | list (vs : List (VItem K α))
  | ndarray (vs : List (VItem K α))
  | dict (kvs : List (α × Option K))
  /-- not iterable -/
  | other

/-- `normalize` (utils.py:312-332).  `sum([]) = 0` but then no division happens; otherwise Python
raises `ZeroDivisionError` when the sum is zero.  (Elements of a numpy array divide differently, see
`normalizedByZero`.) -/
def normalize (lst : List K) : Except PyErr (List K) :=
  let s := lst.sum
  if lst ≠ [] ∧ s = 0 then .error .zeroDivisionError
  else .ok (lst.map (· / s))

/-- Where the list `weights` that the loop works on comes from. -/
inductive WOwner where
  /-- the caller's own list object -/
  | caller
  /-- a list built inside the function -/
  | fresh
  /-- `list(weights)` of a numpy array: also built inside the function, but its elements are numpy numbers -/
  | numpy
  /-- a tuple: it has no `append` -/
  | tuple
  deriving DecidableEq

/-- utils.py:30-40: pick `weights` or `relative_weights` and turn it into a sequence.
Returns `none` for "no weights", else the elements and who owns the list. -/
def resolveWeights (w : WArg K) : Except PyErr (Option (List (Option K) × WOwner)) :=
  match w with
  | .absent => .ok none
  | .num x => .ok (some ([some x], .fresh))
  | .list ws => .ok (some (ws, .caller))
  | .ndarray ws => .ok (some (ws, .numpy))
  | .tuple ws => .ok (some (ws, .tuple))
  | .other => .error .valueError

/-- utils.py:27: `values is None or _safe_len(values) == 0`.  `_safe_len` of a dict (or of any other
non-list, non-numpy object) is 1 (utils.py:152-162). -/
def valuesEmpty : VArg K α → Bool
  | .absent => true
  | .list vs => vs.isEmpty
  | .ndarray vs => vs.isEmpty
  | .dict _ => false
  | .other => false

/-- utils.py:42-53: turn `values` into a list; a dict supplies both weights and values, and is
refused together with explicit weights. -/
def resolveValues (w : Option (List (Option K) × WOwner)) (v : VArg K α) :
    Except PyErr (Option (List (Option K) × WOwner) × List (VItem K α)) :=
  match v with
  | .absent => .error .valueError
  | .list vs => .ok (w, vs)
  | .ndarray vs => .ok (w, vs)
  | .dict kvs =>
    match w with
    | none => .ok (some (kvs.map Prod.snd, .fresh), kvs.map (fun kv => VItem.plain kv.1))
    | some _ => .error .valueError
  | .other => .error .valueError

/-- utils.py:57-58: `[v[0] for v in values]`, `[v[1] for v in values]`; a non-pair is not
subscriptable. -/
def unzipPairs : List (VItem K α) → Except PyErr (List (Option K) × List α)
  | [] => .ok ([], [])
  | .pair w a :: rest => do
    let (ws, as) ← unzipPairs rest
    .ok (w :: ws, a :: as)
  | .plain _ :: _ => .error .typeError

/-- Is the element NA-like?  `na` is `_is_na_like` on plain values (utils.py:119-120); a `[w, v]`
list makes `np.isnan` raise/return an array – treated as not NA (simplification: only reachable with
`drop_na=True` and list-valued items next to explicit weights). -/
def itemNa (na : α → Bool) : VItem K α → Bool
  | .plain a => na a
  | .pair _ _ => false

/-- utils.py:55-67: complete missing weights. -/
def fillWeights (na : α → Bool) (dropNa : Bool)
    (w : Option (List (Option K) × WOwner)) (vs : List (VItem K α)) :
    Except PyErr ((List (Option K) × WOwner) × List (VItem K α)) :=
  match w with
  | none =>
    match vs with
    | [] => .error .indexError                                   -- `values[0]` on an empty list
    | .pair _ _ :: _ => do
      let (ws, as) ← unzipPairs vs
      if dropNa && as.any na then .error .valueError
      else .ok ((ws, .fresh), as.map .plain)
    | .plain _ :: _ =>
      let vs' := if dropNa then vs.filter (fun v => !itemNa na v) else vs
      .ok ((vs'.map (fun _ => some (1 / (vs'.length : K))), .fresh), vs')
  | some ws =>
    if dropNa && vs.any (itemNa na) then .error .valueError else .ok (ws, vs)

/-- utils.py:69-70: reject NA-like weights; afterwards all weights are numbers. -/
def requireNumbers : List (Option K) → Except PyErr (List K)
  | [] => .ok []
  | none :: _ => .error .valueError
  | some w :: rest => do
    let ws ← requireNumbers rest
    .ok (w :: ws)

/-- utils.py:84-93: the final loop: a negative weight raises, a zero weight drops the value. -/
def keepPositive {β : Type} : List K → List β → Except PyErr (List K × List β)
  | [], _ => .ok ([], [])
  | _ :: _, [] => .error .indexError
  | w :: ws, v :: vs =>
    if w < 0 then .error .valueError
    else do
      let (ws', vs') ← keepPositive ws vs
      if w > 0 then .ok (w :: ws', v :: vs') else .ok (ws', vs')

/-- Result of the call together with the contents of the caller's `weights` list afterwards
(`none` when the caller's list was not changed). -/
structure PWResult (K α : Type) where
  result : Except PyErr (List K × List (VItem K α))
  callerList : Option (List K)

/-- utils.py:73-74 and 81-93 when numpy numbers with sum zero are normalised: nothing is raised by the
division (numpy warns), positive weights become `inf`, negative ones `-inf` and zeros `nan`.  Then the length
check; a weight `-inf` is negative and raises; a `nan` is neither negative nor positive, so its value is
dropped.  Since the sum is zero, either some weight is negative or all are zero. -/
def normalizedByZero (ws : List K) (vs : List (VItem K α)) : Except PyErr (List K × List (VItem K α)) :=
  if ws.length ≠ vs.length then .error .valueError
  else if ∃ w ∈ ws, w < 0 then .error .valueError
  else .ok ([], [])

/-- utils.py:73-93: normalise or check the sum, infer one missing weight (appending to the list
object in place, utils.py:77), check lengths, drop zero weights. -/
def finishWeights (relative : Bool) (ws : List K) (owner : WOwner) (vs : List (VItem K α)) :
    PWResult K α :=
  if relative then
    if owner = .numpy ∧ ws ≠ [] ∧ ws.sum = 0 then ⟨normalizedByZero ws vs, none⟩
    else match normalize ws with
    | .error e => ⟨.error e, none⟩
    | .ok ws' =>
      if ws'.length ≠ vs.length then ⟨.error .valueError, none⟩
      else ⟨keepPositive ws' vs, none⟩
  else
    let s := ws.sum
    if ws.length + 1 = vs.length ∧ s < 1 then
      let ws' := ws ++ [1 - s]
      match owner with
      | .tuple => ⟨.error .attributeError, none⟩
      | .caller => ⟨keepPositive ws' vs, some ws'⟩
      | .fresh | .numpy => ⟨keepPositive ws' vs, none⟩
    else if s ≤ 99 / 100 ∨ s ≥ 101 / 100 then ⟨.error .valueError, none⟩
    else if ws.length ≠ vs.length then ⟨.error .valueError, none⟩
    else ⟨keepPositive ws vs, none⟩

/-- `_process_weights_values` (utils.py:24-93). `na` is `_is_na_like` on the values. -/
def processWeightsValues (na : α → Bool) (weights relativeWeights : WArg K) (values : VArg K α)
    (dropNa : Bool) : PWResult K α :=
  if !weights.isAbsent && !relativeWeights.isAbsent then ⟨.error .valueError, none⟩
  else if valuesEmpty values then ⟨.error .valueError, none⟩
  else
    let relative := !relativeWeights.isAbsent
    let w := if relative then relativeWeights else weights
    match resolveWeights w with
    | .error e => ⟨.error e, none⟩
    | .ok w1 =>
      match resolveValues w1 values with
      | .error e => ⟨.error e, none⟩
      | .ok (w2, vs) =>
        match fillWeights na dropNa w2 vs with
        | .error e => ⟨.error e, none⟩
        | .ok ((ws, owner), vs') =>
          match requireNumbers ws with
          | .error e => ⟨.error e, none⟩
          | .ok ws' => finishWeights relative ws' owner vs'

/-- `Counter(items).items()` (utils.py:103-104): distinct items in first-seen order with their
multiplicities. -/
def counter [DecidableEq α] : List α → List (α × ℕ)
  | [] => []
  | a :: as => (a, (a :: as).count a) :: (counter as).filter (fun p => p.1 ≠ a)

/-- Is the item a plain (hashable) value rather than a `[w, v]` list? -/
def VItem.isPlain : VItem K α → Bool
  | .plain _ => true
  | .pair _ _ => false

/-- The plain value of an item, if it is one. -/
def VItem.plain? : VItem K α → Option α
  | .plain a => some a
  | .pair _ _ => none

/-- The compression test of `_process_discrete_weights_values` (utils.py:97-102) on a list (or numpy
array) of items.  `_safe_set` of a list of hashable items is a Python `set`, and `_safe_len` of a
`set` is 1 (utils.py:152-162, 165-178), so the last conjunct is `1 < len(items)`; for a list with an
unhashable (list-valued) item `_safe_set` returns the list itself and the conjunct is false. -/
def compresses (vs : List (VItem K α)) : Bool :=
  decide (100 ≤ vs.length) && vs.all VItem.isPlain && decide (1 < vs.length)

/-- `_process_discrete_weights_values` (utils.py:96-107) for a list, a numpy array or a dict.
`Counter` keys compare with Python `==`; here with equality of `α`. -/
def processDiscrete [DecidableEq α] (items : VArg K α) : PWResult K α :=
  let go := fun v => processWeightsValues (K := K) (fun _ => false) .absent .absent v false
  let compress := fun (vs : List (VItem K α)) =>
    let cnt := counter (vs.filterMap VItem.plain?)
    let total : ℕ := (cnt.map Prod.snd).sum
    go (.dict (cnt.map (fun p => (p.1, some ((p.2 : K) / (total : K))))))
  match items with
  | .list vs => if compresses vs then compress vs else go items
  | .ndarray vs => if compresses vs then compress vs else go items
  | _ => go items

end Verif
