import Mathlib.Data.Int.Notation
import Mathlib.Data.Nat.Notation
import Mathlib.Data.List.Basic

/-!
# What events are made of, and what a cache file can hold

Events of `bayesnet` are Python values.  A cache file holds values made of `None`, booleans, whole numbers,
floats, texts, lists, tuples and dictionaries with texts as keys.
-/

namespace Verif.Spec

/-- A Python value: a float is its 64 bits; `other` is anything a cache file cannot hold (numpy numbers,
functions, user-defined objects). -/
inductive PyVal where
  | none
  | bool (b : Bool)
  | int (z : ℤ)
  | flt (bits : UInt64)
  | str (s : String)
  | list (vs : List PyVal)
  | tuple (vs : List PyVal)
  | dict (kvs : List (String × PyVal))
  | other

/-- Fewer than `2 ^ 32` items. -/
def ShortEnough (n : ℕ) : Prop := n < 2 ^ 32

instance (n : ℕ) : Decidable (ShortEnough n) := inferInstanceAs (Decidable (_ < _))

mutual

/-- Values a cache file can hold. -/
def Storable : PyVal → Prop
  | .none => True
  | .bool _ => True
  | .int z => -2 ^ 63 ≤ z ∧ z < 2 ^ 64
  | .flt _ => True
  | .str s => ShortEnough s.utf8ByteSize
  | .list vs => ShortEnough vs.length ∧ StorableAll vs
  | .tuple vs => ShortEnough vs.length ∧ StorableAll vs
  | .dict kvs => ShortEnough kvs.length ∧ StorableItems kvs
  | .other => False

/-- All of them can be stored. -/
def StorableAll : List PyVal → Prop
  | [] => True
  | v :: vs => Storable v ∧ StorableAll vs

/-- Keys and values can be stored. -/
def StorableItems : List (String × PyVal) → Prop
  | [] => True
  | (k, v) :: rest => ShortEnough k.utf8ByteSize ∧ Storable v ∧ StorableItems rest

end

mutual

/-- What a value has become when it is read again: tuples are lists, everything else is the same. -/
def asRead : PyVal → PyVal
  | .none => .none
  | .bool b => .bool b
  | .int z => .int z
  | .flt b => .flt b
  | .str s => .str s
  | .list vs => .list (asReadAll vs)
  | .tuple vs => .list (asReadAll vs)
  | .dict kvs => .dict (asReadItems kvs)
  | .other => .other

/-- Item by item. -/
def asReadAll : List PyVal → List PyVal
  | [] => []
  | v :: vs => asRead v :: asReadAll vs

/-- Item by item. -/
def asReadItems : List (String × PyVal) → List (String × PyVal)
  | [] => []
  | (k, v) :: rest => (k, asRead v) :: asReadItems rest

end

mutual

/-- No tuple anywhere. -/
def TupleFree : PyVal → Prop
  | .tuple _ => False
  | .list vs => TupleFreeAll vs
  | .dict kvs => TupleFreeItems kvs
  | _ => True

/-- Item by item. -/
def TupleFreeAll : List PyVal → Prop
  | [] => True
  | v :: vs => TupleFree v ∧ TupleFreeAll vs

/-- Item by item. -/
def TupleFreeItems : List (String × PyVal) → Prop
  | [] => True
  | (_, v) :: rest => TupleFree v ∧ TupleFreeItems rest

end

end Verif.Spec
