import Mathlib.Data.Nat.Notation
import Mathlib.Data.List.Basic

/-!
# What a file of samples holds

`sample` returns floats, whole numbers or truth values: an array of them, or a single one.
-/

namespace Verif.Spec

/-- The values: 64-bit floats and 64-bit whole numbers by their bits, or truth values. -/
inductive NpyItems where
  | f8 (xs : List UInt64)
  | i8 (xs : List UInt64)
  | b1 (xs : List Bool)
  deriving DecidableEq

/-- How many values. -/
def NpyItems.count : NpyItems → ℕ
  | .f8 xs => xs.length
  | .i8 xs => xs.length
  | .b1 xs => xs.length

/-- An array with one axis (`scalar = false`), or a single value (`scalar = true`). -/
structure NpyArray where
  scalar : Bool
  items : NpyItems
  deriving DecidableEq

/-- A single value is one value. -/
def NpyArray.Ok (a : NpyArray) : Prop := a.scalar = true → a.items.count = 1

end Verif.Spec
