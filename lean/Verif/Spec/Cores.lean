import Verif.Model.Scalar

/-! # Specification vocabulary for multi-core runs -/

namespace Verif

variable {K : Type} [Field K]

/-- What a numeric value becomes in a float array: the same number as a float. -/
def asFloat (v : Scalar K) : Scalar K :=
  match v with
  | .int z => .flt (z : K)
  | .bool b => .flt (if b then 1 else 0)
  | v => v

/-- Either all values are numbers, or none is. -/
def Homogeneous (vs : List (Scalar K)) : Prop :=
  (∀ v ∈ vs, (∃ z, v = .int z) ∨ (∃ x, v = .flt x) ∨ (∃ b, v = .bool b)) ∨
  (∀ v ∈ vs, (∃ s, v = .str s) ∨ v = .none)

end Verif
