import Verif.Model.Scalar

/-! # Specification of the operators on two sample values -/

namespace Verif

variable {K : Type} [Field K] [LinearOrder K] [FloorRing K]

/-- `z` is the result of the operator on the two values `a` and `b`: the mathematical sum,
difference, … of their values.  Integer powers are exact powers; other powers are whatever
`float ** float` gives. -/
def OpResult (powf : K → K → Option K) (o : BinOp) (a b z : Scalar K) : Prop :=
  ∃ x y, a.val? = some x ∧ b.val? = some y ∧
    match o with
    | .add => z.val? = some (x + y)
    | .sub => z.val? = some (x - y)
    | .mul => z.val? = some (x * y)
    | .truediv => y ≠ 0 ∧ z.val? = some (x / y)
    | .floordiv => y ≠ 0 → z.val? = some ((⌊x / y⌋ : ℤ) : K)
    | .pow => (∃ k : ℤ, b.num? = some (.I k) ∧ (∃ m, a.num? = some (.I m)) ∧ z.val? = some (x ^ k)) ∨
        (powf x y = some (z.val?.getD 0) ∧ ∃ r, z = .flt r)
    | .gt => z = .bool (decide (x > y))
    | .ge => z = .bool (decide (x ≥ y))
    | .lt => z = .bool (decide (x < y))
    | .le => z = .bool (decide (x ≤ y))
    | .max => z.val? = some (max x y)
    | .min => z.val? = some (min x y)

/-- A boolean value. -/
def Scalar.isBool : Scalar K → Bool
  | .bool _ => true
  | _ => false

end Verif
