import Verif.Model.Scalar

/-! # Specification vocabulary for sampling results -/

namespace Verif

variable {K : Type}

/-- "`n` samples": one scalar for `n = 1`, otherwise an array of length `n`. -/
def Shape (n : ℕ) : Samples K → Prop
  | .scalar _ => n = 1
  | .arr vs => n ≠ 1 ∧ vs.length = n

/-- The `i`-th sample. -/
def Samples.at? (s : Samples K) (i : ℕ) : Option (Scalar K) := s.toList[i]?

end Verif

namespace Verif

variable {K : Type} [Field K] [LinearOrder K]

/-- `a ≤ b` for two values: both are numbers and their values are ordered. -/
def ScalarLe (a b : Scalar K) : Prop :=
  ∃ x y, a.val? = some x ∧ b.val? = some y ∧ x ≤ y

/-- `v` is `v0` clamped to all lower bounds `lows`, then to all upper bounds `highs`.  Without any
bound it is `v0` itself; otherwise everything is a number and the value of `v` is the clamped value
of `v0`. -/
def ClampOf (lows highs : List (Scalar K)) (v0 v : Scalar K) : Prop :=
  (lows = [] ∧ highs = [] ∧ v = v0) ∨
  ∃ (x : K) (ls hs : List K), v0.val? = some x ∧ lows.map Scalar.val? = ls.map some ∧
    highs.map Scalar.val? = hs.map some ∧ v.val? = some (hs.foldl min (ls.foldl max x))

end Verif
