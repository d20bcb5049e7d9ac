import Mathlib.Algebra.Order.Field.Basic
import Mathlib.Algebra.BigOperators.Group.List.Basic

/-!
# Specification vocabulary for weights (independent of the model)
-/

namespace Verif.Spec

variable {K : Type} [Field K] [LinearOrder K] {β : Type}

/-- The documented acceptance condition for one weight per value. -/
def Acceptable (ws : List K) : Prop :=
  (∀ w ∈ ws, 0 ≤ w) ∧ 99 / 100 < ws.sum ∧ ws.sum < 101 / 100

instance (ws : List K) : Decidable (Acceptable ws) := by unfold Acceptable; infer_instance

/-- The (weight, value) pairs with a non-zero weight, in order. -/
def nonzeroPairs (ws : List K) (vs : List β) : List (K × β) :=
  (ws.zip vs).filter (fun p => p.1 ≠ 0)

/-- Total weight a weighted list gives to the value `v`. -/
def weightOf [DecidableEq β] (ws : List K) (vs : List β) (v : β) : K :=
  (((ws.zip vs).filter (fun p => p.2 = v)).map Prod.fst).sum

end Verif.Spec
