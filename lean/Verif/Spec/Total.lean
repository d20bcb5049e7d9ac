import Verif.Model.Sample

/-!
# The sum of several copies of a distribution
-/

namespace Verif.Spec

/-- `sum([d] * n)`, as Python computes it: `((0 + d) + d) + …`. -/
def total {T K : Type} (d : Obj T K) : ℕ → Obj T K
  | 0 => .lit (.int 0)
  | n + 1 => .bin (.op .add) (total d n) d

end Verif.Spec
