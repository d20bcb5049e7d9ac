import Mathlib.Analysis.SpecialFunctions.Pow.Real

/-!
# Specification: weighted geometric mean
-/

namespace Verif.Spec

/-- The geometric mean of the values with the weights: `(∏ vᵢ ^ wᵢ) ^ (1 / ∑ wᵢ)`. -/
noncomputable def wgeo (ws vs : List ℝ) : ℝ :=
  (((ws.zip vs).map fun p => p.2 ^ p.1).prod) ^ (1 / ((ws.zip vs).map Prod.fst).sum)

end Verif.Spec
