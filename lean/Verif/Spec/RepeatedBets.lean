import Mathlib.Analysis.SpecialFunctions.Log.Basic

/-!
# Specification: wealth after repeated bets
-/

namespace Verif.Spec

open scoped Classical in
/-- What one unit of wealth has become after betting the fraction `f` of the current wealth, again and again, on an event
traded at price `m`: a fraction `f` buys `f / m` shares, each worth 1 if the event happens (the outcome is 1) and nothing
otherwise. -/
noncomputable def wealth (m f : ℝ) : List ℝ → ℝ
  | [] => 1
  | x :: xs => (if x = 1 then 1 - f + f / m else 1 - f) * wealth m f xs

end Verif.Spec
