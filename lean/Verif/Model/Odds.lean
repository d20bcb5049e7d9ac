import Verif.Model.ZeroInflated
import Verif.Model.Scalar
import Mathlib.Analysis.SpecialFunctions.Log.Basic

/-!
# Odds and geometric means (`squigglepy/utils.py:135-149, 633-750`)

NA-like numbers (`None`, `nan`) are `none`.
-/

namespace Verif

/-- An argument that may be one value or a list/array of values, and a result of that kind. -/
inductive OneMany (α : Type) where
  | one (a : α)
  | many (l : List α)
  deriving DecidableEq

namespace OneMany
variable {α : Type}

/-- `_enlist` (utils.py:143-149). -/
def enlist : OneMany α → List α
  | one a => [a]
  | many l => l

/-- `_simplify` of an array (utils.py:135-140): one element becomes a plain value. -/
def simplify (l : List α) : OneMany α :=
  match l with
  | [a] => one a
  | l => many l

end OneMany

section Odds
variable {K : Type} [Field K] [LinearOrder K]

/-- `_convert` of `p_to_odds` (utils.py:683-688). -/
def oddsOf : Option K → Except PyErr (Option K)
  | none => .ok none
  | some p => if p ≤ 0 ∨ p ≥ 1 then .error .valueError else .ok (some (p / (1 - p)))

/-- `_convert` of `odds_to_p` (utils.py:713-718). -/
def probOf : Option K → Except PyErr (Option K)
  | none => .ok none
  | some o => if o ≤ 0 then .error .valueError else .ok (some (o / (1 + o)))

/-- `p_to_odds` (utils.py:690). -/
def pToOdds (p : OneMany (Option K)) : Except PyErr (OneMany (Option K)) := do
  .ok (OneMany.simplify (← mapExcept oddsOf p.enlist))

/-- `odds_to_p` (utils.py:720). -/
def oddsToP (o : OneMany (Option K)) : Except PyErr (OneMany (Option K)) := do
  .ok (OneMany.simplify (← mapExcept probOf o.enlist))

end Odds

/-- `np.log` of the values (utils.py:659).  `log` of a number that is not positive is `nan` or `-inf`,
of `None` a TypeError: not modelled.  A `[w, v]` item that was not unpacked is refused as well. -/
noncomputable def logValues : List (VItem ℝ (Option ℝ)) → Except PyErr (List ℝ) :=
  mapExcept fun v => match v with
    | .plain (some x) => if 0 < x then .ok (Real.log x) else .error .unmodelled
    | _ => .error .unmodelled

/-- `np.average(xs, weights=ws)` (utils.py:660); raises `ZeroDivisionError` if the weights sum to 0. -/
noncomputable def npAverage (ws xs : List ℝ) : Except PyErr ℝ :=
  if ws.sum = 0 then .error .zeroDivisionError
  else .ok ((List.zipWith (· * ·) ws xs).sum / ws.sum)

/-- `geomean` (utils.py:658-660). -/
noncomputable def geomean (a : VArg ℝ (Option ℝ)) (weights relativeWeights : WArg ℝ := .absent)
    (dropNa : Bool := true) : Except PyErr ℝ := do
  let (ws, vs) ← (processWeightsValues Option.isNone weights relativeWeights a dropNa).result
  let logs ← logValues vs
  let avg ← npAverage ws logs
  .ok (Real.exp avg)

/-- The values of processed items, for `p_to_odds`: a `[w, v]` list among them makes `_is_na_like`
produce an array: not modelled. -/
def plainValues : List (VItem ℝ (Option ℝ)) → Except PyErr (List (Option ℝ)) :=
  mapExcept fun v => match v with
    | .plain x => .ok x
    | .pair _ _ => .error .unmodelled

/-- What `_process_weights_values` sees of the result of `p_to_odds`: an array, or – after `_simplify` –
a number that is not iterable. -/
def OneMany.asValues : OneMany (Option ℝ) → VArg ℝ (Option ℝ)
  | .one _ => .other
  | .many l => .ndarray (l.map .plain)

/-- `geomean_odds` (utils.py:749-750). -/
noncomputable def geomeanOdds (a : VArg ℝ (Option ℝ)) (weights relativeWeights : WArg ℝ := .absent)
    (dropNa : Bool := true) : Except PyErr ℝ := do
  let (ws, vs) ← (processWeightsValues Option.isNone weights relativeWeights a dropNa).result
  let odds ← pToOdds (.many (← plainValues vs))
  let g ← geomean odds.asValues (.list (ws.map some))
  match ← oddsToP (.one (some g)) with
  | .one (some p) => .ok p
  | _ => .error .unmodelled

end Verif
