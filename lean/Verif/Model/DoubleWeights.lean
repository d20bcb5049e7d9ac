import Verif.Model.Rounded
import Verif.Model.Special
import Verif.Spec.Double

/-!
# Weights in floating-point numbers of bounded size

As in `Model/Rounded`, but with infinities: a result that is too large becomes an infinity, and the computation goes
on with it (Python floats raise only when they are divided by zero).
-/

namespace Verif

variable {K : Type} [Field K] [LinearOrder K] (f : FloatFormat) (fl : K → K)

/-- The result of an operation on floats, given the exact one: rounded, and infinite when it is too large. -/
def XVal.toDouble : XVal K → XVal K
  | .fin x => if |fl x| < (2 : K) ^ f.top then signed (decide (x < 0)) (fl x) else inf (decide (x < 0))
  | v => v

/-- `sum(xs)` (utils.py:71, 331). -/
def sumX (xs : List (XVal K)) : XVal K :=
  xs.foldl (fun acc x => (acc.add x).toDouble f fl) (.fin 0)

/-- `normalize` (utils.py:312-332). -/
def normalizeX (xs : List (XVal K)) : Except PyErr (List (XVal K)) :=
  let s := sumX f fl xs
  if xs ≠ [] ∧ s.val? = some 0 then .error .zeroDivisionError
  else .ok (xs.map fun x => (x.div s).toDouble f fl)

/-- utils.py:84-93: a negative weight raises, a weight that is not positive (zero or `nan`) drops the value. -/
def keepPositiveX {ι : Type} : List (XVal K) → List ι → Except PyErr (List (XVal K) × List ι)
  | [], _ => .ok ([], [])
  | _ :: _, [] => .error .indexError
  | w :: ws, v :: vs =>
    if w.lt (.fin 0) then .error .valueError
    else do
      let (ws', vs') ← keepPositiveX ws vs
      if (XVal.fin 0).lt w then .ok (w :: ws', v :: vs') else .ok (ws', vs')

/-- `_process_weights_values` (utils.py:24-93) on a list of values without pairs, dictionaries or missing
values, and weights that are lists of floats. -/
def processX {ι : Type} (w : FlWeights (XVal K)) (vals : List ι) : Except PyErr (List (XVal K) × List ι) :=
  if vals = [] then .error .valueError                                          -- 27-28
  else match w with
  | .relative ws =>                                                             -- 69-70, 73-74, 81-93
    if .nan ∈ ws then .error .valueError
    else do
      let ws' ← normalizeX f fl ws
      if ws'.length ≠ vals.length then .error .valueError else keepPositiveX ws' vals
  | .weights ws => if .nan ∈ ws then .error .valueError else finish ws          -- 69-70
  | .absent =>                                                                  -- 64-65
    finish (List.replicate vals.length ((XVal.fin (1 / (vals.length : K))).toDouble f fl))
where
  /-- utils.py:71, 75-93 -/
  finish (ws : List (XVal K)) : Except PyErr (List (XVal K) × List ι) :=
    let s := sumX f fl ws
    if ws.length + 1 = vals.length ∧ s.lt (.fin 1) then
      keepPositiveX (ws ++ [((XVal.fin 1).sub s).toDouble f fl]) vals
    else if s.le (.fin (fl (99 / 100))) ∨ (XVal.fin (fl (101 / 100))).le s then .error .valueError
    else if ws.length ≠ vals.length then .error .valueError
    else keepPositiveX ws vals

end Verif
