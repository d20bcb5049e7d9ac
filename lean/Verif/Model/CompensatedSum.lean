import Verif.Model.Rounded

/-!
# Weights with the `sum` of Python 3.12 and later

The project supports Python 3.11 to 3.13 (pyproject.toml:18).  From 3.12 on the built-in `sum` of floats keeps the digits
lost in each addition in a second number and adds them at the end (Neumaier's variant of Kahan's summation).
`Model/Rounded` has the plain sum of Python 3.11; here are the same functions with the new one.  As there, `fl` is any
rounding, and overflow, underflow, infinities and `nan` are not modelled.  Numbers that are not exactly of type `float`
(integers, numpy numbers) are added by the interpreter without the correction, and are not modelled here.
-/

namespace Verif

variable {K : Type} [Field K] [LinearOrder K] (fl : K → K)

/-- One round of the loop of `sum` over floats (utils.py:71, 331; CPython 3.12, `builtin_sum`): the running total `s` and the
lost digits `c`. -/
def compStep (sc : K × K) (x : K) : K × K :=
  let t := fl (sc.1 + x)
  if |sc.1| ≥ |x| then (t, fl (sc.2 + fl (fl (sc.1 - t) + x)))
  else (t, fl (sc.2 + fl (fl (x - t) + sc.1)))

/-- `sum(xs)` of a list of floats from Python 3.12 on (utils.py:71, 331).  Nothing is added at the end when no digits were
lost. -/
def sumComp (xs : List K) : K :=
  let r := xs.foldl (compStep fl) (0, 0)
  if r.2 = 0 then r.1 else fl (r.1 + r.2)

/-- `normalize` (utils.py:312-332), with the built-in `sum` given. -/
def normalizeBy (sum : List K → K) (lst : List K) : Except PyErr (List K) :=
  let s := sum lst
  if lst ≠ [] ∧ s = 0 then .error .zeroDivisionError
  else .ok (lst.map fun x => fl (x / s))

/-- `_process_weights_values` (utils.py:24-93), as in `processFl`, with the built-in `sum` given. -/
def processBy (sum : List K → K) {ι : Type} (w : FlWeights K) (vals : List ι) : Except PyErr (List K × List ι) :=
  if vals = [] then .error .valueError                                          -- 27-28
  else match w with
  | .relative ws => do                                                          -- 73-74, 81-93
    let ws' ← normalizeBy fl sum ws
    if ws'.length ≠ vals.length then .error .valueError else keepPositive ws' vals
  | .weights ws => finish ws
  | .absent => finish (List.replicate vals.length (fl (1 / vals.length)))       -- 64-65
where
  /-- utils.py:71, 75-93 -/
  finish (ws : List K) : Except PyErr (List K × List ι) :=
    let s := sum ws
    if ws.length + 1 = vals.length ∧ s < 1 then keepPositive (ws ++ [fl (1 - s)]) vals
    else if s ≤ fl (99 / 100) ∨ s ≥ fl (101 / 100) then .error .valueError
    else if ws.length ≠ vals.length then .error .valueError
    else keepPositive ws vals

/-- With the `sum` of Python 3.11 these are the functions of `Model/Rounded`. -/
theorem normalizeBy_sumFl (lst : List K) : normalizeBy fl (sumFl fl) lst = normalizeFl fl lst := rfl

theorem processBy_sumFl {ι : Type} (w : FlWeights K) (vals : List ι) :
    processBy fl (sumFl fl) w vals = processFl fl w vals := by
  cases w <;> rfl

end Verif
