import Verif.Model.Weights
import Mathlib.Tactic.Linarith

/-!
# Which component a mixture picks

`squigglepy/samplers.py:719-780`: both sampling strategies turn the weights into cumulative weights
and look a uniform draw up in them.
-/

namespace Verif

variable {K : Type} [Field K] [LinearOrder K]

/-- `np.cumsum(weights)` (samplers.py:741, 770), with the running total as accumulator. -/
def cumsumFrom (acc : K) : List K → List K
  | [] => []
  | w :: ws => (acc + w) :: cumsumFrom (acc + w) ws

/-- `np.cumsum(weights)` (samplers.py:741, 770). -/
def cumsum (ws : List K) : List K := cumsumFrom 0 ws

/-- The loop of CPython's `bisect.bisect_left(a, x)` (called at samplers.py:738):
`while lo < hi: mid = (lo + hi) // 2; if a[mid] < x: lo = mid + 1 else: hi = mid`.
An index outside `a` cannot occur for `hi ≤ len(a)`; the model then stops. -/
def bisectLoop (a : List K) (x : K) (lo hi : ℕ) : ℕ :=
  if h : lo < hi then
    match a[(lo + hi) / 2]? with
    | none => lo
    | some y => if y < x then bisectLoop a x ((lo + hi) / 2 + 1) hi
                else bisectLoop a x lo ((lo + hi) / 2)
  else lo
termination_by hi - lo
decreasing_by
  all_goals omega

/-- `bisect.bisect_left(a, x)`. -/
def bisectLeft (a : List K) (x : K) : ℕ := bisectLoop a x 0 a.length

/-- Component chosen for more than 100 samples (samplers.py:736-739): `values[index]` raises
`IndexError` when `bisect_left` returns the length. -/
def pickLarge (ws : List K) (u : K) : Except PyErr ℕ :=
  let index := bisectLeft (cumsum ws) u
  if index < ws.length then .ok index else .error .indexError

/-- The loop of samplers.py:764-768 over the cumulative weights: first `i` with `r_ <= weight`,
else the last component (`dist` still holds the last loop value after the loop). -/
def pickLoop (u : K) : List K → ℕ → ℕ
  | [], i => i - 1
  | c :: cs, i => if u ≤ c then i else pickLoop u cs (i + 1)

/-- Component chosen for up to 100 samples (samplers.py:761-768). -/
def pickSmall (ws : List K) (u : K) : ℕ := pickLoop u (cumsum ws) 0

end Verif
