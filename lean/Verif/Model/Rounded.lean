import Verif.Model.Weights
import Verif.Model.Mixture

/-!
# The arithmetic of the library with rounding

The other files compute with exact numbers.  Here the purely arithmetic functions are written once more with a
rounding `fl` after every addition, subtraction, multiplication and division, in the order in which Python
performs them.  `fl` is a parameter; a Python float rounds to 53 binary digits.  Overflow, underflow,
infinities and `nan` are not modelled.
-/

namespace Verif

variable {K : Type} [Field K] [LinearOrder K] (fl : K → K)

/-- `sum(xs)`, from left to right and starting at 0 (utils.py:71, 331).  (From Python 3.12 on `sum` corrects
for lost digits, see `Model/CompensatedSum`; this is the sum of Python 3.11.) -/
def sumFl (xs : List K) : K := xs.foldl (fun acc x => fl (acc + x)) 0

/-- `normalize` (utils.py:312-332). -/
def normalizeFl (lst : List K) : Except PyErr (List K) :=
  let s := sumFl fl lst
  if lst ≠ [] ∧ s = 0 then .error .zeroDivisionError
  else .ok (lst.map fun x => fl (x / s))

/-- How the weights of a mixture are given. -/
inductive FlWeights (K : Type) where
  | absent
  | weights (ws : List K)
  | relative (ws : List K)

/-- `_process_weights_values` (utils.py:24-93) on a list of values without pairs, dictionaries or missing
values, and weights that are lists of numbers. -/
def processFl {ι : Type} (w : FlWeights K) (vals : List ι) : Except PyErr (List K × List ι) :=
  if vals = [] then .error .valueError                                          -- 27-28
  else match w with
  | .relative ws => do                                                          -- 73-74, 81-93
    let ws' ← normalizeFl fl ws
    if ws'.length ≠ vals.length then .error .valueError else keepPositive ws' vals
  | .weights ws => finish ws
  | .absent => finish (List.replicate vals.length (fl (1 / vals.length)))       -- 64-65
where
  /-- utils.py:71, 75-93 -/
  finish (ws : List K) : Except PyErr (List K × List ι) :=
    let s := sumFl fl ws
    if ws.length + 1 = vals.length ∧ s < 1 then keepPositive (ws ++ [fl (1 - s)]) vals
    else if s ≤ fl (99 / 100) ∨ s ≥ fl (101 / 100) then .error .valueError
    else if ws.length ≠ vals.length then .error .valueError
    else keepPositive ws vals

/-- The loop of `np.cumsum`, from the partial sum `acc` on. -/
def cumsumFlFrom (acc : K) : List K → List K
  | [] => []
  | w :: ws => fl (acc + w) :: cumsumFlFrom (fl (acc + w)) ws

/-- `np.cumsum(weights)` (samplers.py:741, 770). -/
def cumsumFl (ws : List K) : List K := cumsumFlFrom fl 0 ws

/-- Component chosen for more than 100 samples (samplers.py:736-739). -/
def pickLargeFl (ws : List K) (u : K) : Except PyErr ℕ :=
  let index := bisectLeft (cumsumFl fl ws) u
  if index < ws.length then .ok index else .error .indexError

/-- Component chosen for up to 100 samples (samplers.py:761-768). -/
def pickSmallFl (ws : List K) (u : K) : ℕ := pickLoop u (cumsumFl fl ws) 0

/-- `p_to_odds` of a number (utils.py:683-690). -/
def pToOddsFl (p : K) : Except PyErr K :=
  if p ≤ 0 ∨ p ≥ 1 then .error .valueError else .ok (fl (p / fl (1 - p)))

/-- `odds_to_p` of a number (utils.py:713-720). -/
def oddsToPFl (o : K) : Except PyErr K :=
  if o ≤ 0 then .error .valueError else .ok (fl (o / fl (1 + o)))

/-- `laplace(s, n)` (utils.py:794-797). -/
def laplaceFl (s n : K) : Except PyErr K :=
  if s > n then .error .valueError
  else if fl (n + 2) = 0 then .error .zeroDivisionError
  else .ok (fl (fl (s + 1) / fl (n + 2)))

/-- The numbers `adj_price`, `kelly`, `target` and `expected_roi` of `kelly`, before they are rounded to be
shown (utils.py:951-964). -/
structure KellyFl (K : Type) where
  adj : K
  kelly : K
  target : K
  roi : K

/-- `kelly` (utils.py:951-964). -/
def kellyFl (my market deference bankroll : K) (error : Bool) : Except PyErr (KellyFl K) :=
  if market ≥ 1 ∨ market ≤ 0 then .error .valueError
  else if my ≥ 1 ∨ my ≤ 0 then .error .valueError
  else if deference > 1 ∨ deference < 0 then .error .valueError
  else if my < market ∧ error = true then .error .valueError
  else
    let adj := fl (fl (my * fl (1 - deference)) + fl (market * deference))
    let k := |fl (adj - fl (fl (1 - adj) * fl (market / fl (1 - market))))|
    .ok ⟨adj, k, fl (bankroll * k), |fl (fl (adj / market) - 1)|⟩

/-- A number drawn by numpy's `uniform(0, 1)` is `j / 2^p` for an integer `0 ≤ j < 2^p`, each equally likely
(`p = 53`). -/
def gridPoint (p : ℕ) (j : ℕ) : K := j / 2 ^ p

/-- `uniform(0, 1) < q` (utils.py:356; samplers.py:344-348) when the `j`-th number is drawn. -/
def happensFl (p : ℕ) (q : K) (j : ℕ) : Bool := decide ((gridPoint p j : K) < q)

end Verif
