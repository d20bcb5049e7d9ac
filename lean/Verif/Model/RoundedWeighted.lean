import Verif.Model.Percentiles

/-!
# Weighted percentiles with rounding

As in `Model/Rounded`, `fl` is applied after every operation.  The order in which `np.sum` adds is left open: `addUp` is
the computed sum.
-/

namespace Verif

variable {K : Type} [Field K] [LinearOrder K] (fl : K → K)

/-- `np.interp(x, xp, fp)` as numpy computes it: below the first point and from the last one on the value there,
otherwise `slope * (x - xp[j]) + fp[j]` with `slope = (fp[j+1] - fp[j]) / (xp[j+1] - xp[j])` in an interval with
`xp[j] <= x < xp[j+1]`.  numpy finds it by bisection; here it is the first one, the same on points in order. -/
def interpFl (x : K) : List (K × K) → Except PyErr K
  | [] => .error .valueError
  | [(_, f)] => .ok f
  | (a, f) :: (b, g) :: rest =>
    if x < a then .ok f
    else if b ≤ x then interpFl x ((b, g) :: rest)
    else .ok (fl (fl (fl (fl (g - f) / fl (b - a)) * fl (x - a)) + f))

/-- utils.py:450-451: `(cumsum(w) - 0.5 * w) / sum(w)`, paired with the data; `acc` is `cumsum` so far. -/
def knotsFl (total : K) (acc : K) : List (K × K) → List (K × K)
  | [] => []
  | (w, d) :: rest => (fl (fl (fl (acc + w) - fl (1 / 2 * w)) / total), d) :: knotsFl total (fl (acc + w)) rest

/-- `_weighted_percentile` (utils.py:430-453) at one percentile; several are computed one by one.  A negative weight
(the points are not sorted) and weights that sum to zero (`nan`) are not modelled. -/
def weightedPercentileFl (addUp : List K → K) (argsort : List K → List ℕ) (data weights : List K) (p : K) :
    Except PyErr K :=
  if data.length ≠ weights.length then .error .valueError
  else if data = [] then .error .valueError
  else
    let sorter := argsort data
    let pairs := sorter.map fun i => (weights.getD i 0, data.getD i 0)
    let total := addUp (pairs.map Prod.fst)
    if (∃ w ∈ weights, w < 0) ∨ total = 0 then .error .unmodelled
    else interpFl fl (fl (p / 100)) (knotsFl fl total 0 pairs)

end Verif
