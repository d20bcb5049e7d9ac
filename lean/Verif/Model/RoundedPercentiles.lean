import Verif.Model.Percentiles

/-!
# Percentiles with rounding

As in `Model/Rounded`, `fl` is applied after every operation.  This is `np.percentile` as numpy computes it
(method "linear"): the position is rounded, and the interpolation is done from the nearer of the two neighbours.
-/

namespace Verif

variable {K : Type} [Field K] [LinearOrder K] (fl : K → K)

/-- numpy's `_lerp(a, b, t)`: `a + (b - a) * t`, or `b - (b - a) * (1 - t)` if `t >= 0.5`. -/
def lerpFl (a b t : K) : K :=
  if 1 / 2 ≤ t then fl (b - fl (fl (b - a) * fl (1 - t))) else fl (a + fl (fl (b - a) * t))

/-- The position `(n - 1) * (p / 100)` among `n` sorted numbers (`n - 1` is converted to a float). -/
def positionFl (n : ℕ) (p : K) : K := fl (fl ((n : K) - 1) * fl (p / 100))

variable [FloorRing K]

/-- `np.percentile` of sorted data at one percentile between 0 and 100; positions from the last one on give the
last number (numpy's `_get_indexes`). -/
def percentileFl (s : List K) (p : K) : K :=
  let h := positionFl fl s.length p
  if (s.length : K) - 1 ≤ h then s.getD (s.length - 1) 0
  else
    let j := ⌊h⌋.toNat
    lerpFl fl (s.getD j 0) (s.getD (j + 1) 0) (fl (h - ⌊h⌋))

/-- `np.percentile(data, ps)` (utils.py:495). -/
def npPercentileFl (data ps : List K) : Except PyErr (List K) :=
  if ∃ p ∈ ps, p < 0 ∨ 100 < p then .error .valueError
  else if data = [] then .error .unmodelled
  else .ok (ps.map (percentileFl fl (data.insertionSort (· ≤ ·))))

/-- `ci_low` and `ci_high` (utils.py:584-585, 621-622). -/
def ciBoundsFl (credibility : K) : K × K :=
  let low := fl (fl (100 - credibility) / 2)
  (low, fl (100 - low))

/-- `get_median_and_ci(data, credibility)` without weights and digits (utils.py:621-630): lower end, median, upper
end.  The values are looked up in a dictionary by percentile; equal percentiles have equal values. -/
def medianAndCIFl (data : List K) (credibility : K) : Except PyErr (K × K × K) :=
  let b := ciBoundsFl fl credibility
  match npPercentileFl fl data [b.1, 50, b.2] with
  | .ok [l, m, h] => .ok (l, m, h)
  | .ok _ => .error .indexError
  | .error e => .error e

end Verif
