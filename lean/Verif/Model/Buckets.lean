import Verif.Model.Percentiles
import Mathlib.Order.WithBot

/-!
# `bucket_percentages` (`squigglepy/utils.py:1308-1396`)

Data are floats (no `nan`, no infinities); edges of bins may be infinite.
-/

namespace Verif

/-- A bin edge: a number, `-np.inf` (`⊥`) or `np.inf` (`⊤`). -/
abbrev Edge (K : Type) := WithBot (WithTop K)

/-- A number as an edge. -/
def Edge.of {K : Type} (x : K) : Edge K := ((x : WithTop K) : WithBot (WithTop K))

/-- The `bins` argument. -/
inductive BinsArg (K : Type) where
  | none
  | count (n : ℤ)
  | edges (es : List (Edge K))

variable {K : Type} [Field K] [LinearOrder K]

/-- `a.searchsorted(v, "left")`: the number of data below `v`. -/
def countBelow (data : List K) (v : Edge K) : ℤ := data.countP fun x => Edge.of x < v

/-- `a.searchsorted(v, "right")`: the number of data up to `v`. -/
def countUpTo (data : List K) (v : Edge K) : ℤ := data.countP fun x => Edge.of x ≤ v

/-- numpy's cumulative counts: "left" for every edge but the last, "right" for the last. -/
def cumCounts (data : List K) : List (Edge K) → List ℤ
  | [] => []
  | [e] => [countUpTo data e]
  | e :: es => countBelow data e :: cumCounts data es

/-- `np.diff`. -/
def diffs : List ℤ → List ℤ
  | a :: b :: rest => (b - a) :: diffs (b :: rest)
  | _ => []

/-- `min` and `max` of the data as numpy's histogram takes them: 0 and 1 for no data, widened by ½ on each
side if they coincide. -/
def histRange (data : List K) : K × K :=
  match data with
  | [] => (0, 1)
  | x :: xs =>
    let lo := xs.foldl min x
    let hi := xs.foldl max x
    if lo = hi then (lo - 1 / 2, hi + 1 / 2) else (lo, hi)

/-- `np.linspace(lo, hi, n + 1)`. -/
def linspace (lo hi : K) (n : ℕ) : List K :=
  (List.range (n + 1)).map fun i : ℕ => lo + (hi - lo) * i / n

/-- `np.histogram(data, bins=bins)` (utils.py:1368): counts and edges.  `bins=None` is a TypeError; fewer
than one bin, or decreasing edges, a ValueError.  For a number of bins numpy uses a faster formula
that counts the same points in exact arithmetic. -/
def npHistogram (data : List K) (bins : BinsArg K) : Except PyErr (List ℤ × List (Edge K)) :=
  match bins with
  | .none => .error .typeError
  | .count n =>
    if n < 1 then .error .valueError
    else
      let r := histRange data
      let es := (linspace r.1 r.2 n.toNat).map Edge.of
      .ok (diffs (cumCounts data es), es)
  | .edges es =>
    if ¬ es.Pairwise (· ≤ ·) then .error .valueError
    else .ok (diffs (cumCounts data es), es)

/-- utils.py:1376-1389: the default labels, from consecutive edges. -/
def defaultLabels (fmt : Edge K → String) : List (Edge K) → List String
  | a :: b :: rest =>
    ((if a = ⊥ then "(" else "[") ++ fmt a ++ ", " ++ fmt b ++ ")") :: defaultLabels fmt (b :: rest)
  | _ => []

/-- utils.py:1372-1374: `v / total * (100 if as_percentage else 1)`; dividing a numpy integer by 0 gives `nan`:
not modelled. -/
def bucketValue (normalize asPct : Bool) (total : ℕ) (v : ℤ) : Except PyErr (Scalar K) :=
  if normalize then
    if total = 0 then .error .unmodelled
    else .ok (.flt ((v : K) / (total : K) * (if asPct then 100 else 1)))
  else .ok (.int v)

/-- `bucket_percentages` (utils.py:1357-1396).  `fmt` is the string of an edge. -/
def bucketPercentages (fmt : Edge K → String) (data : List K) (bins : BinsArg K := .none)
    (customBins : Option (List (Edge K × Edge K)) := none) (normalize : Bool := true)
    (asPct : Bool := true) (labels : Option (List String) := none) :
    Except PyErr (List (String × Scalar K)) := do
  let (counts, edges) ← match customBins with
    | some cb =>
      match cb.getLast? with
      | some l => .ok (cb.map fun b =>
          ((data.countP fun x => b.1 ≤ Edge.of x ∧ Edge.of x < b.2 : ℕ) : ℤ), cb.map Prod.fst ++ [l.2])
      | none => .error .indexError
    | none => npHistogram data bins
  let binCount : ℤ := edges.length - 1
  let values ← mapExcept (bucketValue normalize asPct data.length) counts
  let ls := labels.getD (defaultLabels fmt edges)
  if (ls.length : ℤ) ≠ binCount then .error .valueError
  else .ok (dictOf (ls.zip values))

end Verif
