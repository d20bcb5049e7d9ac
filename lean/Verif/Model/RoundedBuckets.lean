import Verif.Model.Buckets

/-!
# `bucket_percentages` with rounding

As in `Model/Rounded`, `fl` is applied after every arithmetic operation.  Counts are whole numbers and edges are given,
so only the division and the multiplication are rounded.
-/

namespace Verif

variable {K : Type} [Field K] [LinearOrder K]

/-- utils.py:1372-1374: `v / total * (100 if as_percentage else 1)`, each of the two operations rounded. -/
def bucketValueFl (fl : K → K) (normalize asPct : Bool) (total : ℕ) (v : ℤ) : Except PyErr (Scalar K) :=
  if normalize then
    if total = 0 then .error .unmodelled
    else .ok (.flt (fl (fl ((v : K) / (total : K)) * (if asPct then 100 else 1))))
  else .ok (.int v)

/-- `bucket_percentages` (utils.py:1357-1396) with custom buckets or a list of edges; with a number of bins the edges
are themselves computed: not modelled here. -/
def bucketPercentagesFl (fl : K → K) (fmt : Edge K → String) (data : List K) (bins : BinsArg K)
    (customBins : Option (List (Edge K × Edge K))) (normalize asPct : Bool) (labels : Option (List String)) :
    Except PyErr (List (String × Scalar K)) := do
  let (counts, edges) ← match customBins with
    | some cb =>
      match cb.getLast? with
      | some l => .ok (cb.map fun b =>
          ((data.countP fun x => b.1 ≤ Edge.of x ∧ Edge.of x < b.2 : ℕ) : ℤ), cb.map Prod.fst ++ [l.2])
      | none => .error .indexError
    | none =>
      match bins with
      | .count _ => .error .unmodelled
      | bins => npHistogram data bins
  let binCount : ℤ := edges.length - 1
  let values ← mapExcept (bucketValueFl fl normalize asPct data.length) counts
  let ls := labels.getD (defaultLabels fmt edges)
  if (ls.length : ℤ) ≠ binCount then .error .valueError
  else .ok (dictOf (ls.zip values))

end Verif
