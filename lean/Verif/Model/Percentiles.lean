import Verif.Model.Scalar
import Mathlib.Data.List.Sort
import Mathlib.Analysis.SpecialFunctions.Log.Base

/-!
# Percentiles (`squigglepy/utils.py:430-630`)

Numbers are elements of an ordered field with floor; data and weights are lists of floats.
-/

namespace Verif

variable {K : Type}

/-! ### Python dictionaries with numeric keys -/

/-- `d[k] = v`: an existing key keeps its position. -/
def dictSet {α β : Type} [DecidableEq α] (d : List (α × β)) (k : α) (v : β) : List (α × β) :=
  if k ∈ d.map Prod.fst then d.map fun p => if p.1 = k then (k, v) else p else d ++ [(k, v)]

/-- `dict(pairs)`: later pairs win. -/
def dictOf {α β : Type} [DecidableEq α] (ps : List (α × β)) : List (α × β) :=
  ps.foldl (fun d p => dictSet d p.1 p.2) []

/-- `d[k]`. -/
def dictGet {α β : Type} [DecidableEq α] (d : List (α × β)) (k : α) : Except PyErr β :=
  match d.find? fun p => p.1 = k with
  | some p => .ok p.2
  | none => .error .keyError

variable [Field K] [LinearOrder K] [FloorRing K]

/-! ### numpy -/

/-- `np.percentile` of sorted data at one percentile, default method "linear": the virtual index is
`(n-1) * p/100`. -/
def percentileAt (s : List K) (p : K) : K :=
  let h := ((s.length : K) - 1) * (p / 100)
  let j := ⌊h⌋.toNat
  let lo := s.getD j 0
  let hi := s.getD (min (j + 1) (s.length - 1)) 0
  lo + (hi - lo) * (h - ⌊h⌋)

/-- `np.percentile(data, ps)` (utils.py:495).  Without data numpy returns `nan` or raises, depending on
the version: not modelled. -/
def npPercentile (data ps : List K) : Except PyErr (List K) :=
  if ∃ p ∈ ps, p < 0 ∨ 100 < p then .error .valueError
  else if data = [] then .error .unmodelled
  else .ok (ps.map (percentileAt (data.insertionSort (· ≤ ·))))

/-- `np.interp(x, xp, fp)` on the list of points `(xp, fp)`, `xp` not decreasing. -/
def interp (x : K) : List (K × K) → Except PyErr K
  | [] => .error .valueError
  | [(_, f)] => .ok f
  | (a, f) :: (b, g) :: rest =>
    if x < a then .ok f
    else if b ≤ x then interp x ((b, g) :: rest)
    else .ok ((g - f) / (b - a) * (x - a) + f)

/-- utils.py:450-451: `(cumsum(w) - 0.5 * w) / sum(w)`, paired with the data; `acc` is the sum of the
weights before. -/
def knots (total : K) (acc : K) : List (K × K) → List (K × K)
  | [] => []
  | (w, d) :: rest => ((acc + w - 1 / 2 * w) / total, d) :: knots total (acc + w) rest

/-- What `np.argsort(data)` promises: positions in an order that sorts the data.  The default algorithm
is not stable, so for equal data any order is possible. -/
def IsArgsortOf (data : List K) (order : List ℕ) : Prop :=
  order.Perm (List.range data.length) ∧ (order.map fun i => data.getD i 0).Pairwise (· ≤ ·)

/-- `_weighted_percentile` (utils.py:430-453).  A negative weight (the points are not sorted) and
weights that sum to zero (`nan`) are not modelled. -/
def weightedPercentile (argsort : List K → List ℕ) (data weights ps : List K) :
    Except PyErr (List K) :=
  if data.length ≠ weights.length then .error .valueError
  else if data = [] then .error .valueError
  else if (∃ w ∈ weights, w < 0) ∨ weights.sum = 0 then .error .unmodelled
  else
    let sorter := argsort data
    let pairs := sorter.map fun i => (weights.getD i 0, data.getD i 0)
    mapExcept (fun p => interp (p / 100) (knots weights.sum 0 pairs)) ps

/-! ### The library's functions -/

/-- The `percentiles` argument: a list, or a single number. -/
inductive PctArg (K : Type) where
  | one (p : K)
  | list (ps : List K)

/-- utils.py:490. -/
def PctArg.toList : PctArg K → List K
  | .one p => [p]
  | .list ps => ps

/-- A number or a dictionary of numbers. -/
inductive PctResult (K : Type) where
  | one (v : Scalar K)
  | dict (d : List (K × Scalar K))

/-- `_round(x, digits)` for one number (utils.py:123-132); `none` is `digits=None`. -/
def roundOpt (digits : Option ℤ) (x : K) : Except PyErr (Scalar K) :=
  match digits with
  | none => .ok (.flt x)
  | some d => roundScalar d (.flt x)

/-- `get_percentiles` (utils.py:490-500). -/
def getPercentiles (argsort : List K → List ℕ) (data : List K) (percentiles : PctArg K)
    (weights : Option (List K) := none) (reverse : Bool := false) (digits : Option ℤ := none) :
    Except PyErr (PctResult K) := do
  let ps := percentiles.toList
  let labels := if reverse then ps.reverse else ps
  let vs ← match weights with
    | some ws => weightedPercentile argsort data ws ps
    | none => npPercentile data ps
  let rs ← mapExcept (roundOpt digits) vs
  if labels.length = 1 then
    match rs with
    | r :: _ => .ok (.one r)
    | [] => .error .indexError
  else .ok (.dict (dictOf (labels.zip rs)))

/-- `percentiles[k]` on what `get_percentiles` returned for two or three percentiles. -/
def PctResult.get (r : PctResult K) (k : K) : Except PyErr (Scalar K) :=
  match r with
  | .one _ => .error .typeError
  | .dict d => dictGet d k

/-- A mean or median together with an interval. -/
structure CI (K : Type) where
  centre : Scalar K
  low : Scalar K
  high : Scalar K

/-- `get_mean_and_ci` (utils.py:584-593); `np.mean` of no data is not modelled (it cannot be
reached: the percentiles fail first). -/
def getMeanAndCI (argsort : List K → List ℕ) (data : List K) (credibility : K)
    (weights : Option (List K) := none) (digits : Option ℤ := none) : Except PyErr (CI K) := do
  let low := (100 - credibility) / 2
  let high := 100 - low
  let r ← getPercentiles argsort data (.list [low, high]) weights false digits
  let m ← roundOpt digits (data.sum / data.length)
  .ok ⟨m, ← r.get low, ← r.get high⟩

/-- `get_median_and_ci` (utils.py:621-630). -/
def getMedianAndCI (argsort : List K → List ℕ) (data : List K) (credibility : K)
    (weights : Option (List K) := none) (digits : Option ℤ := none) : Except PyErr (CI K) := do
  let low := (100 - credibility) / 2
  let high := 100 - low
  let r ← getPercentiles argsort data (.list [low, 50, high]) weights false digits
  .ok ⟨← r.get 50, ← r.get low, ← r.get high⟩

/-! ### `get_log_percentiles` -/

/-- What `get_log_percentiles` returns; `nothing` is `None`. -/
inductive LogPctResult where
  | nothing
  | one (v : Scalar ℝ)
  | dict (d : List (ℝ × Scalar ℝ))

/-- `_round(np.log10(v), digits)`; the logarithm of a number that is not positive (`nan`, `-inf`) is not
modelled. -/
noncomputable def log10Round (digits : Option ℤ) (v : Scalar ℝ) : Except PyErr (Scalar ℝ) :=
  match v.val? with
  | some x => if 0 < x then roundOpt digits (Real.logb 10 x) else .error .unmodelled
  | none => .error .typeError

/-- `("{:." + str(digits) + "e}").format(v)`: `fmt` is Python's formatting; a negative number of digits
or `None` is not a valid format. -/
def formatE (fmt : ℕ → Scalar ℝ → String) (digits : Option ℤ) (v : Scalar ℝ) :
    Except PyErr (Scalar ℝ) :=
  match digits with
  | some d => if 0 ≤ d then .ok (.str (fmt d.toNat v)) else .error .valueError
  | none => .error .valueError

/-- `get_log_percentiles` (utils.py:541-556).  With a single percentile and `display=True` the formatted
string is computed and dropped (line 553-554). -/
noncomputable def getLogPercentiles (fmt : ℕ → Scalar ℝ → String) (argsort : List ℝ → List ℕ)
    (data : List ℝ) (percentiles : PctArg ℝ) (weights : Option (List ℝ) := none)
    (reverse : Bool := false) (display : Bool := true) (digits : Option ℤ := some 1) :
    Except PyErr LogPctResult := do
  let r ← getPercentiles argsort data percentiles weights reverse digits
  match r with
  | .dict d =>
    let vs ← mapExcept (fun p : ℝ × Scalar ℝ => do
      let v ← if display then formatE fmt digits p.2 else log10Round digits p.2
      .ok (p.1, v)) d
    .ok (.dict vs)
  | .one v =>
    if display then do
      let _ ← formatE fmt digits v
      .ok .nothing
    else do
      .ok (.one (← log10Round digits v))

end Verif
