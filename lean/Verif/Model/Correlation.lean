import Verif.Model.Sample
import Mathlib.Data.List.Dedup

/-!
# Inducing rank correlation (`squigglepy/correlation.py`)

`CorrelationGroup.induce_correlation` (correlation.py:210-277) on columns of equal length.  The linear
algebra (Cholesky factors, `np.corrcoef`, inverse) is an oracle `recorr` that turns the score matrix
into the re-correlation matrix `s` (correlation.py:250-262); what it computes is studied in
`Verif/Props/TargetScores.lean`.  `scipy.stats.norm.ppf` and `spearmanr` are oracles as well.
-/

namespace Verif

variable {K : Type} [Field K] [LinearOrder K]

/-- `rankdata(x, method="min")` (correlation.py:244, 268): one plus the number of smaller values. -/
def rankMin (xs : List K) : List ℕ := xs.map fun x => 1 + xs.countP (fun y => decide (y < x))

/-- `np.unique(all, return_inverse=True)`: position of `v` among the distinct values
(correlation.py:290-292). -/
def denseIdx (all : List ℕ) (v : ℕ) : ℕ := (all.dedup.filter (fun w => decide (w < v))).length

/-- `a[idx]` for an array of indices. -/
def gatherIdx {α : Type} (a : List α) (idx : List ℕ) : Except PyErr (List α) :=
  mapExcept (fun i => match a[i]? with
    | some x => Except.ok x
    | none => .error .indexError) idx

/-- What `np.argsort` promises: a permutation of the positions that sorts the keys.  The default
algorithm is not stable, the order of equal keys is unspecified. -/
def IsArgsort (argsort : List ℕ → List ℕ) : Prop :=
  ∀ keys : List ℕ, (argsort keys).Perm (List.range keys.length) ∧
    ((argsort keys).map fun i => keys.getD i 0).Pairwise (· ≤ ·)

/-- One column of `_sort_data_according_to_rank` (correlation.py:289-296). -/
def sortColumn (argsort : List ℕ → List ℕ) (col : List K) (oldRank newRank : List ℕ) :
    Except PyErr (List K) := do
  let all := oldRank ++ newRank
  let oldOrder := oldRank.map (denseIdx all)
  let newOrder := newRank.map (denseIdx all)
  let sorted ← gatherIdx col (argsort oldOrder)
  gatherIdx sorted newOrder

/-- The data of a correlation group (correlation.py:175-178). -/
structure CorrGroup (K : Type) where
  matrix : List (List K)
  tol : Option K
  minUnique : ℕ

/-- `has_sufficient_sample_diversity` (correlation.py:330-348). -/
def sufficientlyDiverse (minUnique : ℕ) (col : List K) : Bool :=
  decide (7 / 10 * (col.length : K) ≤ (col.dedup.length : K)) && decide (minUnique ≤ col.dedup.length)

/-- `np.eye(m)`. -/
def eyeRows (m : ℕ) : List (List K) :=
  (List.range m).map fun i => (List.range m).map fun j => if i = j then 1 else 0

/-- Entry of a matrix given by rows. -/
def entry (rows : List (List K)) (i j : ℕ) : K := (rows.getD i []).getD j 0

/-- The external functions used. -/
structure CorrEnv (K : Type) where
  ppf : K → K
  recorr : List (List K) → Except PyErr (List (List K))
  rho : List K → List K → K
  argsort : List ℕ → List ℕ

/-- Van der Waerden scores of a column (correlation.py:243-248). -/
def scoresOf (ppf : K → K) (col : List K) : List K :=
  (rankMin col).map fun r : ℕ => ppf ((r : K) / ((col.length : K) + 1))

/-- Column `i` of `np.dot(data_rank_score, s.T)` (correlation.py:265): linear combination of the score
columns with row `i` of `s`. -/
def combineCols (n : ℕ) (row : List K) (scores : List (List K)) : List K :=
  (List.range n).map fun r => (List.zipWith (fun a c => a * c.getD r 0) row scores).sum

/-- `_check_empirical_correlation` (correlation.py:298-328): for two variables only the off-diagonal
entry, otherwise all entries. -/
def withinTolerance (rho : List K → List K → K) (matrix : List (List K)) (t : K)
    (cols : List (List K)) : Bool :=
  if cols.length = 2 then
    decide (|rho (cols.getD 0 []) (cols.getD 1 []) - entry matrix 0 1| ≤ t)
  else
    (List.range cols.length).all fun i => (List.range cols.length).all fun j =>
      decide (|rho (cols.getD i []) (cols.getD j []) - entry matrix i j| ≤ t)

/-- The target scores of all variables. -/
def targetScores (C : CorrEnv K) (cols : List (List K)) : Except PyErr (List (List K)) := do
  let scores := cols.map (scoresOf C.ppf)
  let s ← C.recorr scores
  let n := (cols.headD []).length
  .ok (s.map fun row => combineCols n row scores)

/-- `induce_correlation` (correlation.py:210-277) on the columns of the data. -/
def CorrGroup.induce (C : CorrEnv K) (G : CorrGroup K) (cols : List (List K)) :
    Except PyErr (List (List K)) :=
  if cols.any (fun c => !sufficientlyDiverse G.minUnique c) then .error .valueError
  else if G.matrix = eyeRows cols.length then .ok cols
  else do
    let targets ← targetScores C cols
    if targets.length ≠ cols.length then .error .assertionError
    else do
      let out ← mapExcept (fun p : List K × List K => sortColumn C.argsort p.1 (rankMin p.1)
        (rankMin p.2)) (cols.zip targets)
      match G.tol with
      | some t =>
        -- `if self.correlation_tolerance:` – zero counts as no tolerance (correlation.py:274)
        if t = 0 then .ok out
        else if withinTolerance C.rho G.matrix t out then .ok out else .error .runtimeError
      | none => .ok out

end Verif
