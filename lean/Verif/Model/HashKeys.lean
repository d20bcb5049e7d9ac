import Verif.Model.Weights
import Verif.Model.SampleCache

/-!
# Distributions as dictionary keys and as items of `discrete`

Python's `dict`, `set` and `Counter` identify two objects if their hashes agree and `==` between them is
true.  For distributions `==` builds a new distribution, which counts as true (distributions.py:126-127), and
the hash is that of the printed form with the version (distributions.py:171-172, 52-57).  Different texts are
assumed to have different hashes.
-/

namespace Verif

variable {σ K : Type} [Field K] [LinearOrder K] [FloorRing K]

/-- An item of `discrete([...])` or a key of a dict: a plain value or a distribution. -/
inductive Item (σ K : Type) where
  | val (v : Scalar K)
  | dist (d : Obj (St σ K) K)

/-- What `dict` and `Counter` go by. -/
inductive DictKey (K : Type) where
  | none
  | num (x : K)
  | text (s : String)
  deriving DecidableEq

/-- The key of an item.  Numbers and booleans go by value (`1 == 1.0 == True`).  A distribution goes by the
hash of its `repr` (distributions.py:52-57, 171-172), which is also the hash of that text itself. -/
def Item.key (F : StrEnv σ K) (version : String) : Item σ K → DictKey K
  | .val .none => .none
  | .val (.bool b) => .num (if b then 1 else 0)
  | .val (.int z) => .num z
  | .val (.flt x) => .num x
  | .val (.str s) => .text s
  | .dist (.corr g m ms i) => .text (strObj F false (ms i) ++ " (version " ++ version ++ ", corr_group " ++
      F.hidden (.corr g m ms i) ++ ")")
  | .dist d => .text (strObj F false d ++ " (version " ++ version ++ ")")

variable {α κ : Type} [DecidableEq κ]

/-- `Counter(items).items()` (utils.py:103-104): for every key the first item with it and the number of items
with it. -/
def counterBy (key : α → κ) : List α → List (α × ℕ)
  | [] => []
  | a :: as => (a, (a :: as).countP fun b => key b = key a) ::
      (counterBy key as).filter fun p => key p.1 ≠ key a

/-- Writing an entry into a dict: an entry with the same key gets the new value and keeps its old key object
and place. -/
def dictInsert {β : Type} (key : α → κ) (a : α) (b : β) : List (α × β) → List (α × β)
  | [] => [(a, b)]
  | (a', b') :: rest => if key a' = key a then (a', b) :: rest else (a', b') :: dictInsert key a b rest

/-- The dict display `{a1: b1, a2: b2, ...}`. -/
def dictDisplay {β : Type} (key : α → κ) (l : List (α × β)) : List (α × β) :=
  l.foldl (fun d p => dictInsert key p.1 p.2 d) []

/-- `_process_discrete_weights_values` (utils.py:96-107) for a list of items without weights, with the keys
`Counter` goes by. -/
def processDiscreteBy (key : α → κ) (items : List α) : Except PyErr (List K × List (VItem K α)) :=
  if 100 ≤ items.length then
    let cnt := counterBy key items
    let total : ℕ := (cnt.map Prod.snd).sum
    (processWeightsValues (K := K) (fun _ => false) .absent .absent
      (.dict (cnt.map fun p => (p.1, some ((p.2 : K) / (total : K))))) false).result
  else (processWeightsValues (K := K) (fun _ => false) .absent .absent (.list (items.map .plain)) false).result

/-- `mixture({a1: w1, a2: w2, ...})` (distributions.py:1716, utils.py:46-49). -/
def mixtureOfDict (key : α → κ) (entries : List (α × K)) : Except PyErr (List K × List (VItem K α)) :=
  (processWeightsValues (K := K) (fun _ => false) .absent .absent
    (.dict ((dictDisplay key entries).map fun p => (p.1, some p.2))) false).result

/-- `mixture([[w1, a1], [w2, a2], ...])` (distributions.py:1716, utils.py:55-58). -/
def mixtureOfPairs (entries : List (α × K)) : Except PyErr (List K × List (VItem K α)) :=
  (processWeightsValues (K := K) (fun _ => false) .absent .absent
    (.list (entries.map fun p => .pair (some p.2) p.1)) false).result

end Verif
