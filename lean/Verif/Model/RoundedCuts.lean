import Verif.Model.Multicore

/-!
# Splitting the work over cores with rounding (`squigglepy/utils.py:181-185`)

As in `Model/Rounded`: Python's division of two whole numbers is correctly rounded.
-/

namespace Verif

/-- `_core_cuts(n, cores)` (utils.py:181-185), with the quotient as a float before it is rounded down. -/
def coreCutsFl {K : Type} [Field K] [LinearOrder K] [FloorRing K] (fl : K → K) (n cores : ℕ) : Except PyErr (List ℤ) :=
  let cuts := List.replicate cores ⌊fl ((n : K) / cores)⌋
  let delta := (n : ℤ) - cuts.sum
  match cuts.reverse with
  | [] => .error .indexError
  | last :: rest => .ok (rest.reverse ++ [last + delta])

end Verif
