import Mathlib.Data.List.Basic

/-!
# Class hierarchy questions: `contains_correlated` and `is_continuous_dist`

A distribution object as far as these two questions look at it: its class, whether it has a
correlation group, and the objects it is built from.
-/

namespace Verif

/-- Abstract base class of a simple distribution (distributions.py:178-184): geometric is neither
discrete nor continuous (distributions.py:1838). -/
inductive DistKind where
  | continuous | discrete | neither
  deriving DecidableEq

/-- `grouped` says whether `correlation_group` is set (distributions.py:46).
* `value` – a number, string, `None` or function;
* `simple` – a distribution without parts;
* `categorical` – `discrete(items)`, whose items may be distributions (distributions.py:1224-1230);
* `complex1`, `complex2` – `ComplexDistribution` with `right=None` or a second operand
  (distributions.py:204-212); `cmp` is set for `<`, `<=`, `>`, `>=`, `==`, `!=`;
* `mixture` – `MixtureDistribution` (distributions.py:1713-1721), after the weights are processed. -/
inductive DTree where
  | value
  | simple (k : DistKind) (grouped : Bool)
  | categorical (grouped : Bool) (items : List DTree)
  | complex1 (grouped : Bool) (left : DTree)
  | complex2 (grouped : Bool) (cmp : Bool) (left right : DTree)
  | mixture (grouped : Bool) (dists : List DTree)

/-- `isinstance(dist, BaseDistribution) and dist.correlation_group is not None`
(distributions.py:195). -/
def DTree.grouped : DTree → Bool
  | .value => false
  | .simple _ g => g
  | .categorical g _ => g
  | .complex1 g _ => g
  | .complex2 g _ _ _ => g
  | .mixture g _ => g

/-- `isinstance(obj, CompositeDistribution)`. -/
def DTree.composite : DTree → Bool
  | .complex1 _ _ => true
  | .complex2 _ _ _ _ => true
  | .mixture _ _ => true
  | _ => false

mutual

/-- `contains_correlated` of a composite distribution as left by its constructor
(distributions.py:184-201, 212, 1721): `some true`, or `none` when never set; other objects have no such
attribute (also `none` here). -/
def DTree.containsCorrelated : DTree → Option Bool
  | .complex1 _ l => if checkOne l then some true else none
  | .complex2 _ _ l r => if checkOne l || checkOne r then some true else none
  | .mixture _ ds => if checkAny ds then some true else none
  | _ => none

/-- The two tests of `_check_correlated` on one object (distributions.py:195-201). -/
def checkOne : DTree → Bool
  | .value => false
  | .simple _ g => g
  | .categorical g _ => g
  | .complex1 g l => g || (DTree.containsCorrelated (.complex1 g l) == some true)
  | .complex2 g c l r => g || (DTree.containsCorrelated (.complex2 g c l r) == some true)
  | .mixture g ds => g || (DTree.containsCorrelated (.mixture g ds) == some true)

/-- The loop of `_check_correlated` (distributions.py:194). -/
def checkAny : List DTree → Bool
  | [] => false
  | d :: ds => checkOne d || checkAny ds

end

mutual

/-- `is_continuous_dist` (utils.py:256-273).  The missing second operand `None` of a unary operation is
not a distribution (utils.py:268, 273). -/
def isContinuousDist : DTree → Bool
  | .simple k _ => k == .continuous
  | .complex1 _ l => isContinuousDist l && false
  | .complex2 _ _ l r => isContinuousDist l && isContinuousDist r
  | .mixture _ ds => allContinuous ds
  | _ => false

/-- `all([is_continuous_dist(d) for d in obj.dists])` (utils.py:270). -/
def allContinuous : List DTree → Bool
  | [] => true
  | d :: ds => isContinuousDist d && allContinuous ds

end

end Verif
