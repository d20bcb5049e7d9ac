import Verif.Model.Sample

/-!
# Constructors of the remaining distributions (`squigglepy/distributions.py:620-660, 1120-1867`)

The constructors of the normal family are in `Verif/Model/Params.lean`, `zero_inflated` in
`Verif/Model/ZeroInflated.lean`.  Every constructor either raises or returns an object the sampler
understands.
-/

namespace Verif

variable {K : Type}

/-- A call of one of the constructor functions with its arguments.  A `bernoulli` argument that is
neither `int` nor `float` is `none`; bounds are numbers or `None`. -/
inductive DistCall (K : Type) where
  | const (v : Scalar K)
  | uniform (x y : K)
  | binomial (n : ℤ) (p : K)
  | beta (a b : K)
  | bernoulli (p : Option K)
  | discrete (items : VArg K (Scalar K))
  | tdist (x y : Option K) (t cred : K) (lc rc : Option (Scalar K))
  | logTdist (x y : Option K) (t cred : K) (lc rc : Option (Scalar K))
  | triangular (left mode right : K) (lc rc : Option (Scalar K))
  | pert (left mode right lam : K) (lc rc : Option (Scalar K))
  | poisson (lam : K) (lc rc : Option (Scalar K))
  | chisquare (df : K)
  | exponential (scale : K) (lc rc : Option (Scalar K))
  | gamma (shape scale : K) (lc rc : Option (Scalar K))
  | pareto (shape : K)
  | geometric (p : K)
  | die (sides : IntArg) (explodeOn : ExplodeArg)
  | coin

variable [Field K] [LinearOrder K]

/-- The both-or-neither and ordering tests of `tdist` and `log_tdist` (distributions.py:1275-1278,
1349-1352). -/
def tBounds (x y : Option K) : Except PyErr Unit :=
  match x, y with
  | none, none => .ok ()
  | some x, some y => if x > y then .error .valueError else .ok ()
  | _, _ => .error .valueError

/-- The constructors; the comment after each case cites the lines of the `__init__`. -/
def construct {S : Type} : DistCall K → Except PyErr (Obj S K)
  | .const v => .ok (.leaf (.const v) none none)                      -- 621-623
  | .uniform x y =>                                                   -- 653-657
    if x < y then .ok (.leaf (.uniform x y) none none) else .error .assertionError
  | .binomial n p =>                                                  -- 1121-1126
    if p ≤ 0 ∨ p ≥ 1 then .error .valueError else .ok (.leaf (.binomial n p) none none)
  | .beta a b => .ok (.leaf (.beta a b) none none)                    -- 1156-1159
  | .bernoulli p =>                                                   -- 1191-1197
    match p with
    | none => .error .valueError
    | some p =>
      if ¬ (0 ≤ p ∧ p ≤ 1) then .error .valueError else .ok (.leaf (.bernoulli p) none none)
  | .discrete items =>                                                -- 1225-1230
    match items with
    | .list vs => if vs.length > 0 then .ok (.leaf (.categorical items) none none)
        else .error .assertionError
    | .ndarray vs => if vs.length > 0 then .ok (.leaf (.categorical (.list vs)) none none)
        else .error .assertionError
    | .dict kvs => if kvs.length > 0 then .ok (.leaf (.categorical items) none none)
        else .error .assertionError
    | .absent => .error .valueError
    | .other => .error .valueError
  | .tdist x y t cred lc rc => do                                     -- 1265-1281
    tBounds x y
    .ok (.leaf (.tdist x y t cred) lc rc)
  | .logTdist x y t cred lc rc => do                                  -- 1339-1357
    tBounds x y
    match x with
    | some x' => if x' ≤ 0 then .error .valueError else .ok (.leaf (.logtdist x y t cred) lc rc)
    | none => .ok (.leaf (.logtdist x y t cred) lc rc)
  | .triangular l m r _ _ =>                                          -- 1416-1426, 1454
    if l > m then .error .valueError
    else if r < m then .error .valueError
    else if l = r then .error .valueError
    else .ok (.leaf (.triangular l m r) none none)
  | .pert l m r lam lc rc =>                                          -- 1458-1474
    if l > m then .error .valueError
    else if r < m then .error .valueError
    else if lam < 0 then .error .valueError
    else if l = r then .error .valueError
    else .ok (.leaf (.pert l m r lam) lc rc)
  | .poisson lam lc rc => .ok (.leaf (.poisson lam) lc rc)            -- 1520-1524
  | .chisquare df =>                                                  -- 1562-1566
    if df ≤ 0 then .error .valueError else .ok (.leaf (.chisquare df) none none)
  | .exponential sc lc rc =>                                          -- 1594-1601
    if sc > 0 then
      if sc < 10 ^ 20 then .ok (.leaf (.exponential sc) lc rc) else .error .assertionError
    else .error .assertionError
  | .gamma sh sc lc rc => .ok (.leaf (.gamma sh sc) lc rc)            -- 1639-1644
  | .pareto sh => .ok (.leaf (.pareto sh) none none)                  -- 1684-1686
  | .geometric p =>                                                   -- 1839-1843
    if p < 0 ∨ p > 1 then .error .valueError else .ok (.leaf (.geometric p) none none)
  | .die sides explodeOn =>                                           -- dice.py:13-35
    do .ok (.leaf (.die (← dieInit sides explodeOn)) none none)
  | .coin => .ok (.leaf .coin none none)                              -- dice.py:80-81

/-- What is handed to `sample`: something `is_sampleable` accepts (utils.py:276-309), or anything else
(a list, a dict, an array, …). -/
inductive Target (S K : Type) where
  | obj (o : Obj S K)
  | other

/-- The number of samples as the caller gives it: `int(n)` truncates a float (samplers.py:977). -/
inductive Count (K : Type) where
  | int (z : ℤ)
  | flt (x : K)

variable [FloorRing K]

/-- `int(n)`. -/
def Count.toInt : Count K → ℤ
  | .int z => z
  | .flt x => truncZ x

/-- `sample(dist, n, lclip, rclip)` from the outside (samplers.py:977-983, then `sampleObj`). -/
def sampleCall {σ : Type} (E : Env σ K) (t : Target (St σ K) K) (n : Count K)
    (lc rc : Option (Scalar K)) : SM σ K (Samples K) :=
  if n.toInt ≤ 0 then SM.throw .valueError
  else match t with
    | .other => SM.throw .valueError
    | .obj o => sampleObj E o n.toInt.toNat lc rc

/-- `dist @ n` (distributions.py:94-101, 111-112). -/
def matmul {σ : Type} (E : Env σ K) (o : Obj (St σ K) K) (n : Count K) : SM σ K (Samples K) :=
  sampleCall E (.obj o) n none none

/-- `~dist` (distributions.py:89-92). -/
def invert {σ : Type} (E : Env σ K) (o : Obj (St σ K) K) : SM σ K (Samples K) :=
  sampleCall E (.obj o) (.int 1) none none

end Verif
