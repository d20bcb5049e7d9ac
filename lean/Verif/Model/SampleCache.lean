import Verif.Model.Multicore

/-!
# `sample()` with its caches (samplers.py:977-1008, 1231-1260)

`_squigglepy_internal_sample_caches` is a dictionary keyed by `str(dist)` (samplers.py:54); cache
files hold one array each.
-/

namespace Verif

variable {σ K : Type} [Field K] [LinearOrder K] [FloorRing K]

/-- The caching arguments of `sample` (samplers.py:903-918). -/
structure CacheOpts where
  memcache : Bool := false
  reload : Bool := false
  dump : Option String := none
  load : Option String := none
  filePrimary : Bool := false
  /-- how many cores, and how the pool distributes the work -/
  cores : ℕ := 1
  sched : Sched := []

/-- A file argument counts only if it is truthy: `None` and `""` do not (samplers.py:991, 1250). -/
def truthyName : Option String → Option String
  | some "" => none
  | o => o

/-- Global state with caches and the cache files of the working directory (by name without
`.sqcache.npy`). -/
structure CSt (σ K : Type) where
  inner : MSt σ K
  mem : String → Option (Samples K)
  files : String → Option (Samples K)

/-- `np.load` of a file written by `np.save` (samplers.py:1003, 1255): arrays of Python objects
(here: containing `None`) are pickled and refused by `np.load`. -/
def loadNpy (s : Samples K) : Except PyErr (Samples K) :=
  if s.toList.any (fun v => decide (v.dt = .obj)) then .error .valueError else .ok s

/-- samplers.py:988-1008: what the caches provide, if anything.  A cached `None` counts as nothing,
because the code goes on with `if samples is None`. -/
def loadCached (o : CacheOpts) (key : String) (c : CSt σ K) : Except PyErr (Option (Samples K)) :=
  let file := (truthyName o.load).bind c.files
  if (truthyName o.load).isSome || o.memcache then
    if o.reload then .ok none
    else match file, c.mem key with
      | some f, none => do .ok (some (← loadNpy f))
      | some f, some m =>
        if o.filePrimary then do .ok (some (← loadNpy f))
        else if o.memcache then .ok (some m) else .ok none
      | none, some m => if o.memcache then .ok (some m) else .ok none
      | none, none => .ok none
  else .ok none

/-- samplers.py:1242-1257: store the samples in memory and in a file. -/
def saveCaches (o : CacheOpts) (key : String) (had : Bool) (z : Samples K) (c : CSt σ K) : CSt σ K :=
  { c with
    mem := if o.memcache && (!had || o.reload) then
        fun k => if k = key then some z else c.mem k
      else c.mem
    files := match truthyName o.dump with
      | some f => fun g => if g = f then some z else c.files g
      | none => c.files }

/-- The samples before they are saved: from a cache (then clipped with the explicit bounds only,
samplers.py:1231-1240) or freshly drawn.  `Samples.scalar .none` is Python's `None`. -/
def obtain? (E : Env σ K) (o : CacheOpts) (key : String) (d : Obj (St σ K) K) (n : ℕ)
    (lc rc : Option (Scalar K)) (c : CSt σ K) : Except PyErr (Samples K) × CSt σ K :=
  match loadCached o key c with
  | .error e => (.error e, c)
  | .ok cached =>
    match cached with
    | some (.arr vs) => (applyClips E.powf lc rc (.arr vs), c)
    | some (.scalar v) =>
      if v = .none then
        (match sampleCores E o.sched o.cores d n lc rc c.inner with
        | (r, s') => (r, { c with inner := s' }))
      else (applyClips E.powf lc rc (.scalar v), c)
    | none =>
      (match sampleCores E o.sched o.cores d n lc rc c.inner with
      | (r, s') => (r, { c with inner := s' }))

/-- `sample(d, n, lclip, rclip, memcache, reload_cache, dump_cache_file, load_cache_file,
cache_file_primary, cores)`.  `key` is `str`. -/
def cachedSample (E : Env σ K) (key : Obj (St σ K) K → String) (o : CacheOpts) (d : Obj (St σ K) K)
    (n : ℕ) (lc rc : Option (Scalar K)) (c : CSt σ K) : Except PyErr (Samples K) × CSt σ K :=
  if n = 0 then (.error .valueError, c)
  else match obtain? E o (key d) d n lc rc c with
    | (.error e, c') => (.error e, c')
    | (.ok z, c') => (.ok z, saveCaches o (key d) (c.mem (key d)).isSome z c')

/-- One call in a history. -/
structure CacheOp (σ K : Type) where
  opts : CacheOpts
  d : Obj (St σ K) K
  n : ℕ
  lc : Option (Scalar K) := none
  rc : Option (Scalar K) := none

/-- The effect of a call on the state. -/
def CacheOp.run (E : Env σ K) (key : Obj (St σ K) K → String) (op : CacheOp σ K) (c : CSt σ K) :
    Except PyErr (Samples K) × CSt σ K :=
  cachedSample E key op.opts op.d op.n op.lc op.rc c

/-- The state after a history of calls (exceptions caught by the caller). -/
def runCache (E : Env σ K) (key : Obj (St σ K) K → String) : List (CacheOp σ K) → CSt σ K → CSt σ K
  | [], c => c
  | op :: ops, c => runCache E key ops (op.run E key c).2

/-! ### `str(dist)` -/

/-- How numbers are printed, and the printed form of things the model does not look into (functions:
`<function f at 0x...>`; lists of items). -/
structure StrEnv (σ K : Type) where
  num : K → String
  hidden : Obj (St σ K) K → String

/-- `"{}".format(v)`. -/
def Scalar.pstr (num : K → String) : Scalar K → String
  | .none => "None"
  | .bool b => if b then "True" else "False"
  | .int z => toString z
  | .flt x => num x
  | .str s => s

/-- `round(x, 2)`. -/
def round2 (x : K) : K := (roundEven (x * 100) : K) / 100

/-- `", lclip={}"` and `", rclip={}"` where present (e.g. distributions.py:715-718). -/
def clipStr (num : K → String) (lc rc : Option (Scalar K)) : String :=
  (match lc with | some v => ", lclip=" ++ v.pstr num | none => "") ++
  (match rc with | some v => ", rclip=" ++ v.pstr num | none => "")

/-- The arguments of `tdist` and `log_tdist` as printed (distributions.py:1283-1289, 1359-1365): the
credibility is shown unless it is 90. -/
def tStr (num : K → String) (x y : Option K) (t cred : K) : String :=
  match x with
  | some x => "x=" ++ num x ++ ", y=" ++ (match y with | some y => num y | none => "None") ++
      ", t=" ++ num t ++ (if cred = 90 then "" else ", credibility=" ++ num cred)
  | none => "t=" ++ num t

/-- The part of `str(dist)` after `"<Distribution> "` for some leaf distributions
(distributions.py:625-720, 1128-1234, 1283-1296, 1359-1372, 1428-1485, 1526-1689, 1845; dice.py:37-42,
83-85); `none` for the others (lognormals, categorical, exploding dice), which are printed by
`hidden`. -/
def Leaf.str? (num : K → String) (lc rc : Option (Scalar K)) : Leaf K → Option String
  | .const v => some ("const(" ++ v.pstr num ++ ")")
  | .uniform x y => some ("uniform(" ++ num x ++ ", " ++ num y ++ ")")
  | .normal m s => some ("norm(mean=" ++ num (round2 m) ++ ", sd=" ++ num (round2 s) ++
      clipStr num lc rc ++ ")")
  | .binomial n p => some ("binomial(n=" ++ toString n ++ ", p=" ++ num p ++ ")")
  | .beta a b => some ("beta(a=" ++ num a ++ ", b=" ++ num b ++ ")")
  | .bernoulli p => some ("bernoulli(p=" ++ num p ++ ")")
  | .triangular l m r => some ("triangular(" ++ num l ++ ", " ++ num m ++ ", " ++ num r ++ ")")
  | .pert l m r lam => some ("PERT(" ++ num l ++ ", " ++ num m ++ ", " ++ num r ++ ", lam=" ++ num lam ++
      clipStr num lc rc ++ ")")
  | .tdist x y t cred => some ("tdist(" ++ tStr num x y t cred ++ clipStr num lc rc ++ ")")
  | .logtdist x y t cred => some ("log_tdist(" ++ tStr num x y t cred ++ clipStr num lc rc ++ ")")
  | .poisson lam => some ("poisson(" ++ num lam ++ clipStr num lc rc ++ ")")
  | .chisquare df => some ("chisquare(" ++ num df ++ ")")
  | .exponential sc => some ("exponential(" ++ num sc ++ clipStr num lc rc ++ ")")
  | .gamma sh sc => some ("gamma(shape=" ++ num sh ++ ", scale=" ++ num sc ++ clipStr num lc rc ++ ")")
  | .pareto sh => some ("pareto(" ++ num sh ++ ")")
  | .geometric p => some ("geometric(p=" ++ num p ++ ")")
  | .die d => (match d.explodeOn with
    | none => some ("Die(" ++ toString d.sides ++ ")")
    | some _ => none)
  | .coin => some "Coin"
  | _ => none

/-- The printed form of a uniform distribution (distributions.py:659-660). -/
theorem Leaf.str?_uniform (num : K → String) (lc rc : Option (Scalar K)) (x y : K) :
    (Leaf.uniform x y).str? num lc rc = some ("uniform(" ++ num x ++ ", " ++ num y ++ ")") := by
  simp [Leaf.str?]

/-- `fn_str` of an operator (distributions.py:114-169); `==` and `!=` are built from `le`
(see C14) and not distinguished here. -/
def BinOp.sym : BinOp → String
  | .add => "+" | .sub => "-" | .mul => "*" | .truediv => "/" | .floordiv => "//" | .pow => "**"
  | .gt => ">" | .ge => ">=" | .lt => "<" | .le => "<=" | .max => "max" | .min => "min"

/-- `"<Distribution> "` unless an enclosing `ComplexDistribution` strips it. -/
def distPrefix (strip : Bool) : String := if strip then "" else "<Distribution> "

/-- The components of `MixtureDistribution.__str__` (distributions.py:1723-1727). -/
def mixLines (num : K → String) : List K → List String → String
  | w :: ws, d :: ds => "\n - " ++ num w ++ " weight on " ++ d ++ mixLines num ws ds
  | _, _ => ""

/-- `str(dist)` (with `strip`: after `.replace("<Distribution> ", "")`): operators are written infix
*without parentheses* (distributions.py:214-240), mixtures omit their clips
(distributions.py:1723-1727). -/
def strObj (F : StrEnv σ K) (strip : Bool) : Obj (St σ K) K → String
  | .lit v => v.pstr F.num
  | .leaf l lc rc =>
    (match l.str? F.num lc rc with
    | some s => distPrefix strip ++ s
    | none => distPrefix strip ++ F.hidden (.leaf l lc rc))
  | .mix _ ds ws _ _ => distPrefix strip ++ "mixture" ++
      mixLines F.num ws ((List.finRange _).map fun i => strObj F strip (ds i))
  | .un f left => distPrefix strip ++ (match f with
      | .neg => "-" ++ strObj F true left
      | .floor => "floor(" ++ strObj F true left ++ ")"
      | .ceil => "ceil(" ++ strObj F true left ++ ")"
      | .exp => "exp(" ++ strObj F true left ++ ")"
      | .round0 => "round(" ++ strObj F true left ++ ")"
      | .clipNone => "lclip(" ++ strObj F true left ++ ")")
  | .bin f left right => distPrefix strip ++ (match f with
      | .op .max => "max(" ++ strObj F true left ++ ", " ++ strObj F true right ++ ")"
      | .op .min => "min(" ++ strObj F true left ++ ", " ++ strObj F true right ++ ")"
      | .op o => strObj F true left ++ " " ++ o.sym ++ " " ++ strObj F true right
      | .lclip => "lclip(" ++ strObj F true left ++ ", " ++ strObj F true right ++ ")"
      | .rclip => "rclip(" ++ strObj F true left ++ ", " ++ strObj F true right ++ ")"
      | .round => "round(" ++ strObj F true left ++ ", " ++ strObj F true right ++ ")"
      | .log => "log(" ++ strObj F true left ++ ", " ++ strObj F true right ++ ")")
  | .corr _ _ members i => strObj F strip (members i)
  | d => F.hidden d

end Verif
