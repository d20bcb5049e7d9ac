import Verif.Model.Rng
import Verif.Model.Dice
import Verif.Model.Mixture

/-!
# The sampler `sample()` (`squigglepy/samplers.py`) as an interpreter of distribution trees

Caching, cache files and several cores are layered on top in `Verif/Model/SampleCache.lean` and
`Verif/Model/Multicore.lean`; this file is the single-core, uncached path (samplers.py:1057-1240),
which is also what every nested `sample` call uses.
-/

namespace Verif

variable {σ K : Type}

/-- Global state: the generator (rng.py:3) and the samples left over in correlated distributions
(`_correlated_samples`, distributions.py:47), keyed by group and member. -/
structure St (σ K : Type) where
  rng : σ
  left : ℕ → ℕ → Option (List (Scalar K))

/-- A computation that may raise; the state survives an exception. -/
def SM (σ K α : Type) : Type := St σ K → Except PyErr α × St σ K

namespace SM

/-- Return a value. -/
def pure {α : Type} (a : α) : SM σ K α := fun s => (.ok a, s)

/-- Raise an exception. -/
def throw {α : Type} (e : PyErr) : SM σ K α := fun s => (.error e, s)

/-- Sequencing; an exception skips the rest. -/
def bind {α β : Type} (m : SM σ K α) (f : α → SM σ K β) : SM σ K β := fun s =>
  match m s with
  | (.ok a, s') => f a s'
  | (.error e, s') => (.error e, s')

/-- A pure computation that may raise. -/
def lift {α : Type} (r : Except PyErr α) : SM σ K α := fun s => (r, s)

instance : Monad (SM σ K) where
  pure := SM.pure
  bind := SM.bind

/-- `[f(a) for a in as]`, left to right. -/
def mapL {α β : Type} (f : α → SM σ K β) : List α → SM σ K (List β)
  | [] => SM.pure []
  | a :: as => SM.bind (f a) fun b => SM.bind (mapL f as) fun bs => SM.pure (b :: bs)

/-- `[m() for _ in range(n)]`. -/
def replicateL {α : Type} (m : SM σ K α) : ℕ → SM σ K (List α)
  | 0 => SM.pure []
  | n + 1 => SM.bind m fun a => SM.bind (replicateL m n) fun as => SM.pure (a :: as)

end SM

/-- Leaf distributions with the parameters their samplers use (samplers.py:1137-1213). -/
inductive Leaf (K : Type) where
  | const (v : Scalar K)
  | uniform (x y : K)
  | categorical (items : VArg K (Scalar K))
  | normal (mean sd : K)
  | lognormal (mean sd : K)
  | invlognormal (mean sd : K)
  | binomial (n : ℤ) (p : K)
  | beta (a b : K)
  | bernoulli (p : K)
  | poisson (lam : K)
  | chisquare (df : K)
  | exponential (scale : K)
  | gamma (shape scale : K)
  | pareto (shape : K)
  | triangular (left mode right : K)
  | pert (left mode right lam : K)
  | tdist (x y : Option K) (t cred : K)
  | logtdist (x y : Option K) (t cred : K)
  | geometric (p : K)
  | die (d : DieSpec)
  | coin

/-- One-argument functions of expression nodes: unary minus and the library's own `dist_fn` wrappers
(distributions.py:132-133, 402-405, 429, 453, 501, 504-549 with `val=None`). -/
inductive UnFn where
  | neg | floor | ceil | exp | round0 | clipNone
  deriving DecidableEq

/-- Two-argument functions of expression nodes. -/
inductive BinFn where
  | op (o : BinOp)
  | lclip | rclip | round | log
  deriving DecidableEq

/-- Anything `sample` accepts.  `S` is the global state a model function can read and change.
* `lit` – a number, string or `None`;
* `call exn ret next` – a Python function: called in state `s` it raises `exn s`, or returns `ret s`;
  it leaves the state `next s`;
* `leaf`, `mix` – distributions with their own `lclip`/`rclip`;
* `un`, `bin` – `ComplexDistribution` with one of the library's functions;
* `userUn`, `userBin` – `dist_fn` with a user's (pure) function, which may itself return a
  distribution (samplers.py:1224-1225): `isDist` says whether, `val`/`d` give the result;
* `corr g m members i` – member `i` of the correlation group `g` whose underlying distributions are
  `members`. -/
inductive Obj (S K : Type) where
  | lit (v : Scalar K)
  | call (exn : S → Option PyErr) (ret : S → Obj S K) (next : S → S)
  | leaf (l : Leaf K) (lc rc : Option (Scalar K))
  | mix (k : ℕ) (ds : Fin k → Obj S K) (ws : List K) (lc rc : Option (Scalar K))
  | un (f : UnFn) (left : Obj S K)
  | bin (f : BinFn) (left right : Obj S K)
  | userUn (isDist : Samples K → Bool) (val : Samples K → Except PyErr (Samples K))
      (d : Samples K → Obj S K) (left : Obj S K)
  | userBin (isDist : Samples K → Samples K → Bool)
      (val : Samples K → Samples K → Except PyErr (Samples K))
      (d : Samples K → Samples K → Obj S K) (left right : Obj S K)
  | corr (g m : ℕ) (members : Fin m → Obj S K) (i : Fin m)

/-- Is the object a plain value, neither a distribution nor callable (samplers.py:1094-1095)? -/
def Obj.isLit {S : Type} : Obj S K → Bool
  | .lit _ => true
  | _ => false

/-- The plain value. -/
def Obj.litVal {S : Type} : Obj S K → Scalar K
  | .lit v => v
  | _ => .none

/-- `dist.lclip`, `dist.rclip` (samplers.py:1061-1063); a `ComplexDistribution` has none. -/
def Obj.clips {S : Type} : Obj S K → Option (Scalar K) × Option (Scalar K)
  | .leaf _ lc rc => (lc, rc)
  | .mix _ _ _ lc rc => (lc, rc)
  | .corr _ _ members i => (members i).clips
  | _ => (none, none)

/-- Everything external the sampler uses: the generator, `exp`, `log`, `float ** float`,
`scipy.stats.norm.ppf`, `str` of a number, the correlation step of a group, and how many further rolls of
an exploding die are carried out when a roll of the die begins in the given state of the generator (the
Python loop has no bound; see `Env.Patient`). -/
structure Env (σ K : Type) where
  gen : Gen σ K
  exp : K → K
  log : K → K
  powf : K → K → Option K
  ppf : K → K
  fmt : Scalar K → String
  induce : ℕ → List (List K) → Except PyErr (List (List K))
  fuel : DieSpec → σ → ℕ

variable [Field K] [LinearOrder K] [FloorRing K]

/-- One call of a generator method. -/
def drawSM (E : Env σ K) (p : Prim K) (n : ℕ) : SM σ K (List (Scalar K)) := fun s =>
  match E.gen.draw p n s.rng with
  | (r, rng') => (r, { s with rng := rng' })

/-- `_simplify(_get_rng().method(..., samples))`, e.g. samplers.py:88. -/
def drawSimple (E : Env σ K) (p : Prim K) (n : ℕ) : SM σ K (Samples K) :=
  SM.bind (drawSM E p n) fun xs => SM.pure (Samples.simplify (.arr xs))

/-- `int(_get_rng().integers(low, high))` (samplers.py:677, 682, 713). -/
def drawInt (E : Env σ K) (low high : ℤ) : SM σ K ℤ :=
  SM.bind (drawSM E (.integers low high) 1) fun xs st =>
    match xs with
    | [.int z] => SM.pure z st
    | _ => SM.throw .unmodelled st

/-- One roll of a die (`_single_roll`, samplers.py:675-684): the number of further rolls that are carried out
depends on the die and on the state of the generator when the roll begins. -/
def rollDie (E : Env σ K) (d : DieSpec) : SM σ K ℤ := fun s =>
  singleRoll (drawInt E 1 (d.sides + 1)) d.explodeOn (E.fuel d s.rng) s

/-- A roll is only left unfinished if it would never end: the loop goes on as long as the Python loop
(samplers.py:680-683). -/
def Env.Patient (E : Env σ K) : Prop :=
  ∀ (d : DieSpec) (s : St σ K) (f : ℕ),
    (singleRoll (drawInt E 1 (d.sides + 1)) d.explodeOn f s).1 ≠ .error .outOfFuel →
    (rollDie E d s).1 ≠ .error .outOfFuel

/-- Apply a function on floats to each sample (`np.exp`, `1.0 / x`, `x + 1`). -/
def mapFlt (f : K → K) (s : Samples K) : Except PyErr (Samples K) :=
  let g : Scalar K → Except PyErr (Scalar K) := fun v =>
    match v.num? with
    | some x => .ok (.flt (f x.val))
    | none => .error .typeError
  match s with
  | .scalar v => do .ok (.scalar (← g v))
  | .arr vs => do .ok (.arr (← mapExcept g vs))

/-- Combine the values of a Python list of results with `np.array` (samplers.py:1100-1102, 1260).
An array among them would give a two-dimensional (or ragged) array: not modelled. -/
def gather (E : Env σ K) (ss : List (Samples K)) : Except PyErr (Samples K) := do
  let vs ← mapExcept (fun s : Samples K => match s with
    | .scalar v => Except.ok v
    | .arr _ => .error .unmodelled) ss
  .ok (Samples.simplify (.arr (npArray E.fmt vs)))

/-- `values[index][i]` for the index picked by the uniform number `u` (samplers.py:736-739). -/
def pickValue (ws : List K) (pre : List (Samples K)) (p : Scalar K × ℕ) :
    Except PyErr (Scalar K) :=
  match p.1 with
  | .flt u =>
    (match pickLarge ws u with
    | .error e => .error e
    | .ok index =>
      (match pre[index]? with
      | some s => (match s.toList[p.2]? with
          | some v => .ok v
          | none => .error .indexError)
      | none => .error .indexError))
  | _ => .error .unmodelled

/-- `_mixture_sample_for_large_n` (samplers.py:719-749): sample every component `n` times, then pick
for each position. -/
def mixtureLarge {ι : Type} (E : Env σ K) (comp : ι → ℕ → SM σ K (Samples K)) (ws : List K)
    (vals : List ι) (n : ℕ) : SM σ K (Samples K) :=
  SM.bind (SM.mapL (fun i => comp i n) vals) fun pre =>
  SM.bind (drawSM E (.uniform 0 1) n) fun us =>
  SM.lift (do
    let vs ← mapExcept (pickValue ws pre) us.zipIdx
    .ok (Samples.simplify (.arr (npArray E.fmt vs))))

/-- One sample of `_run_mixture` (samplers.py:761-768): a uniform number picks a component, which is
sampled once. -/
def mixtureOne {ι : Type} (E : Env σ K) (comp : ι → ℕ → SM σ K (Samples K)) (ws : List K)
    (vals : List ι) : SM σ K (Samples K) :=
  SM.bind (drawSM E (.uniform 0 1) 1) fun us st =>
    match us with
    | [.flt u] =>
      (match vals[pickSmall ws u]? with
      | some i => comp i 1 st
      | none => SM.throw .indexError st)
    | _ => SM.throw .unmodelled st

/-- `_mixture_sample_for_small_n` (samplers.py:752-780): for each of the `n` samples draw a uniform
number, pick a component and sample it once. -/
def mixtureSmall {ι : Type} (E : Env σ K) (comp : ι → ℕ → SM σ K (Samples K)) (ws : List K)
    (vals : List ι) (n : ℕ) : SM σ K (Samples K) :=
  SM.bind (SM.replicateL (mixtureOne E comp ws vals) n) fun ss st =>
    match ss with
    | [s] => SM.pure s st
    | ss => SM.lift (gather E ss) st

/-- `mixture_sample` (samplers.py:833-855) for given weights: process them, then one component is
sampled directly, otherwise the strategy depends on the number of samples. -/
def mixtureRun {ι : Type} (E : Env σ K) (comp : ι → ℕ → SM σ K (Samples K)) (ws : List K)
    (vals : List ι) (n : ℕ) : SM σ K (Samples K) := fun st =>
  match (processWeightsValues (fun _ => false) (.list (ws.map some)) .absent
      (.list (vals.map .plain)) false).result with
  | .error e => SM.throw e st
  | .ok (ws', items) =>
    match items.filterMap VItem.plain? with
    | [i] => comp i n st
    | vals' =>
      if n > 100 then mixtureLarge E comp ws' vals' n st else mixtureSmall E comp ws' vals' n st

/-- `_simplify(np.array([v for _ in range(n)]))` (samplers.py:1105-1111, 1137-1138). -/
def constSamples (v : Scalar K) (n : ℕ) : Samples K := Samples.simplify (.arr (List.replicate n v))

/-- `t_sample` with an interval (samplers.py:189-202), on the given `low`/`high`. -/
def tInterval (E : Env σ K) (low high t cred : K) (n : ℕ) : SM σ K (Samples K) :=
  let mu := (high + low) / 2
  let normedSigma := E.ppf (1 / 2 + 1 / 2 * (cred / 100))
  let sigma := (high - mu) / normedSigma
  SM.bind (drawSimple E (.normal mu sigma) n) fun z =>
  SM.bind (drawSimple E (.chisquare t) n) fun c =>
  SM.lift (do
    let r ← binSamples E.powf .truediv c (.scalar (.flt t))
    let q ← binSamples E.powf .pow r (.scalar (.flt (1 / 2)))
    let x ← binSamples E.powf .truediv z q
    .ok x.simplify)

/-- One sample or an array of samples of a leaf, before clipping (samplers.py:1137-1213 and the
sampler functions). -/
def leafSample (E : Env σ K) : Leaf K → ℕ → SM σ K (Samples K)
  | .const v, n => SM.pure (constSamples v n)
  | .uniform x y, n => drawSimple E (.uniform x y) n                       -- samplers.py:541
  | .categorical items, n =>                                              -- samplers.py:609-620
    SM.bind (SM.lift (processDiscrete items).result) fun p =>
      mixtureRun E (fun v m => SM.pure (constSamples v m)) p.1 (p.2.filterMap VItem.plain?) n
  | .normal m s, n => drawSimple E (.normal m s) n                         -- samplers.py:88
  | .lognormal m s, n => drawSimple E (.lognormal m s) n                   -- samplers.py:116
  | .invlognormal m s, n =>                                               -- samplers.py:147-148
    SM.bind (drawSM E (.lognormal m s) n) fun xs =>
      SM.lift (do .ok (← mapFlt (fun x => 1 / x) (.arr xs)).simplify)
  | .binomial k p, n => drawSimple E (.binomial k p) n                     -- samplers.py:289
  | .beta a b, n => drawSimple E (.beta a b) n                             -- samplers.py:319
  | .bernoulli p, n =>                                                    -- samplers.py:344-348
    SM.bind (drawSM E (.uniform 0 1) n) fun xs =>
      SM.lift (do
        let vs ← mapExcept (fun v : Scalar K => match v with
          | .flt u => Except.ok (Scalar.int (if u < p then 1 else 0))
          | _ => .error .unmodelled) xs
        .ok (Samples.simplify (.arr vs)))
  | .poisson lam, n => drawSimple E (.poisson lam) n                       -- samplers.py:436
  | .chisquare df, n => drawSimple E (.chisquare df) n                     -- samplers.py:566
  | .exponential sc, n => drawSimple E (.exponential sc) n                 -- samplers.py:461
  | .gamma sh sc, n => drawSimple E (.gamma sh sc) n                       -- samplers.py:488
  | .pareto sh, n =>                                                      -- samplers.py:513
    SM.bind (drawSM E (.pareto sh) n) fun xs =>
      SM.lift (do .ok (← mapFlt (fun x => x + 1) (.arr xs)).simplify)
  | .triangular l m r, n => drawSimple E (.triangular l m r) n             -- samplers.py:377
  | .pert l m r lam, n =>                                                 -- samplers.py:408-411
    let w := r - l
    let alpha := 1 + lam * (m - l) / w
    let beta := 1 + lam * (r - m) / w
    SM.bind (drawSimple E (.beta alpha beta) n) fun b =>
      SM.lift (mapFlt (fun x => l + x * w) b)
  | .tdist x y t cred, n =>                                               -- samplers.py:187-202
    match x, y with
    | none, none => SM.bind (drawSM E (.standardT t) n) fun xs => SM.pure (.arr xs)
    | some low, some high =>
      if low > high then SM.throw .valueError
      else if low = high then SM.pure (.scalar (.flt low))
      else tInterval E low high t cred n
    | _, _ => SM.throw .valueError
  | .logtdist x y t cred, n =>                                            -- samplers.py:242-261
    match x, y with
    | none, none =>
      SM.bind (drawSM E (.standardT t) 1) fun xs =>
        SM.lift (do .ok (← mapFlt E.exp (.arr xs)).simplify)
    | some low, some high =>
      if low > high then SM.throw .valueError
      else if low < 0 then SM.throw .valueError
      else if low = high then SM.pure (.scalar (.flt low))
      else
        SM.bind (tInterval E (E.log low) (E.log high) t cred n) fun x =>
          SM.lift (mapFlt E.exp x)
    | _, _ => SM.throw .typeError
  | .geometric p, n => drawSimple E (.geometric p) n                       -- samplers.py:645
  | .die d, n =>                                                          -- samplers.py:686-689
    SM.bind (SM.replicateL (rollDie E d) n) fun rs =>
      SM.pure (Samples.simplify (.arr (rs.map .int)))
  | .coin, n =>                                                           -- samplers.py:712-716
    SM.bind (drawSM E (.integers 0 2) n) fun xs =>
      SM.pure (Samples.simplify (.arr (xs.map fun v =>
        if v = .int 1 then .str "heads" else .str "tails")))

/-- One element of `_round(x, digits)` for an array of several numbers (utils.py:127-130): `np.round`,
then `int` only if `digits == 0`. -/
def roundElem (digits : ℤ) (v : Scalar K) : Except PyErr (Scalar K) :=
  match v.num? with
  | some x =>
    let r : K := (roundEven (x.val * (10 : K) ^ digits) : K) / (10 : K) ^ digits
    .ok (if digits = 0 then .int (truncZ r) else
      match x with | .I _ => .int (truncZ r) | .F _ => .flt r)
  | _ => .error .typeError

/-- `_round(x, digits)` (utils.py:123-132) on samples; `digits` has been sampled as well and is an
array for more than one sample, which `np.round` refuses. -/
def roundSamples (x digits : Samples K) : Except PyErr (Samples K) :=
  match digits with
  | .scalar .none => .ok x
  | .scalar (.int d) =>
    (match x with
    | .scalar v => do .ok (.scalar (← roundScalar d v))
    | .arr [v] => do
      let r ← roundScalar d v
      .ok (if d ≤ 0 then .scalar r else .arr [r])
    | .arr vs => do .ok (.arr (← mapExcept (roundElem d) vs)))
  | _ => .error .typeError

/-- `math.log(x, base)` (distributions.py:477) on samples: only single numbers. -/
def logSamples (E : Env σ K) (x base : Samples K) : Except PyErr (Samples K) :=
  match x.toList, base.toList with
  | [v], [b] =>
    (match v.num?, b.num? with
    | some v, some b =>
      if v.val ≤ 0 ∨ b.val ≤ 0 then .error .valueError
      else if E.log b.val = 0 then .error .zeroDivisionError
      else .ok (.scalar (.flt (E.log v.val / E.log b.val)))
    | _, _ => .error .typeError)
  | _, _ => .error .typeError

/-- The library's one-argument functions on samples. -/
def unSamples (E : Env σ K) (f : UnFn) (x : Samples K) : Except PyErr (Samples K) :=
  match f with
  | .neg => (match x with
    | .scalar v => do .ok (.scalar (← pyNeg v))
    | .arr vs => do .ok (.arr (← mapExcept npNeg vs)))
  | .floor => mapFlt (fun x => ((⌊x⌋ : ℤ) : K)) x
  | .ceil => mapFlt (fun x => ((⌈x⌉ : ℤ) : K)) x
  | .exp => (match x.toList with
    | [v] => (match v.num? with
        | some v => .ok (.scalar (.flt (E.exp v.val)))
        | none => .error .typeError)
    | _ => .error .typeError)
  | .round0 => roundSamples x (.scalar (.int 0))
  | .clipNone => .ok x

/-- The library's two-argument functions on samples. -/
def binFnSamples (E : Env σ K) (f : BinFn) (x y : Samples K) : Except PyErr (Samples K) :=
  match f with
  | .op o => binSamples E.powf o x y
  | .lclip => vectorize2 lclipElem x y
  | .rclip => vectorize2 rclipElem x y
  | .round => roundSamples x y
  | .log => logSamples E x y

/-- samplers.py:1065-1073: the explicit bound and the bound of the distribution. -/
def combineL (explicit ofDist : Option (Scalar K)) : Except PyErr (Option (Scalar K)) :=
  match explicit, ofDist with
  | none, d => .ok d
  | some e, none => .ok (some e)
  | some e, some d => do .ok (some (← pyMax e d))

/-- samplers.py:1070-1073. -/
def combineR (explicit ofDist : Option (Scalar K)) : Except PyErr (Option (Scalar K)) :=
  match explicit, ofDist with
  | none, d => .ok d
  | some e, none => .ok (some e)
  | some e, some d => do .ok (some (← pyMin e d))

/-- samplers.py:1231-1240, lower bound. -/
def applyL (powf : K → K → Option K) (l : Option (Scalar K)) (s : Samples K) :
    Except PyErr (Samples K) :=
  match l with
  | none => .ok s
  | some l =>
    if s.safeLen > 1 then binSamples powf .max s (.scalar l)
    else match s with
      | .scalar v => do .ok (.scalar (if ← v.lt l then l else v))
      | .arr [v] => do .ok (if ← v.lt l then .scalar l else .arr [v])
      | .arr _ => .error .unmodelled

/-- samplers.py:1231-1240, upper bound. -/
def applyR (powf : K → K → Option K) (r : Option (Scalar K)) (s : Samples K) :
    Except PyErr (Samples K) :=
  match r with
  | none => .ok s
  | some r =>
    if s.safeLen > 1 then binSamples powf .min s (.scalar r)
    else match s with
      | .scalar v => do .ok (.scalar (if ← r.lt v then r else v))
      | .arr [v] => do .ok (if ← r.lt v then .scalar r else .arr [v])
      | .arr _ => .error .unmodelled

/-- samplers.py:1231-1240: clip the samples. -/
def applyClips (powf : K → K → Option K) (l r : Option (Scalar K)) (s : Samples K) :
    Except PyErr (Samples K) := do
  let s1 ← applyL powf l s
  applyR powf r s1

/-- The frame of a `sample` call around the dispatch on the type (samplers.py:977-983, 1057-1073,
1231-1240, 1260): check `n`, combine bounds, draw, clip. -/
def withClips (E : Env σ K) (own : Option (Scalar K) × Option (Scalar K))
    (raw : ℕ → SM σ K (Samples K)) (n : ℕ) (lc rc : Option (Scalar K)) : SM σ K (Samples K) :=
  if n = 0 then SM.throw .valueError
  else
    SM.bind (SM.lift (combineL lc own.1)) fun l =>
    SM.bind (SM.lift (combineR rc own.2)) fun r =>
    SM.bind (raw n) fun s =>
    SM.lift (applyClips E.powf l r s)

/-- A float column from samples, for `np.column_stack` (samplers.py:874-882).  Integer columns are
represented by the equal floats; anything that is not a number is not modelled. -/
def toColumn (n : ℕ) (s : Samples K) : Except PyErr (List K) := do
  let xs ← mapExcept (fun v : Scalar K => match v.val? with
    | some x => Except.ok x
    | none => .error .unmodelled) s.toList
  if xs.length = n then .ok xs else .error .valueError

/-- One call of a model function, recording the state it was called in (samplers.py:1080-1097). -/
def callOnce (exn : St σ K → Option PyErr) (next : St σ K → St σ K) : SM σ K (St σ K) := fun s =>
  match exn s with
  | some e => (.error e, next s)
  | none => (.ok s, next s)

/-- `samples[:, i]` of the joint draw for the requested member, all other columns stored
(samplers.py:886-900). -/
def storeOthers (g : ℕ) (i : ℕ) (cols : List (List K)) : SM σ K (Samples K) := fun s =>
  match cols[i]? with
  | none => (.error .assertionError, s)
  | some c =>
    (.ok (.arr (c.map .flt)),
      { s with left := fun g' j =>
          if g' = g ∧ j ≠ i then
            match cols[j]? with
            | some c' => some (c'.map .flt)
            | none => s.left g' j
          else s.left g' j })

/-- Take and clear the left-over samples of a member (samplers.py:1124-1135). -/
def takeLeft (g i : ℕ) : SM σ K (Option (List (Scalar K))) := fun s =>
  match s.left g i with
  | none => (.ok none, s)
  | some xs => (.ok (some xs),
      { s with left := fun g' j => if g' = g ∧ j = i then none else s.left g' j })

/-- The dispatch of `sample` on the type of `dist` (samplers.py:1075-1228), before clipping.  Nested
`sample` calls go through `withClips` with no explicit bounds. -/
def rawObj (E : Env σ K) : Obj (St σ K) K → ℕ → SM σ K (Samples K)
  | .lit v => fun n => SM.pure (constSamples v n)
  | .call exn ret next => fun n =>
    SM.bind (SM.replicateL (callOnce exn next) n) fun states =>
    SM.bind (SM.mapL (fun s =>
      if (ret s).isLit then SM.pure (.scalar (ret s).litVal)
      else withClips E (ret s).clips (rawObj E (ret s)) 1 none none) states) fun ss =>
    SM.lift (gather E ss)
  | .leaf l _ _ => leafSample E l
  | .mix _ ds ws _ _ => fun n =>
    mixtureRun E (fun i m => withClips E (ds i).clips (rawObj E (ds i)) m none none) ws
      (List.finRange _) n
  | .un f left => fun n =>
    SM.bind (withClips E left.clips (rawObj E left) n none none) fun x =>
    SM.lift (unSamples E f x)
  | .bin f left right => fun n =>
    SM.bind (withClips E left.clips (rawObj E left) n none none) fun x =>
    SM.bind (withClips E right.clips (rawObj E right) n none none) fun y =>
    SM.lift (binFnSamples E f x y)
  | .userUn isDist val d left => fun n =>
    SM.bind (withClips E left.clips (rawObj E left) n none none) fun x =>
    if isDist x then withClips E (d x).clips (rawObj E (d x)) n none none
    else SM.lift (val x)
  | .userBin isDist val d left right => fun n =>
    SM.bind (withClips E left.clips (rawObj E left) n none none) fun x =>
    SM.bind (withClips E right.clips (rawObj E right) n none none) fun y =>
    if isDist x y then withClips E (d x y).clips (rawObj E (d x y)) n none none
    else SM.lift (val x y)
  | .corr g _ members i => fun n =>
    SM.bind (takeLeft g i) fun kept st =>
    match kept with
    | some xs => SM.pure (.arr xs) st
    | none =>
      SM.bind (SM.mapL (fun j =>
        SM.bind (withClips E (members j).clips (rawObj E (members j)) n none none) fun x =>
        SM.lift (toColumn n x)) (List.finRange _)) (fun cols =>
      SM.bind (SM.lift (E.induce g cols)) fun cols' =>
      storeOthers g i cols') st

/-- `sample(dist, n, lclip, rclip)` without caches, on one core. -/
def sampleObj (E : Env σ K) (d : Obj (St σ K) K) (n : ℕ) (lc rc : Option (Scalar K)) :
    SM σ K (Samples K) :=
  withClips E d.clips (rawObj E d) n lc rc

end Verif
