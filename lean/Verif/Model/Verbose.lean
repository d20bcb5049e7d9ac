import Verif.Model.Multicore

/-!
# Progress output: `sample(..., verbose=...)` (samplers.py, utils.py:205-227)

The sampler of `Verif/Model/Sample.lean` once more, now together with the progress bars it shows.  Only the
bars are modelled, not the lines of text printed around them by the cache and the pool of cores (they are
`print` calls behind `if verbose:` that touch nothing else), and not how a bar looks.  Functions of the model's
user show nothing themselves.
-/

namespace Verif

variable {σ K : Type}

/-- A progress bar `tqdm(total=total)`: what it counts to, what it has counted, whether it was closed. -/
structure Bar where
  total : ℕ
  count : ℕ
  closed : Bool
  deriving DecidableEq

/-- All bars shown so far, oldest first. -/
abbrev Console := List Bar

/-- A computation of the sampler that may also show progress bars. -/
def CM (σ K α : Type) : Type := St σ K → Console → (Except PyErr α × St σ K) × Console

namespace CM

/-- A computation that shows nothing. -/
def quiet {α : Type} (m : SM σ K α) : CM σ K α := fun s o => (m s, o)

/-- Sequencing; an exception skips the rest. -/
def bind {α β : Type} (m : CM σ K α) (f : α → CM σ K β) : CM σ K β := fun s o =>
  match m s o with
  | ((.ok a, s'), o') => f a s' o'
  | ((.error e, s'), o') => ((.error e, s'), o')

/-- `[f(a) for a in as]`, left to right. -/
def mapL {α β : Type} (f : α → CM σ K β) : List α → CM σ K (List β)
  | [] => quiet (SM.pure [])
  | a :: as => bind (f a) fun b => bind (mapL f as) fun bs => quiet (SM.pure (b :: bs))

/-- `[m() for _ in range(n)]`. -/
def replicateL {α : Type} (m : CM σ K α) : ℕ → CM σ K (List α)
  | 0 => quiet (SM.pure [])
  | n + 1 => bind m fun a => bind (replicateL m n) fun as => quiet (SM.pure (a :: as))

end CM

/-- `_init_tqdm(verbose, total)` (utils.py:205-215): no bar unless `verbose`; a bar is named by its position. -/
def initBar (verbose : Bool) (total : ℕ) : CM σ K (Option ℕ) := fun s o =>
  if verbose then ((.ok (some o.length), s), o ++ [⟨total, 0, false⟩]) else ((.ok none, s), o)

/-- `_tick_tqdm(pbar, tick_size)` (utils.py:218-221): `if pbar:` is false for no bar, and for a bar that counts to
0 (`tqdm.__bool__`). -/
def tickBar (pbar : Option ℕ) (k : ℕ) : CM σ K Unit := fun s o =>
  match pbar with
  | none => ((.ok (), s), o)
  | some i => ((.ok (), s), o.modify i fun b => if 0 < b.total then { b with count := b.count + k } else b)

/-- `_flush_tqdm(pbar)` (utils.py:224-227). -/
def flushBar (pbar : Option ℕ) : CM σ K Unit := fun s o =>
  match pbar with
  | none => ((.ok (), s), o)
  | some i => ((.ok (), s), o.modify i fun b => { b with closed := true })

/-- `pbar = _init_tqdm(...)`, work, `_flush_tqdm(pbar)`, e.g. samplers.py:732-734.  An exception leaves the bar
open. -/
def withBar {α : Type} (verbose : Bool) (total : ℕ) (body : Option ℕ → CM σ K α) : CM σ K α :=
  CM.bind (initBar verbose total) fun pbar =>
  CM.bind (body pbar) fun r =>
  CM.bind (flushBar pbar) fun _ => CM.quiet (SM.pure r)

/-- What a `sample` call is told about progress: `verbose` after its default was filled in (samplers.py:985-986),
`_multicore_tqdm_n` and `_multicore_tqdm_cores`. -/
structure Shown where
  verbose : Bool
  tqdmN : ℕ := 1
  tqdmCores : ℕ := 1

/-- `tqdm_samples` (samplers.py:744, 771, 1084). -/
def Shown.total (v : Shown) (n : ℕ) : ℕ := if v.tqdmCores = 1 then n else v.tqdmN

/-- samplers.py:985-986: without an explicit `verbose`, progress is shown from a million samples on. -/
def resolveVerbose (verbose : Option Bool) (n : ℕ) : Bool :=
  match verbose with
  | some b => b
  | none => decide (1000000 ≤ n)

variable [Field K] [LinearOrder K] [FloorRing K]

/-- `_mixture_sample_for_large_n` (samplers.py:719-749) with its two bars. -/
def mixtureLargeV {ι : Type} (E : Env σ K) (v : Shown) (comp : ι → ℕ → CM σ K (Samples K)) (ws : List K)
    (vals : List ι) (n : ℕ) : CM σ K (Samples K) :=
  CM.bind (withBar v.verbose vals.length fun pbar =>
    CM.mapL (fun i => CM.bind (tickBar pbar 1) fun _ => comp i n) vals) fun pre =>
  CM.bind (CM.quiet (drawSM E (.uniform 0 1) n)) fun us =>
  withBar v.verbose (v.total n) fun pbar =>
    CM.bind (CM.mapL (fun p => CM.bind (tickBar pbar v.tqdmCores) fun _ =>
      CM.quiet (SM.lift (pickValue ws pre p))) us.zipIdx) fun vs =>
    CM.quiet (SM.pure (Samples.simplify (.arr (npArray E.fmt vs))))

/-- One sample of `_run_mixture` (samplers.py:761-768) with its tick. -/
def mixtureOneV {ι : Type} (E : Env σ K) (v : Shown) (pbar : Option ℕ)
    (comp : ι → ℕ → CM σ K (Samples K)) (ws : List K) (vals : List ι) : CM σ K (Samples K) :=
  CM.bind (CM.quiet (drawSM E (.uniform 0 1) 1)) fun us =>
  CM.bind (tickBar pbar v.tqdmCores) fun _ =>
    match us with
    | [.flt u] =>
      (match vals[pickSmall ws u]? with
      | some i => comp i 1
      | none => CM.quiet (SM.throw .indexError))
    | _ => CM.quiet (SM.throw .unmodelled)

/-- `_mixture_sample_for_small_n` (samplers.py:752-780) with its bar. -/
def mixtureSmallV {ι : Type} (E : Env σ K) (v : Shown) (comp : ι → ℕ → CM σ K (Samples K)) (ws : List K)
    (vals : List ι) (n : ℕ) : CM σ K (Samples K) :=
  withBar v.verbose (v.total n) fun pbar =>
    CM.bind (CM.replicateL (mixtureOneV E v pbar comp ws vals) n) fun ss =>
      match ss with
      | [s] => CM.quiet (SM.pure s)
      | ss => CM.quiet (SM.lift (gather E ss))

/-- `mixture_sample` (samplers.py:833-855); a single component is sampled without `verbose`. -/
def mixtureRunV {ι : Type} (E : Env σ K) (v : Shown) (comp : ι → ℕ → CM σ K (Samples K)) (ws : List K)
    (vals : List ι) (n : ℕ) : CM σ K (Samples K) :=
  match (processWeightsValues (fun _ => false) (.list (ws.map some)) .absent
      (.list (vals.map .plain)) false).result with
  | .error e => CM.quiet (SM.throw e)
  | .ok (ws', items) =>
    match items.filterMap VItem.plain? with
    | [i] => comp i n
    | vals' =>
      if n > 100 then mixtureLargeV E v comp ws' vals' n else mixtureSmallV E v comp ws' vals' n

/-- The frame of a `sample` call (samplers.py:977-986, 1057-1073, 1231-1240). -/
def withClipsV (E : Env σ K) (own : Option (Scalar K) × Option (Scalar K))
    (raw : Shown → ℕ → CM σ K (Samples K)) (verbose : Option Bool) (tqdmN tqdmCores : ℕ) (n : ℕ)
    (lc rc : Option (Scalar K)) : CM σ K (Samples K) :=
  if n = 0 then CM.quiet (SM.throw .valueError)
  else
    CM.bind (CM.quiet (SM.lift (combineL lc own.1))) fun l =>
    CM.bind (CM.quiet (SM.lift (combineR rc own.2))) fun r =>
    CM.bind (raw ⟨resolveVerbose verbose n, tqdmN, tqdmCores⟩ n) fun s =>
    CM.quiet (SM.lift (applyClips E.powf l r s))

/-- The dispatch of `sample` (samplers.py:1075-1228) with its progress bars.  `verbose` is passed on to both sides
of an operation and to the members of a correlation group; components of mixtures, values of functions and
distributions returned by `dist_fn` functions are sampled with the default.  Basic distributions show nothing
(`discrete_sample` is called without `verbose`, samplers.py:1144-1149, and its components are constants). -/
def rawV (E : Env σ K) : Obj (St σ K) K → Shown → ℕ → CM σ K (Samples K)
  | .lit v => fun _ n => CM.quiet (SM.pure (constSamples v n))
  | .call exn ret next => fun v n =>
    CM.bind (if n > 1 then
        withBar v.verbose (v.total n) fun pbar =>
          CM.replicateL (CM.bind (CM.quiet (callOnce exn next)) fun s =>
            CM.bind (tickBar pbar v.tqdmCores) fun _ => CM.quiet (SM.pure s)) n
      else CM.replicateL (CM.quiet (callOnce exn next)) n) fun states =>
    withBar v.verbose (states.length * v.tqdmCores) fun pbar =>
      CM.bind (CM.mapL (fun s => CM.bind
          (if (ret s).isLit then CM.quiet (SM.pure (.scalar (ret s).litVal))
          else withClipsV E (ret s).clips (rawV E (ret s)) none 1 1 1 none none) fun x =>
        CM.bind (tickBar pbar v.tqdmCores) fun _ => CM.quiet (SM.pure x)) states) fun ss =>
      CM.quiet (SM.lift (gather E ss))
  | .leaf l _ _ => fun _ n => CM.quiet (leafSample E l n)
  | .mix _ ds ws _ _ => fun v n =>
    mixtureRunV E v (fun i m => withClipsV E (ds i).clips (rawV E (ds i)) none 1 1 m none none) ws
      (List.finRange _) n
  | .un f left => fun v n =>
    CM.bind (withClipsV E left.clips (rawV E left) (some v.verbose) 1 1 n none none) fun x =>
    CM.quiet (SM.lift (unSamples E f x))
  | .bin f left right => fun v n =>
    CM.bind (withClipsV E left.clips (rawV E left) (some v.verbose) 1 1 n none none) fun x =>
    CM.bind (withClipsV E right.clips (rawV E right) (some v.verbose) 1 1 n none none) fun y =>
    CM.quiet (SM.lift (binFnSamples E f x y))
  | .userUn isDist val d left => fun v n =>
    CM.bind (withClipsV E left.clips (rawV E left) (some v.verbose) 1 1 n none none) fun x =>
    if isDist x then withClipsV E (d x).clips (rawV E (d x)) none 1 1 n none none
    else CM.quiet (SM.lift (val x))
  | .userBin isDist val d left right => fun v n =>
    CM.bind (withClipsV E left.clips (rawV E left) (some v.verbose) 1 1 n none none) fun x =>
    CM.bind (withClipsV E right.clips (rawV E right) (some v.verbose) 1 1 n none none) fun y =>
    if isDist x y then withClipsV E (d x y).clips (rawV E (d x y)) none 1 1 n none none
    else CM.quiet (SM.lift (val x y))
  | .corr g _ members i => fun v n =>
    CM.bind (CM.quiet (takeLeft g i)) fun kept =>
    match kept with
    | some xs => CM.quiet (SM.pure (.arr xs))
    | none =>
      CM.bind (CM.mapL (fun j =>
        CM.bind (withClipsV E (members j).clips (rawV E (members j)) (some v.verbose) 1 1 n none none)
          fun x => CM.quiet (SM.lift (toColumn n x))) (List.finRange _)) fun cols =>
      CM.bind (CM.quiet (SM.lift (E.induce g cols))) fun cols' =>
      CM.quiet (storeOthers g i cols')

/-- `sample(dist, n, lclip, rclip, verbose=verbose)` without caches, on one core. -/
def sampleV (E : Env σ K) (d : Obj (St σ K) K) (n : ℕ) (lc rc : Option (Scalar K))
    (verbose : Option Bool) : CM σ K (Samples K) :=
  withClipsV E d.clips (rawV E d) verbose 1 1 n lc rc

/-- The batch sampled by the parent process for `cores` cores (samplers.py:1017-1036). -/
def parentBatchV (E : Env σ K) (cores : ℕ) (d : Obj (St σ K) K) (n : ℕ) (lc rc : Option (Scalar K))
    (verbose : Option Bool) : CM σ K (Samples K) :=
  match coreCuts n cores with
  | .error e => CM.quiet (SM.throw e)
  | .ok cuts => withClipsV E d.clips (rawV E d) (some (resolveVerbose verbose n)) n cores
      (cuts.getD (cores - 1) 0) lc rc

end Verif
