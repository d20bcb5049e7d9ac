import Verif.Model.Sample

/-!
# `sample(..., cores=c)` (samplers.py:1010-1055, utils.py:181-185)

The workers of the pool are separate processes.  Each starts with a copy of the parent's memory
(`fork`), so with a copy of the generator's state.  `pool.amap` gives every core number
`0 .. cores-2` to some process exactly once; the parent itself handles core `cores-1`.  Every task comes
with its own pickled copy of the distribution (`multicore_sample` refers to `dist`), so with its own copy of
the samples left over in correlated distributions, and that copy is gone after the task; the model takes it
to be made before the parent starts on its own batch.  Batches travel through the files `test-core-{i}.npy` of the working directory.

Not modelled: the contents of files written by a run whose parent raised (the pool is torn down at an
unspecified point; the model lets the workers finish), progress output, and waiting.
-/

namespace Verif

variable {σ K : Type}

/-- `_core_cuts(n, cores)` (utils.py:181-185): equal parts, the last one gets the rest.  `math.floor(n /
cores)` is exact division here (with floats: `Model/RoundedCuts`; C169 shows that they agree below 2^53). -/
def coreCuts (n cores : ℕ) : Except PyErr (List ℕ) :=
  let cuts := List.replicate cores (n / cores)
  let delta := n - cuts.sum
  match cuts.reverse with
  | [] => .error .indexError
  | last :: front => .ok (front.reverse ++ [last + delta])

/-- Which process handles which core number, in the order in which the tasks run. -/
abbrev Sched := List (ℕ × ℕ)

/-- `pool.amap(multicore_sample, range(cores - 1))` runs every core number below `cores - 1` exactly
once (samplers.py:1035). -/
def Sched.Valid (sched : Sched) (cores : ℕ) : Prop :=
  (sched.map Prod.snd).Perm (List.range (cores - 1))

/-- Every task runs in a fresh process (as many processes as cores, one task each). -/
def Sched.Separate (sched : Sched) : Prop := (sched.map Prod.fst).Nodup

/-- State of a single-core run plus the temporary files `test-core-{i}.npy`. -/
structure MSt (σ K : Type) where
  inner : St σ K
  tmp : ℕ → Option (Samples K)

variable [Field K] [LinearOrder K] [FloorRing K]

/-- `np.concatenate((samples, np.load(f, allow_pickle=True)), axis=None)` (samplers.py:1050).  The
accumulator starts as the float array `np.array([])`, so integers and booleans become floats. -/
def npConcat (fmt : Scalar K → String) (acc batch : List (Scalar K)) : List (Scalar K) :=
  (acc ++ batch).map (Scalar.castTo fmt ((acc ++ batch).foldl (fun d v => d.join v.dt) .flt))

/-- A task works on its own copy of the distribution (samplers.py:1017-1035): the samples it leaves over in
correlated distributions are lost with the copy, only the process's generator moves on. -/
def onCopy {α : Type} (m : SM σ K α) : SM σ K α := fun s => ((m s).1, { (m s).2 with left := s.left })

/-- One task in a worker process: sample the batch, write it to the file; an exception stays in the
process (`pool_results` is only asked whether it is ready, samplers.py:1039-1042). -/
def workerStep (E : Env σ K) (d : Obj (St σ K) K) (cuts : List ℕ) (lc rc : Option (Scalar K))
    (procs : ℕ → St σ K) (tmp : ℕ → Option (Samples K)) (p core : ℕ) :
    (ℕ → St σ K) × (ℕ → Option (Samples K)) :=
  match onCopy (sampleObj E d (cuts.getD core 0) lc rc) (procs p) with
  | (.ok z, s') => (fun q => if q = p then s' else procs q, fun i => if i = core then some z else tmp i)
  | (.error _, s') => (fun q => if q = p then s' else procs q, tmp)

/-- All tasks of the pool; the temporary files afterwards. -/
def runWorkers (E : Env σ K) (d : Obj (St σ K) K) (cuts : List ℕ) (lc rc : Option (Scalar K)) :
    Sched → (ℕ → St σ K) → (ℕ → Option (Samples K)) → (ℕ → Option (Samples K))
  | [], _, tmp => tmp
  | (p, core) :: rest, procs, tmp =>
    let r := workerStep E d cuts lc rc procs tmp p core
    runWorkers E d cuts lc rc rest r.1 r.2

/-- Collect the batches in core order and remove the files (samplers.py:1046-1053). -/
def collectFiles (fmt : Scalar K → String) : List ℕ → List (Scalar K) → (ℕ → Option (Samples K)) →
    Except PyErr (List (Scalar K)) × (ℕ → Option (Samples K))
  | [], acc, tmp => (.ok acc, tmp)
  | core :: rest, acc, tmp =>
    match tmp core with
    | none => (.error .fileNotFoundError, tmp)
    | some z => collectFiles fmt rest (npConcat fmt acc z.toList) (fun i => if i = core then none else tmp i)

/-- samplers.py:1010-1055: workers, the parent's own batch, collection. -/
def multicoreSample (E : Env σ K) (sched : Sched) (cores : ℕ) (d : Obj (St σ K) K) (n : ℕ)
    (lc rc : Option (Scalar K)) (m : MSt σ K) : Except PyErr (Samples K) × MSt σ K :=
  match coreCuts n cores with
  | .error e => (.error e, m)
  | .ok cuts =>
    let tmp1 := runWorkers E d cuts lc rc sched (fun _ => m.inner) m.tmp
    match sampleObj E d (cuts.getD (cores - 1) 0) lc rc m.inner with
    | (.error e, s') => (.error e, ⟨s', tmp1⟩)
    | (.ok z, s') =>
      let tmp2 := fun i => if i = cores - 1 then some z else tmp1 i
      match collectFiles E.fmt (List.range cores) [] tmp2 with
      | (.error e, tmp3) => (.error e, ⟨s', tmp3⟩)
      | (.ok xs, tmp3) => (applyClips E.powf lc rc (.arr xs), ⟨s', tmp3⟩)

/-- `sample(d, n, lclip, rclip, cores=cores)` without caches. -/
def sampleCores (E : Env σ K) (sched : Sched) (cores : ℕ) (d : Obj (St σ K) K) (n : ℕ)
    (lc rc : Option (Scalar K)) (m : MSt σ K) : Except PyErr (Samples K) × MSt σ K :=
  if n = 0 then (.error .valueError, m)
  else if cores > 1 then multicoreSample E sched cores d n lc rc m
  else match sampleObj E d n lc rc m.inner with
    | (r, s') => (r, { m with inner := s' })

end Verif
