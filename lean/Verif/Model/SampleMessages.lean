import Verif.Model.SampleCache
import Verif.Model.Verbose

/-!
# What `sample(..., verbose=True)` prints (samplers.py:985-1055, 1242-1257)

`Model/SampleCache.lean` once more, now with the lines of text; the progress bars are in `Model/Verbose.lean`.  Nested
`sample` calls use no caches and one core, so they print no text.  The dots printed while waiting for other cores are
left out: their number is a matter of time.
-/

namespace Verif

variable {σ K : Type} [Field K] [LinearOrder K] [FloorRing K]

/-- A printed line. -/
inductive SMsg where
  /-- "Warning: cache file `f.sqcache.npy` not found." -/
  | fileMissing (f : String)
  /-- "Loading from cache file (`f.sqcache.npy`)..." -/
  | loadingFile (f : String)
  /-- "Loading from in-memory cache..." -/
  | loadingMemory
  /-- "Generating samples with c cores..." -/
  | generatingCores (c : ℕ)
  /-- "Shuffling data..." -/
  | shuffling
  /-- "Waiting for other cores..." -/
  | waiting
  /-- "Collecting data..." -/
  | collecting
  /-- "...Collected!" -/
  | collected
  /-- "Caching in-memory..." -/
  | cachingMemory
  /-- "Writing cache to file `f.sqcache.npy`..." -/
  | writingFile (f : String)
  /-- "...Cached" -/
  | cached
  deriving DecidableEq

/-- What is printed about the caches before sampling (samplers.py:995-1008). -/
def loadLines (o : CacheOpts) (key : String) (c : CSt σ K) : List SMsg :=
  (match truthyName o.load with
    | some f => if (c.files f).isNone then [.fileMissing f] else []
    | none => []) ++
  (if ((truthyName o.load).isSome || o.memcache) && !o.reload then
    match (truthyName o.load).filter fun f => (c.files f).isSome && ((c.mem key).isNone || o.filePrimary) with
    | some f => [.loadingFile f]
    | none => if o.memcache && (c.mem key).isSome then [.loadingMemory] else []
  else [])

/-- What is printed while sampling with several cores (samplers.py:1012-1055). -/
def coreLines (E : Env σ K) (o : CacheOpts) (d : Obj (St σ K) K) (n : ℕ) (lc rc : Option (Scalar K))
    (m : MSt σ K) : List SMsg :=
  if o.cores > 1 then
    match coreCuts n o.cores with
    | .error _ => [.generatingCores o.cores]
    | .ok cuts =>
      let tmp1 := runWorkers E d cuts lc rc o.sched (fun _ => m.inner) m.tmp
      match sampleObj E d (cuts.getD (o.cores - 1) 0) lc rc m.inner with
      | (.error _, _) => [.generatingCores o.cores]
      | (.ok z, _) =>
        let tmp2 := fun i => if i = o.cores - 1 then some z else tmp1 i
        [.generatingCores o.cores, .shuffling, .waiting, .collecting] ++
          (match collectFiles E.fmt (List.range o.cores) [] tmp2 with
          | (.error _, _) => []
          | (.ok _, _) => [.collected])
  else []

/-- What is printed about saving (samplers.py:1243-1257). -/
def saveLines (o : CacheOpts) (had : Bool) : List SMsg :=
  (if o.memcache && (!had || o.reload) then [.cachingMemory, .cached] else []) ++
  (match truthyName o.dump with
    | some f => [.writingFile f, .cached]
    | none => [])

/-- `sample(d, n, lclip, rclip, verbose, memcache, ...)`: result, state, and the lines printed. -/
def cachedSampleV (E : Env σ K) (key : Obj (St σ K) K → String) (verbose : Option Bool) (o : CacheOpts)
    (d : Obj (St σ K) K) (n : ℕ) (lc rc : Option (Scalar K)) (c : CSt σ K) :
    (Except PyErr (Samples K) × CSt σ K) × List SMsg :=
  let say (ms : List SMsg) := if resolveVerbose verbose n then ms else []
  if n = 0 then ((.error .valueError, c), [])
  else
    let t1 := say (loadLines o (key d) c)
    match loadCached o (key d) c with
    | .error e => ((.error e, c), t1)
    | .ok loaded =>
      let fresh : Bool := match loaded with
        | some z => decide (z = .scalar .none)
        | none => true
      let t2 := if fresh then say (coreLines E o d n lc rc c.inner) else []
      match obtain? E o (key d) d n lc rc c with
      | (.error e, c') => ((.error e, c'), t1 ++ t2)
      | (.ok z, c') => ((.ok z, saveCaches o (key d) (c.mem (key d)).isSome z c'),
          t1 ++ t2 ++ say (saveLines o (c.mem (key d)).isSome))

end Verif
