import Verif.Model.Bayesnet

/-!
# What `bayesnet(..., verbose=True)` prints (bayes.py:63-310)

`Model/Bayesnet.lean` once more, now with the lines of text and the progress bars.  The dots printed once a second while
waiting for other cores (bayes.py:241-244) are left out: their number is a matter of time.  Workers are started without
`verbose` and print nothing (bayes.py:219, 237).
-/

namespace Verif

variable {S α ρ K : Type}

/-- A printed line, or a progress bar with the state in which it was left. -/
inductive BMsg where
  /-- "Warning: cache file `f.sqcache` not found." -/
  | fileMissing (f : String)
  /-- "Loading from cache file (`f.sqcache`)..." -/
  | loadingFile (f : String)
  /-- "Loading from in-memory cache..." -/
  | loadingMemory
  /-- "...Loaded" -/
  | loaded
  /-- "Reloading cache..." -/
  | reloading
  /-- "Generating Bayes net..." -/
  | generating
  /-- "Generating Bayes net with c cores..." -/
  | generatingCores (c : ℕ)
  /-- a progress bar -/
  | bar (total : ℤ) (count : ℕ) (closed : Bool)
  /-- "Shuffling data..." -/
  | shuffling
  /-- "Writing data..." -/
  | writingData
  /-- "Waiting for other cores..." -/
  | waiting
  /-- "Collecting data..." -/
  | collecting
  /-- "...Collected!" -/
  | collected
  /-- "Caching in-memory..." -/
  | cachingMemory
  /-- "Writing cache to file `f.sqcache`..." -/
  | writingFile (f : String)
  /-- "...Cached!" -/
  | cached
  /-- "Filtering conditional..." -/
  | filtering
  /-- "...Filtered!" -/
  | filtered
  /-- "...Finding" -/
  | finding
  /-- "...Found!" -/
  | found
  /-- "...Reducing" -/
  | reducing
  /-- "...Reduced!" -/
  | reduced
  /-- "...All done!" -/
  | allDone
  deriving DecidableEq

/-- What `if verbose:` lets through. -/
def say (verbose : Bool) (ms : List BMsg) : List BMsg := if verbose then ms else []

/-- `[run_event_fn(pbar) for _ in range(k)]` (bayes.py:203-205, 212, 223), and how often the bar was ticked: once before
each call of the event function. -/
def repeatEventV (f : S → Except PyErr α × S) : ℕ → S → (Except PyErr (List α) × S) × ℕ
  | 0, s => ((.ok [], s), 0)
  | k + 1, s =>
    match f s with
    | (.error e, s') => ((.error e, s'), 1)
    | (.ok a, s') =>
      match repeatEventV f k s' with
      | ((.error e, s''), c) => ((.error e, s''), c + 1)
      | ((.ok as, s''), c) => ((.ok (a :: as), s''), c + 1)

/-- bayes.py:249-256, and how often the bar was ticked: once before each file is opened. -/
def collectEventsV : List ℕ → List α → (ℕ → Option (FileOf (List α))) →
    (Except PyErr (List α) × (ℕ → Option (FileOf (List α)))) × ℕ
  | [], acc, tmp => ((.ok acc, tmp), 0)
  | core :: rest, acc, tmp =>
    match tmp core with
    | none => ((.error .fileNotFoundError, tmp), 1)
    | some .truncated => ((.error .decodeError, tmp), 1)
    | some (.good b) =>
      match collectEventsV rest (acc ++ b) (fun i => if i = core then none else tmp i) with
      | (r, c) => (r, c + 1)

/-- bayes.py:207-258.  An exception leaves a bar open. -/
def generateEventsV (E : BEnv S α) (verbose : Bool) (o : BOpts) (fn : ℕ) (n : ℤ) (s : BSt S α) :
    (Except PyErr (List α) × BSt S α) × List BMsg :=
  if o.cores = 1 then
    match repeatEventV (E.event fn) n.toNat s.inner with
    | ((.error e, s'), c) => ((.error e, { s with inner := s' }), say verbose [.generating, .bar n c false])
    | ((.ok l, s'), c) => ((.ok l, { s with inner := s' }), say verbose [.generating, .bar n c true])
  else match coreCuts n.toNat o.cores with
    | .error e => ((.error e, s), say verbose [.generatingCores o.cores])
    | .ok cuts =>
      let tmp1 := runEventWorkers E fn cuts o.sched (fun _ => s.inner) s.tmp
      match repeatEventV (E.event fn) (cuts.getD (o.cores - 1) 0) s.inner with
      | ((.error e, s'), c) => ((.error e, { s with inner := s', tmp := tmp1 }),
          say verbose [.generatingCores o.cores, .bar n (c * o.cores) false])
      | ((.ok batch, s'), c) =>
        let told := say verbose [.generatingCores o.cores, .bar n (c * o.cores) true, .shuffling]
        match writeBatch E.codec (o.cores - 1) batch tmp1 with
        | (false, tmp2) => ((.error .typeError, { s with inner := s', tmp := tmp2 }), told)
        | (true, tmp2) =>
          let told := told ++ (if (tmp1 (o.cores - 1)).isNone then say verbose [.writingData] else []) ++
            say verbose [.waiting, .collecting]
          match collectEventsV (List.range o.cores) [] tmp2 with
          | ((.error e, tmp3), c) => ((.error e, { s with inner := s', tmp := tmp3 }),
              told ++ say verbose [.bar o.cores c false])
          | ((.ok l, tmp3), c) => ((.ok l, { s with inner := s', tmp := tmp3 }),
              told ++ say verbose [.bar o.cores c true, .collected])

/-- bayes.py:169-170. -/
def warnMissing (verbose : Bool) (o : BOpts) (s : BSt S α) : List BMsg :=
  match truthyName o.load with
  | none => []
  | some f => if (s.files f).isNone then say verbose [.fileMissing f] else []

/-- bayes.py:179-194: from memory. -/
def memoryEventsV (verbose : Bool) (o : BOpts) (n : ℤ) (m : Option BEntry) (s : BSt S α) :
    (Except PyErr (Option ℕ) × BSt S α) × List BMsg :=
  match m with
  | some e =>
    if o.loads then
      if e.n < n then ((.error .valueError, s), say verbose [.loadingMemory])
      else ((.ok (some e.ref), s), say verbose [.loadingMemory, .loaded])
    else ((.ok none, s), [])
  | none => ((.ok none, s), [])

/-- bayes.py:161-197. -/
def cachedEventsV (verbose : Bool) (o : BOpts) (fn : Option ℕ) (n : ℤ) (s : BSt S α) :
    (Except PyErr (Option ℕ) × BSt S α) × List BMsg :=
  let warn := warnMissing verbose o s
  if o.reload then ((.ok none, s), warn ++ say verbose [.reloading])
  else
    let r := match truthyName o.load with
      | none => memoryEventsV verbose o n (s.mem fn) s
      | some name =>
        match s.files name with
        | none => memoryEventsV verbose o n (s.mem fn) s
        | some f =>
          if (s.mem fn).isNone || o.filePrimary then
            match f with
            | .truncated => ((.error .decodeError, s), say verbose [.loadingFile name])
            | .good (l, k) =>
              if k < n then ((.error .valueError, s), say verbose [.loadingFile name])
              else ((.ok (some (s.alloc l).1), (s.alloc l).2), say verbose [.loadingFile name, .loaded])
          else memoryEventsV verbose o n (s.mem fn) s
    (r.1, warn ++ r.2)

/-- bayes.py:262-276. -/
def saveEventsV (E : BEnv S α) (verbose : Bool) (o : BOpts) (fn : Option ℕ) (n : ℤ) (had : Bool) (ref : ℕ)
    (s : BSt S α) : (Except PyErr Unit × BSt S α) × List BMsg :=
  let saved := o.saves && (!had || o.reload)
  let s1 := if saved then { s with mem := fun k => if k = fn then some ⟨ref, n⟩ else s.mem k } else s
  let told := if saved then say verbose [.cachingMemory, .cached] else []
  match truthyName o.dump with
  | none => ((.ok (), s1), told)
  | some f =>
    match encodeList E.codec (s.lists ref) with
    | some l => ((.ok (), { s1 with files := fun g => if g = f then some (.good (l, n)) else s1.files g }),
        told ++ say verbose [.writingFile f, .cached])
    | none => ((.error .typeError, { s1 with files := fun g => if g = f then some .truncated else s1.files g }),
        told ++ say verbose [.writingFile f])

/-- bayes.py:278-287: filter and check. -/
def filterEventsV (verbose : Bool) (cond : Option (α → Except PyErr Bool)) (ref : ℕ) (s : BSt S α) :
    (Except PyErr ℕ × BSt S α) × List BMsg :=
  match cond with
  | none => if (s.lists ref).length < 1 then ((.error .valueError, s), []) else ((.ok ref, s), [])
  | some c =>
    match filterExcept c (s.lists ref) with
    | .error e => ((.error e, s), say verbose [.filtering])
    | .ok l =>
      if l.length < 1 then ((.error .valueError, (s.alloc l).2), say verbose [.filtering])
      else ((.ok (s.alloc l).1, (s.alloc l).2), say verbose [.filtering, .filtered])

/-- bayes.py:289-310: find and reduce. -/
def reduceEventsV [Field K] (verbose : Bool) (q : Query α ρ K) (r : ℕ) (s : BSt S α) :
    Except PyErr (BResult ρ K) × List BMsg :=
  match q with
  | .events => (.ok (.listRef r), say verbose [.reducing, .reduced, .allDone])
  | .reduceEvents g =>
    match g (s.lists r) with
    | .error e => (.error e, say verbose [.reducing])
    | .ok x => (.ok (.reduced x), say verbose [.reducing, .reduced, .allDone])
  | .findRaw f =>
    match mapExcept f (s.lists r) with
    | .error e => (.error e, say verbose [.finding])
    | .ok vs => (.ok (.values vs), say verbose [.finding, .found, .allDone])
  | .findReduce f g =>
    match mapExcept f (s.lists r) with
    | .error e => (.error e, say verbose [.finding])
    | .ok vs =>
      match (match g with
        | none => (do .ok (.mean (← npMean vs)) : Except PyErr (BResult ρ K))
        | some g => do .ok (.reduced (← g vs))) with
      | .error e => (.error e, say verbose [.finding, .found, .reducing])
      | .ok x => (.ok x, say verbose [.finding, .found, .reducing, .reduced, .allDone])

/-- bayes.py:260-310: everything after the events are there. -/
def finishBayesV [Field K] (E : BEnv S α) (verbose : Bool) (o : BOpts) (fn : Option ℕ) (n : ℤ) (q : Query α ρ K)
    (cond : Option (α → Except PyErr Bool)) (had : Bool) (ref : ℕ) (s : BSt S α) :
    (Except PyErr (BResult ρ K) × BSt S α) × List BMsg :=
  match saveEventsV E verbose o fn n had ref s with
  | ((.error e, s1), t1) => ((.error e, s1), t1)
  | ((.ok _, s1), t1) =>
    match filterEventsV verbose cond ref s1 with
    | ((.error e, s2), t2) => ((.error e, s2), t1 ++ t2)
    | ((.ok r, s2), t2) =>
      match reduceEventsV verbose q r s2 with
      | (x, t3) => ((x, s2), t1 ++ t2 ++ t3)

/-- `bayesnet(event_fn, n, find, conditional_on, reduce_fn, raw, verbose, ...)` (bayes.py:63-310): result, state, and
what was printed. -/
def bayesnetV [Field K] (E : BEnv S α) (verbose : Bool) (o : BOpts) (fn : Option ℕ) (n : ℤ) (q : Query α ρ K)
    (cond : Option (α → Except PyErr Bool)) (s : BSt S α) :
    (Except PyErr (BResult ρ K) × BSt S α) × List BMsg :=
  match cachedEventsV verbose o fn n s with
  | ((.error e, s1), t1) => ((.error e, s1), t1)
  | ((.ok (some ref), s1), t1) =>
    match finishBayesV E verbose o fn n q cond (s.mem fn).isSome ref s1 with
    | (r, t2) => (r, t1 ++ t2)
  | ((.ok none, s1), t1) =>
    match fn with
    | none => ((.ok .pyNone, s1), t1)
    | some f =>
      match generateEventsV E verbose o f n s1 with
      | ((.error e, s2), t2) => ((.error e, s2), t1 ++ t2)
      | ((.ok l, s2), t2) =>
        match finishBayesV E verbose o fn n q cond (s.mem fn).isSome (s2.alloc l).1 (s2.alloc l).2 with
        | (r, t3) => (r, t1 ++ t2 ++ t3)

end Verif
