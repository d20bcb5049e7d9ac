import Verif.Model.SampleCache

/-!
# `bayesnet` (bayes.py:63-310)

Events have an arbitrary type `α`; event functions act on an arbitrary state `S` (the generator and
whatever else they use).  Lists of events are objects: the memory cache holds a reference to a list,
and a call may return that same reference (bayes.py:289-292).  Not modelled: progress output,
`last_generated`, event functions that themselves call `bayesnet`, and waiting for the pool.
-/

namespace Verif

variable {S α ρ K : Type}

/-- A file on disk: complete, or cut off while it was written. -/
inductive FileOf (β : Type) where
  | good (b : β)
  | truncated

/-- A cached run: a reference to the list of events, and `metadata["n"]` (bayes.py:260-261). -/
structure BEntry where
  ref : ℕ
  n : ℤ

/-- The state: `inner` is what event functions act on, `lists` the list objects (those below `next`
exist), `mem` is `_squigglepy_internal_bayesnet_caches` (bayes.py:25) keyed by the event function
(`none` is Python's `None`), `files` the cache files by name without `.sqcache`, `tmp` the files
`test-core-{i}.sqcache`. -/
structure BSt (S α : Type) where
  inner : S
  lists : ℕ → List α
  next : ℕ
  mem : Option ℕ → Option BEntry
  files : String → Option (FileOf (List α × ℤ))
  tmp : ℕ → Option (FileOf (List α))

/-- The outside world: the event functions, and what becomes of an event that msgpack encodes and
decodes (`none` if it cannot be encoded; tuples come back as lists, for instance). -/
structure BEnv (S α : Type) where
  event : ℕ → S → Except PyErr α × S
  codec : α → Option α

/-- The options (bayes.py:70-78); `memcache` may also be `None`. -/
structure BOpts where
  memcache : Option Bool := some true
  memLoad : Bool := true
  memSave : Bool := true
  reload : Bool := false
  dump : Option String := none
  load : Option String := none
  filePrimary : Bool := false
  cores : ℕ := 1
  sched : Sched := []

/-- What is asked: `find`, `raw` and `reduce_fn` (bayes.py:289-307).  With `find=None`, `raw` is
ignored; `findReduce f none` aggregates with `np.mean`. -/
inductive Query (α ρ K : Type) where
  | events
  | reduceEvents (r : List α → Except PyErr ρ)
  | findRaw (f : α → Except PyErr (Scalar K))
  | findReduce (f : α → Except PyErr (Scalar K)) (r : Option (List (Scalar K) → Except PyErr ρ))

/-- What is returned; lists of events are references. -/
inductive BResult (ρ K : Type) where
  | pyNone
  | listRef (r : ℕ)
  | values (vs : List (Scalar K))
  | mean (x : K)
  | reduced (x : ρ)

/-- bayes.py:155-160: `memcache=True/False` overrides the two flags. -/
def BOpts.loads (o : BOpts) : Bool := o.memcache.getD o.memLoad

/-- bayes.py:155-160. -/
def BOpts.saves (o : BOpts) : Bool := o.memcache.getD o.memSave

/-- Encode every event, or fail (`encoder.encode`, bayes.py:232, 274). -/
def encodeList (codec : α → Option α) : List α → Option (List α)
  | [] => some []
  | e :: es =>
    match codec e, encodeList codec es with
    | some e', some es' => some (e' :: es')
    | _, _ => none

/-- `[run_event_fn() for _ in range(k)]` (bayes.py:212, 223). -/
def repeatEvent (f : S → Except PyErr α × S) : ℕ → S → Except PyErr (List α) × S
  | 0, s => (.ok [], s)
  | k + 1, s =>
    match f s with
    | (.error e, s') => (.error e, s')
    | (.ok a, s') =>
      match repeatEvent f k s' with
      | (.error e, s'') => (.error e, s'')
      | (.ok as, s'') => (.ok (a :: as), s'')

/-- bayes.py:229-232: write the batch unless the file exists.  The file is opened before the events
are encoded, so a failing encoder leaves a truncated file.  The flag tells whether it failed. -/
def writeBatch (codec : α → Option α) (core : ℕ) (batch : List α)
    (tmp : ℕ → Option (FileOf (List α))) : Bool × (ℕ → Option (FileOf (List α))) :=
  match tmp core with
  | some _ => (true, tmp)
  | none =>
    match encodeList codec batch with
    | some b => (true, fun i => if i = core then some (.good b) else tmp i)
    | none => (false, fun i => if i = core then some .truncated else tmp i)

/-- The tasks of the pool (bayes.py:217-237): task `(p, core)` runs in process `p`, which started with a
copy of the parent's state; exceptions stay in the process. -/
def runEventWorkers (E : BEnv S α) (fn : ℕ) (cuts : List ℕ) :
    Sched → (ℕ → S) → (ℕ → Option (FileOf (List α))) → (ℕ → Option (FileOf (List α)))
  | [], _, tmp => tmp
  | (p, core) :: rest, procs, tmp =>
    match repeatEvent (E.event fn) (cuts.getD core 0) (procs p) with
    | (.error _, s') =>
      runEventWorkers E fn cuts rest (fun q => if q = p then s' else procs q) tmp
    | (.ok batch, s') =>
      runEventWorkers E fn cuts rest (fun q => if q = p then s' else procs q)
        (writeBatch E.codec core batch tmp).2

/-- bayes.py:249-255: read and remove the files in core order. -/
def collectEvents : List ℕ → List α → (ℕ → Option (FileOf (List α))) →
    Except PyErr (List α) × (ℕ → Option (FileOf (List α)))
  | [], acc, tmp => (.ok acc, tmp)
  | core :: rest, acc, tmp =>
    match tmp core with
    | none => (.error .fileNotFoundError, tmp)
    | some .truncated => (.error .decodeError, tmp)
    | some (.good b) => collectEvents rest (acc ++ b) (fun i => if i = core then none else tmp i)

/-- bayes.py:207-258: run the event function `n` times.  A negative `n` behaves like 0 (empty ranges).
With `cores=0` some exception is raised; the model uses the one of `_core_cuts`. -/
def generateEvents (E : BEnv S α) (o : BOpts) (fn : ℕ) (n : ℤ) (s : BSt S α) :
    Except PyErr (List α) × BSt S α :=
  if o.cores = 1 then
    match repeatEvent (E.event fn) n.toNat s.inner with
    | (r, s') => (r, { s with inner := s' })
  else match coreCuts n.toNat o.cores with
    | .error e => (.error e, s)
    | .ok cuts =>
      let tmp1 := runEventWorkers E fn cuts o.sched (fun _ => s.inner) s.tmp
      match repeatEvent (E.event fn) (cuts.getD (o.cores - 1) 0) s.inner with
      | (.error e, s') => (.error e, { s with inner := s', tmp := tmp1 })
      | (.ok batch, s') =>
        match writeBatch E.codec (o.cores - 1) batch tmp1 with
        | (false, tmp2) => (.error .typeError, { s with inner := s', tmp := tmp2 })
        | (true, tmp2) =>
          match collectEvents (List.range o.cores) [] tmp2 with
          | (r, tmp3) => (r, { s with inner := s', tmp := tmp3 })

/-- A new list object. -/
def BSt.alloc (s : BSt S α) (l : List α) : ℕ × BSt S α :=
  (s.next, { s with lists := fun r => if r = s.next then l else s.lists r, next := s.next + 1 })

/-- bayes.py:161-194: the cached events, if any cache is to be used; ValueError if they were generated
for a smaller `n`. -/
def cachedEvents (o : BOpts) (fn : Option ℕ) (n : ℤ) (s : BSt S α) :
    Except PyErr (Option ℕ) × BSt S α :=
  if o.reload then (.ok none, s)
  else match (truthyName o.load).bind s.files, s.mem fn with
    | some f, m =>
      if m.isNone || o.filePrimary then
        match f with
        | .truncated => (.error .decodeError, s)
        | .good (l, k) =>
          if k < n then (.error .valueError, s)
          else (.ok (some (s.alloc l).1), (s.alloc l).2)
      else match m with
        | some e =>
          if o.loads then (if e.n < n then (.error .valueError, s) else (.ok (some e.ref), s))
          else (.ok none, s)
        | none => (.ok none, s)
    | none, some e =>
      if o.loads then (if e.n < n then (.error .valueError, s) else (.ok (some e.ref), s))
      else (.ok none, s)
    | none, none => (.ok none, s)

/-- bayes.py:262-276: save the events in memory, then in a file (opened, hence emptied, before the
events are encoded).  `had` tells whether the memory had an entry when the call began. -/
def saveEvents (E : BEnv S α) (o : BOpts) (fn : Option ℕ) (n : ℤ) (had : Bool) (ref : ℕ)
    (s : BSt S α) : Except PyErr Unit × BSt S α :=
  let s1 := if o.saves && (!had || o.reload) then
      { s with mem := fun k => if k = fn then some ⟨ref, n⟩ else s.mem k }
    else s
  match truthyName o.dump with
  | none => (.ok (), s1)
  | some f =>
    match encodeList E.codec (s.lists ref) with
    | some l => (.ok (), { s1 with files := fun g => if g = f then some (.good (l, n)) else s1.files g })
    | none => (.error .typeError,
        { s1 with files := fun g => if g = f then some .truncated else s1.files g })

/-- `[e for e in events if conditional_on(e)]` (bayes.py:281). -/
def filterExcept (c : α → Except PyErr Bool) : List α → Except PyErr (List α)
  | [] => .ok []
  | e :: es => do
    let b ← c e
    let es' ← filterExcept c es
    .ok (if b then e :: es' else es')

/-- The numeric value of something `np.mean` can average (booleans count as 0 and 1). -/
def meanValue [IntCast K] [Zero K] [One K] : Scalar K → Except PyErr K
  | .bool b => .ok (if b then 1 else 0)
  | .int z => .ok (z : K)
  | .flt x => .ok x
  | _ => .error .typeError

/-- `np.mean` of a non-empty list (bayes.py:304-305). -/
def npMean [Field K] (vs : List (Scalar K)) : Except PyErr K := do
  let xs ← mapExcept meanValue vs
  .ok (xs.sum / xs.length)

/-- bayes.py:278-310: filter, check, find, reduce.  `ref` is the list of events. -/
def answerEvents [Field K] (q : Query α ρ K) (cond : Option (α → Except PyErr Bool)) (ref : ℕ)
    (s : BSt S α) : Except PyErr (BResult ρ K) × BSt S α :=
  match (match cond with
      | none => (.ok ref, s)
      | some c =>
        match filterExcept c (s.lists ref) with
        | .error e => (.error e, s)
        | .ok l => (.ok (s.alloc l).1, (s.alloc l).2) : Except PyErr ℕ × BSt S α) with
  | (.error e, s1) => (.error e, s1)
  | (.ok r, s1) =>
    if (s1.lists r).length < 1 then (.error .valueError, s1)
    else match q with
      | .events => (.ok (.listRef r), s1)
      | .reduceEvents g => ((do .ok (.reduced (← g (s1.lists r)))), s1)
      | .findRaw f => ((do .ok (.values (← mapExcept f (s1.lists r)))), s1)
      | .findReduce f none => ((do .ok (.mean (← npMean (← mapExcept f (s1.lists r))))), s1)
      | .findReduce f (some g) => ((do .ok (.reduced (← g (← mapExcept f (s1.lists r))))), s1)

/-- bayes.py:260-310: everything after the events are there. -/
def finishBayes [Field K] (E : BEnv S α) (o : BOpts) (fn : Option ℕ) (n : ℤ) (q : Query α ρ K)
    (cond : Option (α → Except PyErr Bool)) (had : Bool) (ref : ℕ) (s : BSt S α) :
    Except PyErr (BResult ρ K) × BSt S α :=
  match saveEvents E o fn n had ref s with
  | (.error e, s1) => (.error e, s1)
  | (.ok _, s1) => answerEvents q cond ref s1

/-- `bayesnet(event_fn, n, find, conditional_on, reduce_fn, raw, ...)` (bayes.py:63-310). -/
def bayesnet [Field K] (E : BEnv S α) (o : BOpts) (fn : Option ℕ) (n : ℤ) (q : Query α ρ K)
    (cond : Option (α → Except PyErr Bool)) (s : BSt S α) :
    Except PyErr (BResult ρ K) × BSt S α :=
  match cachedEvents o fn n s with
  | (.error e, s1) => (.error e, s1)
  | (.ok (some ref), s1) => finishBayes E o fn n q cond (s.mem fn).isSome ref s1
  | (.ok none, s1) =>
    match fn with
    | none => (.ok .pyNone, s1)
    | some f =>
      match generateEvents E o f n s1 with
      | (.error e, s2) => (.error e, s2)
      | (.ok l, s2) =>
        finishBayes E o fn n q cond (s.mem fn).isSome (s2.alloc l).1 (s2.alloc l).2

/-- What can happen in a session: calls; the caller changing a list object it holds; a new process
(memory cache gone); a crash while a cache file is written. -/
inductive BOp (α ρ K : Type) where
  | call (o : BOpts) (fn : Option ℕ) (n : ℤ) (q : Query α ρ K)
      (cond : Option (α → Except PyErr Bool))
  | mutate (r : ℕ) (l : List α)
  | restart
  | truncate (f : String)

/-- Effect of one step on the state, exceptions being caught by the caller. -/
def BOp.step [Field K] (E : BEnv S α) (s : BSt S α) : BOp α ρ K → BSt S α
  | .call o fn n q cond => (bayesnet E o fn n q cond s).2
  | .mutate r l => { s with lists := fun i => if i = r then l else s.lists i }
  | .restart => { s with mem := fun _ => none }
  | .truncate f => { s with files := fun g => if g = f then some .truncated else s.files g }

/-- The state after a history. -/
def runBayes [Field K] (E : BEnv S α) : List (BOp α ρ K) → BSt S α → BSt S α
  | [], s => s
  | op :: ops, s => runBayes E ops (op.step E s)

end Verif
