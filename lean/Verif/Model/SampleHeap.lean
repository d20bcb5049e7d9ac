import Verif.Model.SampleCache

/-!
# `sample()` with its memory cache as a store of objects (samplers.py:977-1008, 1231-1260)

The same code as `Verif/Model/SampleCache.lean`, but numpy arrays are objects with an address.  The memory
cache stores the very array that is returned (samplers.py:1246, 1260) and hands it out again
(samplers.py:1008), so the caller and the cache share it.  Arrays are allocated by a fresh draw, by
`np.load` and by `np.maximum`/`np.minimum` (samplers.py:1232-1235).  Simplifications: a user's function
does not return an array that somebody else keeps, and an assignment into an array stores the value
as it is.
-/

namespace Verif

variable {σ K : Type} [Field K] [LinearOrder K] [FloorRing K]

/-- What `sample` returns: an immutable value, or the address of an array. -/
inductive HVal (K : Type) where
  | imm (v : Scalar K)
  | ref (a : ℕ)

/-- The value of a result in a heap. -/
def HVal.deref (heap : List (List (Scalar K))) : HVal K → Samples K
  | .imm v => .scalar v
  | .ref a => .arr (heap.getD a [])

/-- Global state: as `CSt`, with a heap of arrays; the memory cache holds references. -/
structure HSt (σ K : Type) where
  inner : MSt σ K
  heap : List (List (Scalar K))
  mem : String → Option (HVal K)
  files : String → Option (Samples K)

/-- A new object for a computed value. -/
def HSt.alloc (c : HSt σ K) : Samples K → HVal K × HSt σ K
  | .scalar v => (.imm v, c)
  | .arr vs => (.ref c.heap.length, { c with heap := c.heap ++ [vs] })

/-- Where the samples come from (samplers.py:998-1008). -/
inductive Source (K : Type) where
  | file (s : Samples K)
  | memory (v : HVal K)
  | nothing

/-- samplers.py:988-1008. -/
def lookupH (o : CacheOpts) (key : String) (c : HSt σ K) : Except PyErr (Source K) :=
  let file := (truthyName o.load).bind c.files
  if (truthyName o.load).isSome || o.memcache then
    if o.reload then .ok .nothing
    else match file, c.mem key with
      | some f, none => do .ok (.file (← loadNpy f))
      | some f, some m =>
        if o.filePrimary then do .ok (.file (← loadNpy f))
        else if o.memcache then .ok (.memory m) else .ok .nothing
      | none, some m => if o.memcache then .ok (.memory m) else .ok .nothing
      | none, none => .ok .nothing
  else .ok .nothing

/-- samplers.py:1231-1240 on an object: without bounds the object itself; with bounds several samples
become a new array, while a single one is kept as it is or replaced by the bound. -/
def clipH (powf : K → K → Option K) (lc rc : Option (Scalar K)) (v : HVal K) (c : HSt σ K) :
    Except PyErr (HVal K) × HSt σ K :=
  if lc = none ∧ rc = none then (.ok v, c)
  else match applyClips powf lc rc (v.deref c.heap) with
    | .error e => (.error e, c)
    | .ok z =>
      match v, z with
      | .ref a, .arr vs =>
        if (v.deref c.heap).safeLen > 1 then ((.ok (c.alloc (.arr vs)).1), (c.alloc (.arr vs)).2)
        else (.ok (.ref a), c)
      | _, z => (.ok (c.alloc z).1, (c.alloc z).2)

/-- A fresh draw (samplers.py:1010-1228): the result is a new object. -/
def freshH (E : Env σ K) (o : CacheOpts) (d : Obj (St σ K) K) (n : ℕ) (lc rc : Option (Scalar K))
    (c : HSt σ K) : Except PyErr (HVal K) × HSt σ K :=
  match sampleCores E o.sched o.cores d n lc rc c.inner with
  | (.error e, s') => (.error e, { c with inner := s' })
  | (.ok z, s') => (.ok ({ c with inner := s' }.alloc z).1, ({ c with inner := s' }.alloc z).2)

/-- The result before it is saved.  A cached `None` counts as nothing. -/
def obtainH (E : Env σ K) (o : CacheOpts) (key : String) (d : Obj (St σ K) K) (n : ℕ)
    (lc rc : Option (Scalar K)) (c : HSt σ K) : Except PyErr (HVal K) × HSt σ K :=
  match lookupH o key c with
  | .error e => (.error e, c)
  | .ok (.file s) =>
    if s = .scalar .none then freshH E o d n lc rc c
    else clipH E.powf lc rc (c.alloc s).1 (c.alloc s).2
  | .ok (.memory v) =>
    if v.deref c.heap = .scalar .none then freshH E o d n lc rc c
    else clipH E.powf lc rc v c
  | .ok .nothing => freshH E o d n lc rc c

/-- samplers.py:1242-1257: the cache keeps the object itself, a file its value. -/
def saveH (o : CacheOpts) (key : String) (had : Bool) (v : HVal K) (c : HSt σ K) : HSt σ K :=
  { c with
    mem := if o.memcache && (!had || o.reload) then
        fun k => if k = key then some v else c.mem k
      else c.mem
    files := match truthyName o.dump with
      | some f => fun g => if g = f then some (v.deref c.heap) else c.files g
      | none => c.files }

/-- `sample` with caches, returning an object. -/
def cachedSampleH (E : Env σ K) (key : Obj (St σ K) K → String) (o : CacheOpts) (d : Obj (St σ K) K)
    (n : ℕ) (lc rc : Option (Scalar K)) (c : HSt σ K) : Except PyErr (HVal K) × HSt σ K :=
  if n = 0 then (.error .valueError, c)
  else match obtainH E o (key d) d n lc rc c with
    | (.error e, c') => (.error e, c')
    | (.ok v, c') => (.ok v, saveH o (key d) (c.mem (key d)).isSome v c')

/-- What the caller does: call `sample`, or assign `result[i] = v` into the array returned by the `j`-th
call (counted from 0). -/
inductive HOp (σ K : Type) where
  | call (op : CacheOp σ K)
  | assign (j i : ℕ) (v : Scalar K)

/-- `array[i] = v` at an address. -/
def HSt.assign (c : HSt σ K) (a : Option ℕ) (i : ℕ) (v : Scalar K) : HSt σ K :=
  match a with
  | none => c
  | some a => { c with heap := c.heap.modify a fun vs => vs.set i v }

/-- The address of a result, if it is an array. -/
def addrOf : Except PyErr (HVal K) → Option ℕ
  | .ok (.ref a) => some a
  | _ => none

/-- A history: the values of all results at the time they are returned.  `rets` are the addresses returned
so far. -/
def runH (E : Env σ K) (key : Obj (St σ K) K → String) :
    List (HOp σ K) → HSt σ K → List (Option ℕ) → List (Except PyErr (Samples K))
  | [], _, _ => []
  | .call op :: ops, c, rets =>
    match cachedSampleH E key op.opts op.d op.n op.lc op.rc c with
    | (r, c') => (r.map (HVal.deref c'.heap)) :: runH E key ops c' (rets ++ [addrOf r])
  | .assign j i v :: ops, c, rets => runH E key ops (c.assign (rets[j]?.join) i v) rets

end Verif
