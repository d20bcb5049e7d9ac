import Verif.Model.Py

/-!
# The temporary files of multi-core runs, step by step

Both `sample` (samplers.py:1031-1032, 1046-1053) and `bayesnet` (bayes.py:229-235, 249-256) pass the
batches of their worker processes through files with *fixed* names `test-core-{i}` in the working
directory.  This file models the file operations of several runs that share the directory, one atomic
operation at a time.  A run is a process tree; `α` is the type of one sample or event.
-/

namespace Verif

/-- One file operation of a run. -/
inductive FileAct (α : Type) where
  /-- `open("test-core-i.npy", "wb")` + `np.save`: create or overwrite (samplers.py:1031-1032). -/
  | write (core : Nat) (batch : List α)
  /-- `while not os.path.exists(f): write` (bayes.py:229-235): nothing happens if the file exists. -/
  | writeIfAbsent (core : Nat) (batch : List α)
  /-- open, read, append to the result, `os.remove` (samplers.py:1048-1051, bayes.py:253-255). -/
  | take (core : Nat)

/-- The directory and what each run has collected so far (`error` after an exception). -/
structure DirSt (α : Type) where
  files : Nat → Option (List α)
  acc : Nat → Except PyErr (List α)

/-- Effect of an operation of run `r`; after an exception a run does nothing any more. -/
def FileAct.run {α : Type} (r : Nat) (a : FileAct α) (s : DirSt α) : DirSt α :=
  match s.acc r with
  | .error _ => s
  | .ok got =>
    match a with
    | .write core b => { s with files := fun i => if i = core then some b else s.files i }
    | .writeIfAbsent core b =>
      { s with files := fun i => if i = core then some ((s.files core).getD b) else s.files i }
    | .take core =>
      match s.files core with
      | none => { s with acc := fun q => if q = r then .error .fileNotFoundError else s.acc q }
      | some b =>
        { files := fun i => if i = core then none else s.files i
          acc := fun q => if q = r then .ok (got ++ b) else s.acc q }

/-- An interleaving of operations, each tagged with its run. -/
def runDir {α : Type} : List (Nat × FileAct α) → DirSt α → DirSt α
  | [], s => s
  | (r, a) :: rest, s => runDir rest (a.run r s)

/-- The operations of one multi-core `sample`: the workers and the parent write their batches in some
order `order`, then the parent collects in core order. -/
def sampleActs {α : Type} (batch : Nat → List α) (order : List Nat) (cores : Nat) :
    List (FileAct α) :=
  order.map (fun i => .write i (batch i)) ++ (List.range cores).map .take

/-- The operations of one multi-core `bayesnet`. -/
def bayesActs {α : Type} (batch : Nat → List α) (order : List Nat) (cores : Nat) :
    List (FileAct α) :=
  order.map (fun i => .writeIfAbsent i (batch i)) ++ (List.range cores).map .take

end Verif
