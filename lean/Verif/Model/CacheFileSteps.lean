import Verif.Model.Py
import Mathlib.Data.List.Basic

/-!
# Writing a cache file, step by step (samplers.py:1250-1257, loaded at samplers.py:998-1003)

`dump_cache_file` opens the file with mode `"wb"`, which empties it, and then calls `np.save`, which
writes a header with the number of samples and then the numbers.  Every process writes at its own
position in the file.  A reader (`np.load`) takes the header and that many numbers.

Simplifications: all arrays written to one file have the same `dtype`, so that number `i` starts at the
same byte in all of them (header blocks have the same size: numpy pads them to a multiple of 64 bytes); the
header is written at once; numbers are written one at a time (larger blocks are several steps with no
other process in between).  An empty file makes `np.load` raise EOFError, a file of zeros or one that is too
short ValueError: both are `valueError` here.
-/

namespace Verif

/-- One block of a cache file: a gap that reads as zero bytes, the header of an array of `n` numbers, or a
number. -/
inductive Block (α : Type) where
  | gap
  | head (n : ℕ)
  | num (x : α)

/-- Write block `b` at position `p`; what lies between the end of the file and `p` becomes a gap. -/
def putBlock {α : Type} (p : ℕ) (b : Block α) (f : List (Block α)) : List (Block α) :=
  (f ++ List.replicate (p + 1 - f.length) Block.gap).set p b

/-- One operation on the cache file. -/
inductive CacheStep (α : Type) where
  /-- `open(cache_path, "wb")` (samplers.py:1254) -/
  | truncate
  /-- part of `np.save(f, samples)` (samplers.py:1255) -/
  | put (p : ℕ) (b : Block α)

/-- The effect of one operation; `none` is "no such file". -/
def CacheStep.run {α : Type} : CacheStep α → Option (List (Block α)) → Option (List (Block α))
  | .truncate, _ => some []
  | .put _ _, none => none
  | .put p b, some f => some (putBlock p b f)

/-- The numbers from position `p` on. -/
def putNums {α : Type} : ℕ → List α → List (CacheStep α)
  | _, [] => []
  | p, x :: xs => .put p (.num x) :: putNums (p + 1) xs

/-- All operations of one dump (samplers.py:1254-1255). -/
def dumpSteps {α : Type} (xs : List α) : List (CacheStep α) :=
  .truncate :: .put 0 (.head xs.length) :: putNums 1 xs

/-- A number as read from a block: zero bytes are the number zero; a header is never read as a number
because it is at position 0. -/
def Block.value {α : Type} [Zero α] : Block α → α
  | .num x => x
  | .gap => 0
  | .head _ => 0

/-- `np.load` (samplers.py:1002-1003).  Every file that cannot be read is a `ValueError` here; numpy raises `EOFError` for the
empty file (byte by byte: `npyLoad` in Model/NpyBytes). -/
def loadSteps {α : Type} [Zero α] : List (Block α) → Except PyErr (List α)
  | .head n :: body =>
    if n ≤ body.length then .ok ((body.take n).map Block.value) else .error .valueError
  | _ => .error .valueError

/-- Operations of several processes, one after the other. -/
def runSteps {α : Type} : List (ℕ × CacheStep α) → Option (List (Block α)) → Option (List (Block α))
  | [], f => f
  | (_, a) :: rest, f => runSteps rest (a.run f)

/-- A call `sample(d, n, load_cache_file=g if load, dump_cache_file=g if dump, reload_cache=reload)` with
no cache in memory (samplers.py:988-1008, 1250-1257): `fresh` are the samples it would draw. -/
def fileCall {α : Type} [Zero α] (load dump reload : Bool) (fresh : List α)
    (f : Option (List (Block α))) : Except PyErr (List α) × Option (List (Block α)) :=
  let got : Except PyErr (List α) := match f with
    | some c => if load && !reload then loadSteps c else .ok fresh
    | none => .ok fresh
  match got with
  | .error e => (.error e, f)
  | .ok xs => (.ok xs, if dump then runSteps ((dumpSteps xs).map fun a => (0, a)) f else f)

end Verif
