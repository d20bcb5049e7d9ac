import Verif.Model.MsgPack
import Verif.Spec.SampleFile

/-!
# The bytes of files of samples (samplers.py:1001-1003, 1031-1032, 1049-1050, 1254-1255)

`np.save` and `np.load` (numpy's `format.py`, version 1.0 of the format).  The header is a Python dictionary as a
text; reading is only modelled for the text that `np.save` writes, any other header is an error here.  Arrays of
objects (texts among the samples), which are pickled, are not modelled.
-/

namespace Verif

open Spec

/-- What `np.load` raises. -/
inductive NpyErr where
  /-- `EOFError("No data left in file")` -/
  | eof
  | value
  /-- `pickle.UnpicklingError`, only with `allow_pickle=True` -/
  | unpickling
  deriving DecidableEq

/-- A decimal number. -/
def decimal (n : ℕ) : Bytes :=
  if n < 10 then [UInt8.ofNat (48 + n)] else decimal (n / 10) ++ [UInt8.ofNat (48 + n % 10)]
termination_by n
decreasing_by omega

/-- The number. -/
def readDecimal (bs : Bytes) : ℕ := bs.foldl (fun acc b => acc * 10 + (b.toNat - 48)) 0

/-- `0` to `9`. -/
def isDigitByte (b : UInt8) : Bool := decide (48 ≤ b.toNat ∧ b.toNat ≤ 57)

/-- `n` in `w` bytes, least significant first. -/
def littleEndian : ℕ → ℕ → Bytes
  | 0, _ => []
  | w + 1, n => UInt8.ofNat n :: littleEndian w (n / 256)

/-- The number in the bytes. -/
def readLE : Bytes → ℕ
  | [] => 0
  | b :: bs => b.toNat + 256 * readLE bs

/-- `"\x93NUMPY"`. -/
def npyMagic : Bytes := [147, 78, 85, 77, 80, 89]

/-- `dtype.str`. -/
def npyDescr : NpyItems → Bytes
  | .f8 _ => [60, 102, 56]   -- <f8
  | .i8 _ => [60, 105, 56]   -- <i8
  | .b1 _ => [124, 98, 49]   -- |b1

/-- `repr(shape)`: `()` or `(n,)`. -/
def npyShape (a : NpyArray) : Bytes :=
  if a.scalar then [40, 41] else 40 :: decimal a.items.count ++ [44, 41]

/-- `{'descr': '` -/
def npyOpen : Bytes := textBytes "{'descr': '"

/-- `', 'fortran_order': False, 'shape': ` -/
def npyMiddle : Bytes := textBytes "', 'fortran_order': False, 'shape': "

/-- `, }` -/
def npyClose : Bytes := textBytes ", }"

/-- The dictionary, and the spaces numpy leaves for arrays that grow (`GROWTH_AXIS_MAX_DIGITS`). -/
def npyDict (a : NpyArray) : Bytes :=
  npyOpen ++ (npyDescr a.items ++ (npyMiddle ++ (npyShape a ++ (npyClose ++
    List.replicate (if a.scalar then 0 else 21 - (decimal a.items.count).length) 32))))

/-- `_wrap_header`: filled up with spaces and a newline so that the data start at a multiple of 64. -/
def npyHeader (a : NpyArray) : Bytes :=
  npyDict a ++ (List.replicate (64 - (10 + ((npyDict a).length + 1)) % 64) 32 ++ [10])

/-- The data. -/
def npyData : NpyItems → Bytes
  | .f8 xs => xs.flatMap fun x => littleEndian 8 x.toNat
  | .i8 xs => xs.flatMap fun x => littleEndian 8 x.toNat
  | .b1 xs => xs.map fun b => if b then 1 else 0

/-- `np.save(f, samples)` (samplers.py:1032, 1255).  A header of more than 65535 bytes (another version of the
format) is not modelled. -/
def npyBytes (a : NpyArray) : Option Bytes :=
  if (npyHeader a).length < 2 ^ 16 then
    some (npyMagic ++ ([1, 0] ++ (littleEndian 2 (npyHeader a).length ++ (npyHeader a ++ npyData a.items))))
  else none

/-- What is left after a given start. -/
def stripStart (p bs : Bytes) : Option Bytes := if bs.take p.length = p then some (bs.drop p.length) else none

/-- The kind of the values. -/
inductive NpyKind where
  | f8
  | i8
  | b1
  deriving DecidableEq

/-- `dtype(descr)`. -/
def kindOf (d : Bytes) : Option NpyKind :=
  if d = [60, 102, 56] then some .f8
  else if d = [60, 105, 56] then some .i8
  else if d = [124, 98, 49] then some .b1
  else none

/-- The shape: `none` is `()`. -/
def readShape (bs : Bytes) : Option (Option ℕ × Bytes) :=
  match stripStart [40, 41] bs with
  | some r => some (none, r)
  | none =>
    match stripStart [40] bs with
    | none => none
    | some r =>
      match stripStart [44, 41] (r.dropWhile isDigitByte) with
      | none => none
      | some q => if r.takeWhile isDigitByte = [] then none else some (some (readDecimal (r.takeWhile isDigitByte)), q)

/-- `_read_array_header`. -/
def readHeader (bs : Bytes) : Option (NpyKind × Option ℕ) := do
  let r ← stripStart npyOpen bs
  let (d, r) ← takeBytes 3 r
  let k ← kindOf d
  let r ← stripStart npyMiddle r
  let (shape, r) ← readShape r
  let r ← stripStart npyClose r
  if r.dropWhile (fun b => b = 32) = [10] then some (k, shape) else none

/-- Bytes in groups of eight. -/
def npyWords : ℕ → Bytes → List UInt64
  | 0, _ => []
  | n + 1, bs => UInt64.ofNat (readLE (bs.take 8)) :: npyWords n (bs.drop 8)

/-- `np.fromfile(f, dtype, count)`, then the shape is set: fewer values than the shape says are an error; what
follows the values is not read. -/
def readItems (k : NpyKind) (count : ℕ) (bs : Bytes) : Except NpyErr NpyItems :=
  match k with
  | .f8 => if bs.length < 8 * count then .error .value else .ok (.f8 (npyWords count bs))
  | .i8 => if bs.length < 8 * count then .error .value else .ok (.i8 (npyWords count bs))
  | .b1 => if bs.length < count then .error .value else .ok (.b1 ((bs.take count).map fun b => b != 0))

/-- `np.load(f)` (samplers.py:1003) and `np.load(f, allow_pickle=True)` (samplers.py:1050): an empty file has its
own error; a file that does not start like `np.save` starts is taken for a pickle. -/
def npyLoad (allowPickle : Bool) (bs : Bytes) : Except NpyErr NpyArray :=
  if bs = [] then .error .eof
  else match stripStart npyMagic bs with
    | none => if allowPickle then .error .unpickling else .error .value
    | some r =>
      match stripStart [1, 0] r with
      | none => .error .value
      | some r =>
        match takeBytes 2 r with
        | none => .error .value
        | some (l, r) =>
          match takeBytes (readLE l) r with
          | none => .error .value
          | some (h, r) =>
            match readHeader h with
            | none => .error .value
            | some (k, none) => (match readItems k 1 r with
              | .error e => .error e
              | .ok items => .ok ⟨true, items⟩)
            | some (k, some n) => (match readItems k n r with
              | .error e => .error e
              | .ok items => .ok ⟨false, items⟩)

end Verif
