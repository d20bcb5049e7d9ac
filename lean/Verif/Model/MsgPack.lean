import Verif.Model.Bayesnet
import Verif.Spec.EventFile

/-!
# The bytes of `bayesnet`'s cache files (bayes.py:165-167, 176-177, 231-232, 252-253, 260-261, 273-274)

`encoder.encode` and `decoder.decode` are `msgspec.msgpack`: the MessagePack format, with the shortest form for
every value.  The decoder is only modelled for the forms the encoder writes, and for dictionaries with texts as
keys; other bytes are an error here.  `datetime.now()` is stored as a text.
-/

namespace Verif

open Spec

/-- A file as bytes. -/
abbrev Bytes := List UInt8

/-- `n` in `w` bytes, most significant first. -/
def bigEndian : ℕ → ℕ → Bytes
  | 0, _ => []
  | w + 1, n => UInt8.ofNat (n / 256 ^ w) :: bigEndian w n

/-- The number written in the bytes. -/
def readBE (bs : Bytes) : ℕ := bs.foldl (fun acc b => acc * 256 + b.toNat) 0

/-- A whole number; `none` is OverflowError. -/
def encInt (z : ℤ) : Option Bytes :=
  if 0 ≤ z then
    let n := z.toNat
    if n < 128 then some [UInt8.ofNat n]
    else if n < 2 ^ 8 then some (204 :: bigEndian 1 n)
    else if n < 2 ^ 16 then some (205 :: bigEndian 2 n)
    else if n < 2 ^ 32 then some (206 :: bigEndian 4 n)
    else if n < 2 ^ 64 then some (207 :: bigEndian 8 n)
    else none
  else if -32 ≤ z then some [UInt8.ofNat (256 + z).toNat]
  else if -2 ^ 7 ≤ z then some (208 :: bigEndian 1 (2 ^ 8 + z).toNat)
  else if -2 ^ 15 ≤ z then some (209 :: bigEndian 2 (2 ^ 16 + z).toNat)
  else if -2 ^ 31 ≤ z then some (210 :: bigEndian 4 (2 ^ 32 + z).toNat)
  else if -2 ^ 63 ≤ z then some (211 :: bigEndian 8 (2 ^ 64 + z).toNat)
  else none

/-- The bytes of a text. -/
def textBytes (s : String) : Bytes := s.toByteArray.data.toList

/-- A text; `none` is ValueError (too long). -/
def encStr (s : String) : Option Bytes :=
  let n := (textBytes s).length
  if n < 32 then some (UInt8.ofNat (160 + n) :: textBytes s)
  else if n < 2 ^ 8 then some (217 :: bigEndian 1 n ++ textBytes s)
  else if n < 2 ^ 16 then some (218 :: bigEndian 2 n ++ textBytes s)
  else if n < 2 ^ 32 then some (219 :: bigEndian 4 n ++ textBytes s)
  else none

/-- Start of an array of `n` values. -/
def encArrayHead (n : ℕ) : Option Bytes :=
  if n < 16 then some [UInt8.ofNat (144 + n)]
  else if n < 2 ^ 16 then some (220 :: bigEndian 2 n)
  else if n < 2 ^ 32 then some (221 :: bigEndian 4 n)
  else none

/-- Start of a dictionary of `n` items. -/
def encMapHead (n : ℕ) : Option Bytes :=
  if n < 16 then some [UInt8.ofNat (128 + n)]
  else if n < 2 ^ 16 then some (222 :: bigEndian 2 n)
  else if n < 2 ^ 32 then some (223 :: bigEndian 4 n)
  else none

mutual

/-- `encoder.encode(v)` (bayes.py:232, 274); `none` is an exception. -/
def encVal : PyVal → Option Bytes
  | .none => some [192]
  | .bool false => some [194]
  | .bool true => some [195]
  | .int z => encInt z
  | .flt b => some (203 :: bigEndian 8 b.toNat)
  | .str s => encStr s
  | .list vs => (match encArrayHead vs.length, encVals vs with
    | some h, some b => some (h ++ b)
    | _, _ => none)
  | .tuple vs => (match encArrayHead vs.length, encVals vs with
    | some h, some b => some (h ++ b)
    | _, _ => none)
  | .dict kvs => (match encMapHead kvs.length, encItems kvs with
    | some h, some b => some (h ++ b)
    | _, _ => none)
  | .other => none

/-- One value after the other. -/
def encVals : List PyVal → Option Bytes
  | [] => some []
  | v :: vs => (match encVal v, encVals vs with
    | some a, some b => some (a ++ b)
    | _, _ => none)

/-- Keys and values. -/
def encItems : List (String × PyVal) → Option Bytes
  | [] => some []
  | (k, v) :: rest => (match encStr k, encVal v, encItems rest with
    | some a, some b, some c => some (a ++ (b ++ c))
    | _, _, _ => none)

end

/-- The next `n` bytes and the rest. -/
def takeBytes (n : ℕ) (bs : Bytes) : Option (Bytes × Bytes) :=
  if n ≤ bs.length then some (bs.take n, bs.drop n) else none

/-- The number in the next `w` bytes, and the rest. -/
def takeBE (w : ℕ) (bs : Bytes) : Option (ℕ × Bytes) := (takeBytes w bs).map fun p => (readBE p.1, p.2)

/-- A text of `n` bytes; invalid UTF-8 is an error. -/
def decText (n : ℕ) (bs : Bytes) : Option (PyVal × Bytes) :=
  match takeBytes n bs with
  | some (a, r) => (match String.fromUTF8? ⟨a.toArray⟩ with
    | some s => some (.str s, r)
    | none => none)
  | none => none

/-- `n` things one after the other. -/
def decMany {α : Type} (d : Bytes → Option (α × Bytes)) : ℕ → Bytes → Option (List α × Bytes)
  | 0, bs => some ([], bs)
  | n + 1, bs =>
    match d bs with
    | none => none
    | some (v, r) =>
      match decMany d n r with
      | none => none
      | some (vs, r') => some (v :: vs, r')

/-- A key and its value. -/
def decItem (d : Bytes → Option (PyVal × Bytes)) (bs : Bytes) : Option ((String × PyVal) × Bytes) :=
  match d bs with
  | some (.str k, r) => (match d r with
    | some (v, r') => some ((k, v), r')
    | none => none)
  | _ => none

/-- A list of `n` values. -/
def decList (d : Bytes → Option (PyVal × Bytes)) (n : ℕ) (bs : Bytes) : Option (PyVal × Bytes) :=
  (decMany d n bs).map fun p => (.list p.1, p.2)

/-- A dictionary of `n` items. -/
def decDict (d : Bytes → Option (PyVal × Bytes)) (n : ℕ) (bs : Bytes) : Option (PyVal × Bytes) :=
  (decMany (decItem d) n bs).map fun p => (.dict p.1, p.2)

/-- A number of `w` bytes, then `k` of it. -/
def withBE (w : ℕ) (k : ℕ → Bytes → Option (PyVal × Bytes)) (bs : Bytes) : Option (PyVal × Bytes) :=
  match takeBE w bs with
  | some (n, r) => k n r
  | none => none

/-- A value that starts with byte `b`; `d` reads what is inside. -/
def decFrom (d : Bytes → Option (PyVal × Bytes)) (b : ℕ) (r : Bytes) : Option (PyVal × Bytes) :=
  if b < 128 then some (.int b, r)
  else if b < 144 then decDict d (b - 128) r
  else if b < 160 then decList d (b - 144) r
  else if b < 192 then decText (b - 160) r
  else if b = 192 then some (.none, r)
  else if b = 194 then some (.bool false, r)
  else if b = 195 then some (.bool true, r)
  else if b = 203 then withBE 8 (fun n r => some (.flt (UInt64.ofNat n), r)) r
  else if b = 204 then withBE 1 (fun n r => some (.int n, r)) r
  else if b = 205 then withBE 2 (fun n r => some (.int n, r)) r
  else if b = 206 then withBE 4 (fun n r => some (.int n, r)) r
  else if b = 207 then withBE 8 (fun n r => some (.int n, r)) r
  else if b = 208 then withBE 1 (fun n r => some (.int ((n : ℤ) - if n < 2 ^ 7 then 0 else 2 ^ 8), r)) r
  else if b = 209 then withBE 2 (fun n r => some (.int ((n : ℤ) - if n < 2 ^ 15 then 0 else 2 ^ 16), r)) r
  else if b = 210 then withBE 4 (fun n r => some (.int ((n : ℤ) - if n < 2 ^ 31 then 0 else 2 ^ 32), r)) r
  else if b = 211 then withBE 8 (fun n r => some (.int ((n : ℤ) - if n < 2 ^ 63 then 0 else 2 ^ 64), r)) r
  else if b = 217 then withBE 1 decText r
  else if b = 218 then withBE 2 decText r
  else if b = 219 then withBE 4 decText r
  else if b = 220 then withBE 2 (decList d) r
  else if b = 221 then withBE 4 (decList d) r
  else if b = 222 then withBE 2 (decDict d) r
  else if b = 223 then withBE 4 (decDict d) r
  else if b < 224 then none
  else some (.int ((b : ℤ) - 256), r)

/-- The next value; the first argument bounds the nesting. -/
def decVal : ℕ → Bytes → Option (PyVal × Bytes)
  | 0, _ => none
  | _ + 1, [] => none
  | f + 1, b :: r => decFrom (decVal f) b.toNat r

/-- `decoder.decode(bytes)` (bayes.py:177, 253): one value and nothing after it. -/
def decodeBytes (bs : Bytes) : Except PyErr PyVal :=
  match decVal bs.length bs with
  | some (v, []) => .ok v
  | _ => .error .decodeError

/-- `encoder.encode({"events": events, "metadata": {"n": n, "last_generated": now}})`
(bayes.py:260-261, 273-274). -/
def cacheBytes (events : List PyVal) (n : ℤ) (now : String) : Option Bytes :=
  encVal (.dict [("events", .list events), ("metadata", .dict [("n", .int n), ("last_generated", .str now)])])

/-- `d[key]`. -/
def lookupKey (key : String) : PyVal → Except PyErr PyVal
  | .dict kvs => (match kvs.find? fun p => p.1 == key with
    | some p => .ok p.2
    | none => .error .keyError)
  | _ => .error .typeError

/-- `decoder.decode(f.read())`, then `["metadata"]["n"]` and `["events"]` (bayes.py:176-177, 184-192). -/
def loadBytes (bs : Bytes) : Except PyErr (List PyVal × ℤ) := do
  let c ← decodeBytes bs
  let n ← lookupKey "n" (← lookupKey "metadata" c)
  let events ← lookupKey "events" c
  match events, n with
  | .list vs, .int n => .ok (vs, n)
  | _, _ => .error .typeError

/-- The file after `open(cache_path, "wb")` and the first `k` bytes of `f.write(...)` (bayes.py:273-274), when it
held `old` before: mode `"wb"` empties the file first.  With fewer bytes than all of them the process was stopped
before the end. -/
def writtenFile (_old bs : Bytes) (k : ℕ) : Bytes := bs.take k

/-- The file a core writes for its events (bayes.py:229-232). -/
def batchBytes (batch : List PyVal) : Option Bytes := encVal (.list batch)

/-- What one event is after it was written and read (the `codec` of Model/Bayesnet); `none` if it cannot be
written. -/
def fileCodec (v : PyVal) : Option PyVal :=
  match encVal v with
  | some bs => (match decodeBytes bs with
    | .ok w => some w
    | .error _ => none)
  | none => none

end Verif
