import Verif.Model.MachineSample
import Verif.Spec.WideNumbers

/-!
# Arrays of whole numbers too wide for 64 bits, and the named numbers

`np.array([z] * n)` is an array of 64-bit integers if `z` fits, an array of Python objects if `z` is below `-2 ^ 63` or at
least `2 ^ 64`, and an array of unsigned integers in between, which together with signed ones gives floats; the last case
is `unmodelled`.  An operation on an array of objects and any other array works on Python numbers of any size.  Bounds on
arrays of objects (`np.vectorize` takes the type of its result from the first element) are `unmodelled`.
-/

namespace Verif

open Spec

variable {σ K : Type} [Field K] [LinearOrder K] [FloorRing K]

/-- The named numbers (numbers.py:1-25). -/
def namedNumbers : List (String × ℤ) :=
  [("thousand", 10 ^ 3), ("K", 10 ^ 3), ("million", 10 ^ 6), ("M", 10 ^ 6), ("billion", 10 ^ 9), ("B", 10 ^ 9),
    ("trillion", 10 ^ 12), ("T", 10 ^ 12), ("quadrillion", 10 ^ 15), ("quintillion", 10 ^ 18), ("sextillion", 10 ^ 21),
    ("septillion", 10 ^ 24), ("octillion", 10 ^ 27), ("nonillion", 10 ^ 30), ("decillion", 10 ^ 33)]

/-- An array of whole numbers: of Python objects, or of 64-bit integers. -/
structure WideArr where
  obj : Bool
  vals : List ℤ
  deriving DecidableEq

/-- `np.array([z for _ in range(n)])` (samplers.py:1104-1111). -/
def wideNum (n : ℕ) (z : ℤ) : Except PyErr WideArr :=
  if Fits z then .ok ⟨false, List.replicate n z⟩
  else if TooWide z then .ok ⟨true, List.replicate n z⟩
  else .error .unmodelled

/-- `sample(e, n)` for `n > 1` with arrays of either kind (samplers.py:1104-1111, 1216-1227). -/
def sampleWide (E : Env σ K) (ds : ℕ → Leaf K) (n : ℕ) : IExpr → SM σ K WideArr
  | .src k => SM.bind (sampleObj E (.leaf (ds k) none none) n none none) fun z => SM.lift (do .ok ⟨false, ← ints z⟩)
  | .num z => SM.lift (wideNum n z)
  | .neg e => SM.bind (sampleWide E ds n e) fun x =>
      SM.pure ⟨x.obj, x.vals.map fun v => if x.obj then -v else toI64 (-v)⟩
  | .bin o a b => SM.bind (sampleWide E ds n a) fun x => SM.bind (sampleWide E ds n b) fun y =>
      SM.pure ⟨x.obj || y.obj, List.zipWith (if x.obj || y.obj then o.eval else opI64 o) x.vals y.vals⟩
  | .pow e k => SM.bind (sampleWide E ds n e) fun x => SM.lift (do
      let _ ← fitI64 k
      .ok ⟨x.obj, x.vals.map fun v => if x.obj then v ^ k else toI64 (v ^ k)⟩)
  | .lclip e c => SM.bind (sampleWide E ds n e) fun x => SM.lift (do
      if x.obj then .error .unmodelled
      else
        let c ← fitI64 c
        .ok ⟨false, x.vals.map fun v => if v < c then c else v⟩)
  | .rclip e c => SM.bind (sampleWide E ds n e) fun x => SM.lift (do
      if x.obj then .error .unmodelled
      else
        let c ← fitI64 c
        .ok ⟨false, x.vals.map fun v => if v > c then c else v⟩)

/-- Collecting the batches of several cores (samplers.py:1046-1053): `np.concatenate` puts 64-bit integers behind the
float array `np.array([])`, so every number becomes a float, which may round it (`fl`). -/
def collectF (fl : K → K) (batches : List (List ℤ)) : List K :=
  batches.foldl (fun acc b => acc ++ b.map fun z : ℤ => fl (z : K)) []

end Verif
