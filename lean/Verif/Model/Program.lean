import Verif.Model.Sample

/-! # Programs: sequences of `set_seed` and `sample` calls -/

namespace Verif

variable {σ K : Type} [Field K] [LinearOrder K] [FloorRing K]

/-- One statement of a program that uses the sampler. -/
inductive Op (σ K : Type) where
  /-- `set_seed(seed)` -/
  | setSeed (seed : ℤ)
  /-- `sample(d, n, lclip, rclip)` -/
  | sample (d : Obj (St σ K) K) (n : ℕ) (lc rc : Option (Scalar K))

/-- `set_seed` (rng.py:6-29) replaces the generator and nothing else; `init` is
`np.random.default_rng`. -/
def setSeed (init : ℤ → σ) (seed : ℤ) (s : St σ K) : St σ K := { s with rng := init seed }

/-- Run a program; the results of the `sample` calls (a caller that catches exceptions goes on with
the next call). -/
def runOps (E : Env σ K) (init : ℤ → σ) : List (Op σ K) → St σ K →
    List (Except PyErr (Samples K)) × St σ K
  | [], s => ([], s)
  | .setSeed seed :: ops, s => runOps E init ops (setSeed init seed s)
  | .sample d n lc rc :: ops, s =>
    let r := sampleObj E d n lc rc s
    let q := runOps E init ops r.2
    (r.1 :: q.1, q.2)

end Verif
