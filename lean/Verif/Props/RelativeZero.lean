import Verif.Props.Mixture
import Verif.Model.Sample

/-!
# C02: what is left of a mixture whose relative weights are an array of zeros
-/

namespace Verif

variable {K : Type} [Field K] [LinearOrder K] [FloorRing K] {σ : Type}

/-- **C02**: the mixture without components that `C02_numpy_zero_fails` leaves cannot be sampled: every
`sample(m, n)` raises ValueError, before anything is drawn. -/
theorem C02_empty_mixture_raises (E : Env σ K) (ds : Fin 0 → Obj (St σ K) K) (lc rc : Option (Scalar K))
    (n : ℕ) (s : St σ K) :
    sampleObj E (.mix 0 ds [] lc rc) n none none s = (.error .valueError, s) := by
  cases n with
  | zero => rfl
  | succ n => cases lc <;> cases rc <;> rfl

end Verif
