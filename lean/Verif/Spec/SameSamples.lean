import Verif.Spec.Denote
import Verif.Model.IdealSource

/-!
# Two distributions that cannot be told apart by sampling them
-/

namespace Verif.Spec

open MeasureTheory

/-- Sampling `a` and sampling `b` almost surely succeed and give vectors of numbers with the same law, for every
number of samples. -/
def SameSamples {Ω : Type} [MeasurableSpace Ω] (S : IdealSource Ω) (E : Env (ℕ → Ω) ℝ)
    (a b : Obj (St (ℕ → Ω) ℝ) ℝ) : Prop :=
  ∀ n : ℕ, 1 ≤ n → ∀ left : ℕ → ℕ → Option (List (Scalar ℝ)),
    ∃ X Y : (ℕ → Ω) → Fin n → ℝ, Measurable X ∧ Measurable Y ∧
      (∀ᵐ ω ∂(Measure.infinitePi fun _ : ℕ => S.law), ∃ z s',
        sampleObj E a n none none ⟨ω, left⟩ = (.ok z, s') ∧ Reads n z (X ω)) ∧
      (∀ᵐ ω ∂(Measure.infinitePi fun _ : ℕ => S.law), ∃ z s',
        sampleObj E b n none none ⟨ω, left⟩ = (.ok z, s') ∧ Reads n z (Y ω)) ∧
      (Measure.infinitePi fun _ : ℕ => S.law).map X = (Measure.infinitePi fun _ : ℕ => S.law).map Y

end Verif.Spec
