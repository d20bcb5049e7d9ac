import Verif.Spec.Moments
import Mathlib.Probability.Distributions.Gaussian.Real

/-!
# How accurate an estimate from samples is
-/

namespace Verif.Spec

open MeasureTheory ProbabilityTheory

/-- The chance that `sample(d, n)` succeeds and its `n` numbers have the property `Q`. -/
noncomputable def sampleChance {Ω : Type} [MeasurableSpace Ω] (S : IdealSource Ω) (E : Env (ℕ → Ω) ℝ)
    (d : Obj (St (ℕ → Ω) ℝ) ℝ) (left : ℕ → ℕ → Option (List (Scalar ℝ))) (n : ℕ) (Q : List ℝ → Prop) : ENNReal :=
  (Measure.infinitePi fun _ : ℕ => S.law)
    {ω | ∃ z s' xs, sampleObj E d n none none ⟨ω, left⟩ = (.ok z, s') ∧ List.Forall₂ IsReal z.toList xs ∧
      xs.length = n ∧ Q xs}

/-- The chance that a standard normal variable lies in the set. -/
noncomputable def normalChance (A : Set ℝ) : ENNReal := gaussianReal 0 1 A

/-- The standard error of an average: `np.std(xs) / np.sqrt(len(xs))`. -/
noncomputable def stdError (xs : List ℝ) : ℝ := √(varOf xs) / √(xs.length : ℝ)

end Verif.Spec
