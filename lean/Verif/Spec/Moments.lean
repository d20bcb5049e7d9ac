import Verif.Spec.Denote
import Verif.Model.IdealSource

/-!
# What many samples tell about a distribution

Written without the sampler's internals: a call of `sample`, the list of numbers it returns, their mean and
their variance as numpy computes them.
-/

namespace Verif.Spec

open MeasureTheory Filter Topology

/-- `np.mean` -/
noncomputable def meanOf (xs : List ℝ) : ℝ := xs.sum / xs.length

/-- `np.var`: the mean squared distance from the mean. -/
noncomputable def varOf (xs : List ℝ) : ℝ := meanOf (xs.map fun x => (x - meanOf xs) ^ 2)

/-- A statistic of `sample(d, n)` tends to `m`: for every `ε`, the chance that sampling fails or that the
statistic is `ε` or more away from `m` tends to 0 as `n` grows. -/
def StatTends {Ω : Type} [MeasurableSpace Ω] (S : IdealSource Ω) (E : Env (ℕ → Ω) ℝ)
    (d : Obj (St (ℕ → Ω) ℝ) ℝ) (stat : List ℝ → ℝ) (m : ℝ) : Prop :=
  ∀ (left : ℕ → ℕ → Option (List (Scalar ℝ))) (ε : ℝ), 0 < ε →
    Tendsto (fun n : ℕ => (Measure.infinitePi fun _ : ℕ => S.law)
      {ω | ¬ ∃ z s' xs, sampleObj E d n none none ⟨ω, left⟩ = (.ok z, s') ∧
        List.Forall₂ IsReal z.toList xs ∧ xs.length = n ∧ |stat xs - m| < ε}) atTop (𝓝 0)

end Verif.Spec
