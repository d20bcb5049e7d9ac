import Mathlib.MeasureTheory.Measure.GiryMonad
import Mathlib.MeasureTheory.Measure.Prod
import Mathlib.Data.Int.Interval

/-!
# The law of an exploding die

A fair die with faces `1, …, s`.  When it shows one of the faces in `explode` it is rolled again and the new
result is added.
-/

namespace Verif.Spec

open MeasureTheory

/-- One roll of a fair die: every face has the chance `1/s`. -/
noncomputable def dieLaw (s : ℤ) : Measure ℝ :=
  ∑ t ∈ Finset.Icc 1 s, ENNReal.ofReal (1 / s) • Measure.dirac (t : ℝ)

/-- Roll once; if the face is one of those in `explode`, add an independent result of the same kind. -/
structure IsExplodingLaw (s : ℤ) (explode : List ℤ) (μ : Measure ℝ) : Prop where
  prob : IsProbabilityMeasure μ
  eq : μ = ∑ t ∈ Finset.Icc 1 s, ENNReal.ofReal (1 / s) •
    (if t ∈ explode then μ.map fun x => (t : ℝ) + x else Measure.dirac (t : ℝ))

end Verif.Spec
