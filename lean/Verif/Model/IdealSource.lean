import Verif.Model.Sample
import Verif.Lemmas.Stream
import Verif.Spec.Laws
import Mathlib.Analysis.SpecialFunctions.Pow.Real

/-!
# An ideal random number generator

numpy's generator (rng.py:3) as a source of independent inputs: the global state is the stream of inputs not
yet used, and every number returned is a function of one input of the stream.  numpy's pseudo-random
algorithm is not modelled; this is the idealisation under which the laws of samples are stated.
-/

namespace Verif

open MeasureTheory

/-- The value of a number. -/
def realVal : Scalar ℝ → ℝ
  | .flt x => x
  | .int z => z
  | _ => 0

/-- How requests are answered from one input each; `none` for a request numpy refuses. -/
structure IdealSource (Ω : Type) [MeasurableSpace Ω] where
  law : Measure Ω
  prob : IsProbabilityMeasure law
  answer : Prim ℝ → Option (Ω → Scalar ℝ)
  support : ∀ p q, answer p = some q → ∀ x, p.support (q x)
  meas : ∀ p q, answer p = some q → Measurable fun x => realVal (q x)

variable {Ω : Type} [MeasurableSpace Ω]

instance (S : IdealSource Ω) : IsProbabilityMeasure S.law := S.prob

/-- The law of one number. -/
noncomputable def IdealSource.primLaw (S : IdealSource Ω) (p : Prim ℝ) : Option (Measure ℝ) :=
  (S.answer p).map fun q => S.law.map fun x => realVal (q x)

/-- The generator (rng.py:3): `n` numbers use up `n` inputs. -/
def IdealSource.gen (S : IdealSource Ω) : Gen (ℕ → Ω) ℝ where
  draw p n ω := match S.answer p with
    | none => (.error .valueError, ω)
    | some q => (.ok ((List.range n).map fun i => q (ω i)), fun i => ω (i + n))

/-- The sampler works with this generator, its loops are carried out to their end, and the functions of the
standard library are those of the real numbers: `float ** float` where the result is real (the exponent
natural, or the base positive), `exp`, `log`, and `norm.ppf`. -/
structure IdealSource.Drives (S : IdealSource Ω) (E : Env (ℕ → Ω) ℝ) : Prop where
  gen : E.gen = S.gen
  loops : E.Patient
  powers : ∀ x y : ℝ, (∃ k : ℕ, y = k) ∨ 0 < x ∧ 0 ≤ y → E.powf x y = some (x ^ y)
  exp : E.exp = Real.exp
  log : E.log = Real.log
  ppf : Spec.IsPpf E.ppf

end Verif
