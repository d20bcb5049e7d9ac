import Verif.Spec.EventLaw
import Verif.Model.FnObj

/-!
# The law of what `sample` is called with: a distribution or a function
-/

namespace Verif.Spec

open MeasureTheory

/-- `SampleLaw L E d μ`: each number `sample(d, n)` returns should have the law `μ`. -/
inductive SampleLaw {σ : Type} (L : Prim ℝ → Option (Measure ℝ)) (E : Env σ ℝ) :
    Obj (St σ ℝ) ℝ → Measure ℝ → Prop
  /-- a distribution -/
  | dist {d : Obj (St σ ℝ) ℝ} {μ : Measure ℝ} : Denotes L d μ → SampleLaw L E d μ
  /-- a function that returns numbers -/
  | number {f : EventFn (St σ ℝ) ℝ Unit} {κ : Unit → Measure ℝ} :
      EventLaw L f κ → SampleLaw L E (f.obj E fun x => .lit (.flt x)) (κ ())
  /-- a function that returns one of finitely many distributions -/
  | choice {k : ℕ} {f : EventFn (St σ ℝ) (Fin k) Unit} {κ : Unit → Measure (Fin k)}
      {ds : Fin k → Obj (St σ ℝ) ℝ} {ν : Fin k → Measure ℝ} :
      EventLaw L f κ → (∀ i, Denotes L (ds i) (ν i)) →
      SampleLaw L E (f.obj E ds) (∑ i, κ () {i} • ν i)

end Verif.Spec
