import Verif.Model.Forecast
import Mathlib.MeasureTheory.Constructions.BorelSpace.Real

/-!
# Functions a user writes for `bayesnet` and `sample`

A function that calls `event(p)` (utils.py:335-400), samples distributions with `~d` (distributions.py:89-92),
computes with the results, branches, and returns a value.  `Γ` holds the values computed so far.  A probability
passed to `event` may be computed.  A distribution may be built from sampled values.  Simplification: it may then
depend on them only through something with countably many values (whole numbers, texts, booleans).
-/

namespace Verif

/-- Texts are told apart exactly. -/
instance : MeasurableSpace String := ⊤

instance : DiscreteMeasurableSpace String := ⟨fun _ => trivial⟩

instance : Countable Char := Function.Injective.countable (f := Char.toNat) fun _ _ h => Char.toNat_inj.1 h

instance : Countable String := Function.Injective.countable (f := String.toList) fun _ _ h => String.toList_inj.1 h

/-- The body of such a function. -/
inductive EventFn (S α : Type) [MeasurableSpace α] : (Γ : Type) → [MeasurableSpace Γ] → Type 1
  /-- `return g(...)` -/
  | ret {Γ : Type} [MeasurableSpace Γ] (g : Γ → α) (hg : Measurable g) : EventFn S α Γ
  /-- `b = event(p(...))`, then the rest -/
  | happens {Γ : Type} [MeasurableSpace Γ] (p : Γ → ℝ) (hp : Measurable p) (k : EventFn S α (Γ × Bool)) :
      EventFn S α Γ
  /-- `x = ~d`, then the rest -/
  | draw {Γ : Type} [MeasurableSpace Γ] (d : Obj S ℝ) (k : EventFn S α (Γ × ℝ)) : EventFn S α Γ
  /-- `x = ~d(...)`, where the distribution is built from earlier results, then the rest -/
  | drawFrom {Γ ι : Type} [MeasurableSpace Γ] [MeasurableSpace ι] [Countable ι] [DiscreteMeasurableSpace ι]
      (c : Γ → ι) (hc : Measurable c) (d : ι → Obj S ℝ) (k : EventFn S α (Γ × ℝ)) : EventFn S α Γ
  /-- `t = ~d(...)`, where the sample is a text, then the rest -/
  | text {Γ ι : Type} [MeasurableSpace Γ] [MeasurableSpace ι] [Countable ι] [DiscreteMeasurableSpace ι]
      (c : Γ → ι) (hc : Measurable c) (d : ι → Obj S ℝ) (k : EventFn S α (Γ × String)) : EventFn S α Γ
  /-- `if c(...): ... else: ...` -/
  | ite {Γ : Type} [MeasurableSpace Γ] (c : Γ → Bool) (hc : Measurable c) (k₁ k₂ : EventFn S α Γ) :
      EventFn S α Γ

/-- A number returned by `~d`. -/
def Samples.real? : Samples ℝ → Except PyErr ℝ
  | .scalar (.flt x) => .ok x
  | .scalar (.int z) => .ok z
  | _ => .error .unmodelled

/-- A text returned by `~d`. -/
def Samples.text? : Samples ℝ → Except PyErr String
  | .scalar (.str t) => .ok t
  | _ => .error .unmodelled

variable {σ α : Type} [MeasurableSpace α]

/-- Run the function: `event(p)` is utils.py:335-400, `~d` is `sample(d)` (distributions.py:89-92). -/
noncomputable def EventFn.run (E : Env σ ℝ) {Γ : Type} [MeasurableSpace Γ] :
    EventFn (St σ ℝ) α Γ → Γ → SM σ ℝ α
  | .ret g _, γ => SM.pure (g γ)
  | .happens p _ k, γ => SM.bind (eventOccurs E (.lit (.flt (p γ)))) fun b => k.run E (γ, b)
  | .draw d k, γ => SM.bind (sampleObj E d 1 none none) fun z =>
      SM.bind (SM.lift z.real?) fun x => k.run E (γ, x)
  | @EventFn.drawFrom _ _ _ _ _ _ _ _ _ c _ d k, γ => SM.bind (sampleObj E (d (c γ)) 1 none none) fun z =>
      SM.bind (SM.lift z.real?) fun x => k.run E (γ, x)
  | @EventFn.text _ _ _ _ _ _ _ _ _ c _ d k, γ => SM.bind (sampleObj E (d (c γ)) 1 none none) fun z =>
      SM.bind (SM.lift z.text?) fun t => k.run E (γ, t)
  | .ite c _ k₁ k₂, γ => if c γ then k₁.run E γ else k₂.run E γ

end Verif
