import Verif.Model.EventFn

/-!
# A user's function as an argument of `sample`

`sample(f, n)` calls the function `n` times, then samples the distributions it returned
(samplers.py:1076-1101).
-/

namespace Verif

variable {σ α : Type} [MeasurableSpace α]

/-- The function `f`, whose value `a` stands for the Python object `val a` (a number or a distribution), as
something `sample` can be called with (samplers.py:1076-1101).  In a state where the function raises, there is
no returned object; the number given there is never used. -/
noncomputable def EventFn.obj (E : Env σ ℝ) (f : EventFn (St σ ℝ) α Unit) (val : α → Obj (St σ ℝ) ℝ) :
    Obj (St σ ℝ) ℝ :=
  .call
    (fun s => match (f.run E () s).1 with | .error e => some e | .ok _ => none)
    (fun s => match (f.run E () s).1 with | .error _ => .lit (.flt 0) | .ok a => val a)
    (fun s => (f.run E () s).2)

end Verif
