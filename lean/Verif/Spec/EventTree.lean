import Verif.Spec.EventLaw
import Verif.Spec.Outcomes
import Verif.Spec.NumpyLaws

/-!
# Following the branches of an event function

An event function whose events and samples have finitely many outcomes can be worked out by hand: follow every
branch and multiply the chances on the way.
-/

namespace Verif.Spec

open MeasureTheory

/-- `LeavesAre f γ t`: with the values `γ` computed so far, `t` lists the values the rest `f` of the function can
return, one entry for every branch, each with the product of the chances on the way. -/
inductive LeavesAre {S α : Type} [MeasurableSpace α] :
    {Γ : Type} → [MeasurableSpace Γ] → EventFn S α Γ → Γ → List (α × ℝ) → Prop
  /-- a value that is already known -/
  | ret {Γ : Type} [MeasurableSpace Γ] {g : Γ → α} (hg : Measurable g) {γ : Γ} :
      LeavesAre (.ret g hg) γ [(g γ, 1)]
  /-- `event(p)`: two branches -/
  | happens {Γ : Type} [MeasurableSpace Γ] {p : Γ → ℝ} (hp : Measurable p) {k : EventFn S α (Γ × Bool)} {γ : Γ}
      {t : Bool → List (α × ℝ)} : 0 ≤ p γ → p γ ≤ 1 → (∀ b, LeavesAre k (γ, b) (t b)) →
      LeavesAre (.happens p hp k) γ
        ((t true).map (fun e => (e.1, p γ * e.2)) ++ (t false).map fun e => (e.1, (1 - p γ) * e.2))
  /-- `~d`: a branch for every outcome of `d` -/
  | draw {Γ : Type} [MeasurableSpace Γ] {d : Obj S ℝ} {u : List (ℝ × ℝ)} {k : EventFn S α (Γ × ℝ)} {γ : Γ}
      {t : ℝ → List (α × ℝ)} : OutcomesAre d u → (∀ v w, (v, w) ∈ u → LeavesAre k (γ, v) (t v)) →
      LeavesAre (.draw d k) γ (u.flatMap fun x => (t x.1).map fun e => (e.1, x.2 * e.2))
  /-- likewise if the distribution is built from earlier results -/
  | drawFrom {Γ ι : Type} [MeasurableSpace Γ] [MeasurableSpace ι] [Countable ι] [DiscreteMeasurableSpace ι]
      {c : Γ → ι} (hc : Measurable c) {d : ι → Obj S ℝ} {u : List (ℝ × ℝ)} {k : EventFn S α (Γ × ℝ)} {γ : Γ}
      {t : ℝ → List (α × ℝ)} : OutcomesAre (d (c γ)) u → (∀ v w, (v, w) ∈ u → LeavesAre k (γ, v) (t v)) →
      LeavesAre (.drawFrom c hc d k) γ (u.flatMap fun x => (t x.1).map fun e => (e.1, x.2 * e.2))
  /-- likewise for texts -/
  | text {Γ ι : Type} [MeasurableSpace Γ] [MeasurableSpace ι] [Countable ι] [DiscreteMeasurableSpace ι]
      {c : Γ → ι} (hc : Measurable c) {d : ι → Obj S ℝ} {u : List (String × ℝ)} {k : EventFn S α (Γ × String)}
      {γ : Γ} {t : String → List (α × ℝ)} : TextLaw numpyLaw (d (c γ)) u →
      (∀ v w, (v, w) ∈ u → LeavesAre k (γ, v) (t v)) →
      LeavesAre (.text c hc d k) γ (u.flatMap fun x => (t x.1).map fun e => (e.1, x.2 * e.2))
  /-- `if`: the branch that is taken -/
  | ite {Γ : Type} [MeasurableSpace Γ] {c : Γ → Bool} (hc : Measurable c) {k₁ k₂ : EventFn S α Γ} {γ : Γ}
      {t : List (α × ℝ)} : LeavesAre (if c γ then k₁ else k₂) γ t → LeavesAre (.ite c hc k₁ k₂) γ t

/-- The chance that the returned value meets a condition: the sum over the branches that do. -/
def branchChance {α : Type} (t : List (α × ℝ)) (q : α → Bool) : ℝ := ((t.filter fun e => q e.1).map Prod.snd).sum

/-- The sum of a function of the returned value times the chance, over the branches that meet a condition. -/
def branchSum {α : Type} (t : List (α × ℝ)) (q : α → Bool) (f : α → ℝ) : ℝ :=
  ((t.filter fun e => q e.1).map fun e => e.2 * f e.1).sum

end Verif.Spec
