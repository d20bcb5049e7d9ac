import Verif.Model.EventFn
import Verif.Spec.Denote

/-!
# The law of the value a user's function returns
-/

namespace Verif.Spec

open MeasureTheory

/-- `TextLaw L d t`: a sample of `d` is one of the listed texts, with the listed chance. -/
inductive TextLaw {S : Type} (L : Prim ℝ → Option (Measure ℝ)) : Obj S ℝ → List (String × ℝ) → Prop
  /-- a coin, if the two numbers numpy chooses from are equally likely -/
  | coin : L (.integers 0 2) = some ((2 : ENNReal)⁻¹ • (Measure.dirac 0 + Measure.dirac 1)) →
      TextLaw L (.leaf .coin none none) [("tails", 1 / 2), ("heads", 1 / 2)]
  /-- `discrete(['a', …])`: every item has the same chance -/
  | items {ts : List String} : ts ≠ [] →
      TextLaw L (.leaf (.categorical (.list (ts.map fun t => .plain (.str t)))) none none)
        (ts.map fun t => (t, 1 / (ts.length : ℝ)))
  /-- `discrete({'a': w, …})` -/
  | table {ts : List String} {ws : List ℝ} : ws.length = ts.length → (∀ w ∈ ws, 0 < w) → ws.sum = 1 →
      TextLaw L (.leaf (.categorical (.dict ((ts.zip ws).map fun p => (.str p.1, some p.2)))) none none)
        (ts.zip ws)

/-- The chance that `event(p)` is true: `p` if that is a probability; never below 0, always above 1. -/
noncomputable def eventChance (p : ℝ) : ℝ := max 0 (min p 1)

/-- `EventLaw L f κ`: with the values `γ` computed so far, the rest `f` of the function returns a value with
the law `κ γ`. -/
inductive EventLaw {S α : Type} [MeasurableSpace α] (L : Prim ℝ → Option (Measure ℝ)) :
    {Γ : Type} → [MeasurableSpace Γ] → EventFn S α Γ → (Γ → Measure α) → Prop
  /-- a value that is already known -/
  | ret {Γ : Type} [MeasurableSpace Γ] {g : Γ → α} (hg : Measurable g) :
      EventLaw L (.ret g hg) fun γ => Measure.dirac (g γ)
  /-- `event(p)` is true with probability `p`; `p` may be any computed number -/
  | event {Γ : Type} [MeasurableSpace Γ] {p : Γ → ℝ} (hp : Measurable p) {k : EventFn S α (Γ × Bool)}
      {κ : Γ × Bool → Measure α} : EventLaw L k κ →
      EventLaw L (.happens p hp k) fun γ =>
        ENNReal.ofReal (eventChance (p γ)) • κ (γ, true) + ENNReal.ofReal (1 - eventChance (p γ)) • κ (γ, false)
  /-- `~d` has the law `d` stands for -/
  | draw {Γ : Type} [MeasurableSpace Γ] {d : Obj S ℝ} {μ : Measure ℝ} {k : EventFn S α (Γ × ℝ)}
      {κ : Γ × ℝ → Measure α} : Denotes L d μ → EventLaw L k κ →
      EventLaw L (.draw d k) fun γ => μ.bind fun x => κ (γ, x)
  /-- likewise if the distribution is built from earlier results -/
  | drawFrom {Γ ι : Type} [MeasurableSpace Γ] [MeasurableSpace ι] [Countable ι] [DiscreteMeasurableSpace ι]
      {c : Γ → ι} (hc : Measurable c) {d : ι → Obj S ℝ} {μ : ι → Measure ℝ} {k : EventFn S α (Γ × ℝ)}
      {κ : Γ × ℝ → Measure α} : (∀ i, Denotes L (d i) (μ i)) → EventLaw L k κ →
      EventLaw L (.drawFrom c hc d k) fun γ => (μ (c γ)).bind fun x => κ (γ, x)
  /-- likewise if the sample is a text -/
  | text {Γ ι : Type} [MeasurableSpace Γ] [MeasurableSpace ι] [Countable ι] [DiscreteMeasurableSpace ι]
      {c : Γ → ι} (hc : Measurable c) {d : ι → Obj S ℝ} {t : ι → List (String × ℝ)}
      {k : EventFn S α (Γ × String)} {κ : Γ × String → Measure α} : (∀ i, TextLaw L (d i) (t i)) →
      EventLaw L k κ →
      EventLaw L (.text c hc d k) fun γ => ((t (c γ)).map fun p => ENNReal.ofReal p.2 • κ (γ, p.1)).sum
  /-- a branch -/
  | ite {Γ : Type} [MeasurableSpace Γ] {c : Γ → Bool} (hc : Measurable c) {k₁ k₂ : EventFn S α Γ}
      {κ₁ κ₂ : Γ → Measure α} : EventLaw L k₁ κ₁ → EventLaw L k₂ κ₂ →
      EventLaw L (.ite c hc k₁ k₂) fun γ => if c γ then κ₁ γ else κ₂ γ

/-- A number that is always a probability. -/
theorem EventLaw.happens {S α : Type} [MeasurableSpace α] {L : Prim ℝ → Option (Measure ℝ)} {Γ : Type}
    [MeasurableSpace Γ] {p : Γ → ℝ} (hp : Measurable p) {k : EventFn S α (Γ × Bool)} {κ : Γ × Bool → Measure α}
    (h01 : ∀ γ, 0 ≤ p γ ∧ p γ ≤ 1) (hk : EventLaw L k κ) :
    EventLaw L (.happens p hp k) fun γ =>
      ENNReal.ofReal (p γ) • κ (γ, true) + ENNReal.ofReal (1 - p γ) • κ (γ, false) := by
  have h := EventLaw.event hp hk
  have e : ∀ γ, eventChance (p γ) = p γ := fun γ => by
    rw [eventChance, min_eq_left (h01 γ).2, max_eq_right (h01 γ).1]
  simpa only [e] using h

end Verif.Spec
