import Verif.Lemmas.FnObj
import Verif.Props.Denote

/-!
# C91: `sample(f, n)` for a function `f` the user wrote

The generator is an ideal source of randomness.  `EventLaw` (`Spec/EventLaw.lean`) says which law the value of
a function has.
-/

namespace Verif

open MeasureTheory ProbabilityTheory Spec

section

variable {Ω : Type} [MeasurableSpace Ω] (S : IdealSource Ω) {E : Env (ℕ → Ω) ℝ} (hE : S.Drives E)
  (hU : S.primLaw (.uniform 0 1) = some (volume.restrict (Set.Ico 0 1)))

omit hE hU in
/-- From the law of a whole array to its components. -/
theorem DrawsLaw.components {m : SM (ℕ → Ω) ℝ (Samples ℝ)} {n : ℕ} {μ : Measure ℝ} [IsProbabilityMeasure μ]
    {left : ℕ → ℕ → Option (List (Scalar ℝ))}
    (h : DrawsLaw S.law left m (Reads n) (Measure.pi fun _ : Fin n => μ)) :
    ∃ X : Fin n → (ℕ → Ω) → ℝ, (∀ i, Measurable (X i)) ∧
      (∀ᵐ ω ∂(Measure.infinitePi fun _ : ℕ => S.law), ∃ z s', m ⟨ω, left⟩ = (.ok z, s') ∧
        Reads n z fun i => X i ω) ∧
      (∀ i, (Measure.infinitePi fun _ : ℕ => S.law).map (X i) = μ) ∧
      iIndepFun X (Measure.infinitePi fun _ : ℕ => S.law) := by
  obtain ⟨F, hF, hmap, hae⟩ := h
  have hX : (streamLaw S.law).map (fun ω => (F ω).1) = Measure.pi fun _ : Fin n => μ := by
    have : (fun ω => (F ω).1) = Prod.fst ∘ F := rfl
    rw [this, ← Measure.map_map measurable_fst hF, hmap, Measure.map_fst_prod]
    simp
  obtain ⟨hlaw, hind⟩ := iIndep_of_pi (P := streamLaw S.law) (X := fun ω => (F ω).1) (by fun_prop) hX
  refine ⟨fun i ω => (F ω).1 i, fun i => by fun_prop, hae.mono fun ω hω => ?_, hlaw, hind⟩
  obtain ⟨z, hz, hR⟩ := hω
  exact ⟨z, _, hz, hR⟩

include hE hU

/-- **C91**: for a function `f` that returns numbers, `sample(f, n)` almost surely succeeds, and its `n`
numbers are independent, each with the law of the function's value. -/
theorem C91_numbers {f : EventFn (St (ℕ → Ω) ℝ) ℝ Unit} {κ : Unit → Measure ℝ} (hf : EventLaw S.primLaw f κ)
    {n : ℕ} (hn : 1 ≤ n) (left : ℕ → ℕ → Option (List (Scalar ℝ))) :
    IsProbabilityMeasure (κ ()) ∧ ∃ X : Fin n → (ℕ → Ω) → ℝ, (∀ i, Measurable (X i)) ∧
      (∀ᵐ ω ∂(Measure.infinitePi fun _ : ℕ => S.law), ∃ z s',
        sampleObj E (f.obj E fun x => .lit (.flt x)) n none none ⟨ω, left⟩ = (.ok z, s') ∧
        Reads n z fun i => X i ω) ∧
      (∀ i, (Measure.infinitePi fun _ : ℕ => S.law).map (X i) = κ ()) ∧
      iIndepFun X (Measure.infinitePi fun _ : ℕ => S.law) := by
  obtain ⟨hp, h⟩ := fnObj_number_law S (left := left) hE hU hf hn
  exact ⟨hp, DrawsLaw.components S h⟩

/-- **C91**: for a function `f` that returns one of the distributions `ds 0, …, ds (k-1)`, `sample(f, n)`
almost surely succeeds, and its `n` numbers are independent, each with the mixture of the laws of the `ds i`,
weighted with the probability that `f` returns `ds i`. -/
theorem C91_distributions {k : ℕ} {f : EventFn (St (ℕ → Ω) ℝ) (Fin k) Unit} {κ : Unit → Measure (Fin k)}
    (hf : EventLaw S.primLaw f κ) {ds : Fin k → Obj (St (ℕ → Ω) ℝ) ℝ} {ν : Fin k → Measure ℝ}
    (hds : ∀ i, Denotes S.primLaw (ds i) (ν i)) {n : ℕ} (hn : 1 ≤ n)
    (left : ℕ → ℕ → Option (List (Scalar ℝ))) :
    IsProbabilityMeasure (∑ i, κ () {i} • ν i) ∧ ∃ X : Fin n → (ℕ → Ω) → ℝ, (∀ i, Measurable (X i)) ∧
      (∀ᵐ ω ∂(Measure.infinitePi fun _ : ℕ => S.law), ∃ z s',
        sampleObj E (f.obj E ds) n none none ⟨ω, left⟩ = (.ok z, s') ∧ Reads n z fun i => X i ω) ∧
      (∀ i, (Measure.infinitePi fun _ : ℕ => S.law).map (X i) = ∑ i, κ () {i} • ν i) ∧
      iIndepFun X (Measure.infinitePi fun _ : ℕ => S.law) := by
  obtain ⟨hp, h⟩ := fnObj_dist_law S (left := left) hE hU hf hds hn
  exact ⟨hp, DrawsLaw.components S h⟩

/-- **C91**: the fraction of the numbers returned by `sample(f, n)` that satisfy `q` is within `ε` of the
probability that the function's value does, except with probability at most `2 exp(-2 n ε²)`. -/
theorem C91_frequency {f : EventFn (St (ℕ → Ω) ℝ) ℝ Unit} {κ : Unit → Measure ℝ} (hf : EventLaw S.primLaw f κ)
    (q : ℝ → Bool) (hA : MeasurableSet {x | q x = true}) {n : ℕ} (hn : 1 ≤ n)
    (left : ℕ → ℕ → Option (List (Scalar ℝ))) {ε : ℝ} (hε : 0 < ε) :
    (Measure.infinitePi fun _ : ℕ => S.law).real
      {ω | ¬ ∃ z s' xs, sampleObj E (f.obj E fun x => .lit (.flt x)) n none none ⟨ω, left⟩ = (.ok z, s') ∧
        List.Forall₂ IsReal z.toList xs ∧
        |((xs.countP q : ℕ) : ℝ) / n - (κ ()).real {x | q x = true}| < ε}
      ≤ 2 * Real.exp (-2 * n * ε ^ 2) := by
  obtain ⟨hp, X, hX, hae, hlaw, hind⟩ := C91_numbers S hE hU hf hn left
  have hb := frequency_bound hn hX hlaw hind q hA hε
  refine le_trans (ENNReal.toReal_mono (measure_ne_top _ _) (measure_mono_ae ?_)) hb
  filter_upwards [hae] with ω hω hbad
  obtain ⟨z, s', hz, hR⟩ := hω
  by_contra hlt
  exact hbad ⟨z, s', _, hz, hR.2, not_le.1 hlt⟩

end

/-! ## Examples -/

/-- `x = ~norm(mean=1, sd=2); return x if event(0.3) else 0` -/
noncomputable def demoNumberFn : EventFn (St (ℕ → ℝ × ℝ) ℝ) ℝ Unit :=
  .draw (.leaf (.normal 1 2) none none)
    (.happens (fun _ => 3 / 10) measurable_const
      (.ite (fun γ => γ.2) measurable_snd
        (.ret (fun γ => γ.1.2) (by fun_prop)) (.ret (fun _ => 0) measurable_const)))

theorem demoNumberFn_law : EventLaw demoSource.primLaw demoNumberFn fun _ => (normalLaw 1 2).bind fun x =>
    ENNReal.ofReal (3 / 10) • Measure.dirac x + ENNReal.ofReal (1 - 3 / 10) • Measure.dirac (0 : ℝ) := by
  have h := EventLaw.draw (Γ := Unit) (denotes_normal (T := St (ℕ → ℝ × ℝ) ℝ)
      (demoSource_normal 1 (s := 2) (by norm_num)))
    (.happens (p := fun _ => 3 / 10) measurable_const (fun _ => by norm_num)
      (.ite (c := fun γ : (Unit × ℝ) × Bool => γ.2) measurable_snd (.ret (g := fun γ => γ.1.2) (by fun_prop))
        (.ret (g := fun _ => (0 : ℝ)) measurable_const)))
  simp only [Bool.false_eq_true, if_true, if_false] at h
  exact h

/-- 30% of the samples, roughly, are not zero. -/
example : ∃ X : Fin 500 → (ℕ → ℝ × ℝ) → ℝ,
    (∀ᵐ ω ∂(Measure.infinitePi fun _ : ℕ => demoSource.law), ∃ z s',
      sampleObj idealEnv (demoNumberFn.obj idealEnv fun x => .lit (.flt x)) 500 none none ⟨ω, fun _ _ => none⟩
        = (.ok z, s') ∧ Reads 500 z fun i => X i ω) ∧
    iIndepFun X (Measure.infinitePi fun _ : ℕ => demoSource.law) := by
  obtain ⟨-, X, -, h1, -, h2⟩ := C91_numbers demoSource (E := idealEnv) idealEnv_driven demoSource_uniform demoNumberFn_law
    (n := 500) (by norm_num) fun _ _ => none
  exact ⟨X, h1, h2⟩

/-- `return norm(mean=1, sd=2) if event(0.3) else 7` -/
noncomputable def demoChoice : EventFn (St (ℕ → ℝ × ℝ) ℝ) (Fin 2) Unit :=
  .happens (fun _ => 3 / 10) measurable_const
    (.ret (fun γ => if γ.2 then 0 else 1) (measurable_of_finite _))

theorem demoChoice_law : EventLaw demoSource.primLaw demoChoice fun _ =>
    ENNReal.ofReal (3 / 10) • Measure.dirac 0 + ENNReal.ofReal (1 - 3 / 10) • Measure.dirac 1 :=
  .happens (Γ := Unit) (p := fun _ => 3 / 10) measurable_const (fun _ => by norm_num)
    (.ret (g := fun γ : Unit × Bool => if γ.2 then (0 : Fin 2) else 1) (measurable_of_finite _))

example : ∃ X : Fin 500 → (ℕ → ℝ × ℝ) → ℝ,
    (∀ᵐ ω ∂(Measure.infinitePi fun _ : ℕ => demoSource.law), ∃ z s',
      sampleObj idealEnv (demoChoice.obj idealEnv ![.leaf (.normal 1 2) none none, .lit (.int 7)]) 500 none none
        ⟨ω, fun _ _ => none⟩ = (.ok z, s') ∧ Reads 500 z fun i => X i ω) ∧
    (∀ i, (Measure.infinitePi fun _ : ℕ => demoSource.law).map (X i)
      = ENNReal.ofReal (3 / 10) • normalLaw 1 2 + ENNReal.ofReal (7 / 10) • Measure.dirac 7) := by
  obtain ⟨-, X, -, h1, h2, -⟩ := C91_distributions demoSource (E := idealEnv) idealEnv_driven demoSource_uniform
    demoChoice_law (ds := ![.leaf (.normal 1 2) none none, .lit (.int 7)]) (ν := ![normalLaw 1 2, Measure.dirac 7])
    (Fin.forall_fin_two.2 ⟨denotes_normal (demoSource_normal 1 (by norm_num)),
      .lit (Or.inr ⟨7, rfl, by simp⟩)⟩) (n := 500) (by norm_num) fun _ _ => none
  refine ⟨X, h1, fun i => ?_⟩
  rw [h2, Fin.sum_univ_two]
  simp
  norm_num

end Verif
