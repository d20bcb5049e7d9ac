import Verif.Lemmas.DenoteInduct
import Mathlib.Probability.Independence.Basic

/-!
# Helper lemmas: the law of samples with bounds given to the call
-/

namespace Verif

open MeasureTheory ProbabilityTheory Spec

section

variable {Ω : Type} [MeasurableSpace Ω] (S : IdealSource Ω)
  {left : ℕ → ℕ → Option (List (Scalar ℝ))} {E : Env (ℕ → Ω) ℝ}

omit [MeasurableSpace Ω] in
/-- Bounds given to the call act on the samples the call without them returns. -/
theorem sampleObj_bounds {d : Obj (St (ℕ → Ω) ℝ) ℝ} (hown : d.clips = (none, none)) {n : ℕ} (hn : 1 ≤ n)
    (lc rc : Option (Scalar ℝ)) (st : St (ℕ → Ω) ℝ) :
    sampleObj E d n lc rc st
      = SM.bind (sampleObj E d n none none) (fun z => SM.lift (applyClips E.powf lc rc z)) st := by
  have hl : combineL lc (none : Option (Scalar ℝ)) = .ok lc := by cases lc <;> rfl
  have hr : combineR rc (none : Option (Scalar ℝ)) = .ok rc := by cases rc <;> rfl
  unfold sampleObj withClips
  rw [if_neg (by omega), if_neg (by omega), hown]
  have hl0 : combineL (none : Option (Scalar ℝ)) none = .ok none := rfl
  have hr0 : combineR (none : Option (Scalar ℝ)) none = .ok none := rfl
  simp only [hl, hr, hl0, hr0, SM.bind, SM.lift]
  rcases h : rawObj E d n st with ⟨r, st'⟩
  cases r <;> rfl

theorem denotes_bounds (hE : S.Drives E) (hU : S.primLaw (.uniform 0 1) = some unitLaw)
    {d : Obj (St (ℕ → Ω) ℝ) ℝ} {μ : Measure ℝ} (hd : Denotes S.primLaw d μ) (hown : d.clips = (none, none))
    {lc rc : Option (Scalar ℝ)} {lo hi : Option ℝ} (hlo : IsBound lc lo) (hhi : IsBound rc hi) {n : ℕ}
    (hn : 1 ≤ n) :
    IsProbabilityMeasure (μ.map (clamp lo hi)) ∧ DrawsLaw S.law left
      (sampleObj E d n lc rc) (Reads n) (Measure.pi fun _ : Fin n => μ.map (clamp lo hi)) := by
  obtain ⟨hp, h⟩ := denotes_draws S (left := left) hE hU hd
  have hm := measurable_clamp lo hi
  refine ⟨Measure.isProbabilityMeasure_map hm.aemeasurable, ?_⟩
  rw [← map_map_pi n μ _ hm]
  have := (h n hn).bind_lift (h := applyClips E.powf lc rc) (R' := Reads n)
    (fun x i => clamp lo hi (x i)) (measurable_pi_lambda _ fun i => hm.comp (measurable_pi_apply i))
    (Filter.Eventually.of_forall fun x z hz => applyClips_real E.powf hlo hhi hn hz)
  exact this.congr fun ω => sampleObj_bounds hown hn lc rc _

/-- Independent samples from a law on vectors that is a product. -/
theorem DrawsLaw.independent {n : ℕ} {m : SM (ℕ → Ω) ℝ (Samples ℝ)} {μ : Measure ℝ} [IsProbabilityMeasure μ]
    (h : DrawsLaw S.law left m (Reads n) (Measure.pi fun _ : Fin n => μ)) :
    ∃ X : Fin n → (ℕ → Ω) → ℝ, (∀ i, Measurable (X i)) ∧
      (∀ᵐ ω ∂(Measure.infinitePi fun _ : ℕ => S.law), ∃ z s',
        m ⟨ω, left⟩ = (.ok z, s') ∧ Reads n z fun i => X i ω) ∧
      (∀ i, (Measure.infinitePi fun _ : ℕ => S.law).map (X i) = μ) ∧
      iIndepFun X (Measure.infinitePi fun _ : ℕ => S.law) := by
  obtain ⟨F, hF, hmap, hae⟩ := h
  have hX : (streamLaw S.law).map (fun ω => (F ω).1) = Measure.pi fun _ : Fin n => μ := by
    have : (fun ω => (F ω).1) = Prod.fst ∘ F := rfl
    rw [this, ← Measure.map_map measurable_fst hF, hmap, Measure.map_fst_prod]
    simp
  have hXi : ∀ i, (streamLaw S.law).map (fun ω => (F ω).1 i) = μ := by
    intro i
    have : (fun ω => (F ω).1 i) = (fun x : Fin n → ℝ => x i) ∘ fun ω => (F ω).1 := rfl
    rw [this, ← Measure.map_map (measurable_pi_apply i) (by fun_prop), hX, pi_map_eval]
  refine ⟨fun i ω => (F ω).1 i, fun i => by fun_prop, ?_, hXi, ?_⟩
  · filter_upwards [hae] with ω hω
    obtain ⟨a, ha, hR⟩ := hω
    exact ⟨a, _, ha, hR⟩
  · refine (iIndepFun_iff_map_fun_eq_pi_map fun i => by fun_prop).2 ?_
    show (streamLaw S.law).map (fun ω => (F ω).1) = Measure.pi fun i =>
      (streamLaw S.law).map fun ω => (F ω).1 i
    rw [hX]
    congr 1
    funext i
    exact (hXi i).symm

end

end Verif
