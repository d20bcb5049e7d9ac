import Verif.Props.FnSample
import Verif.Spec.SampleLaw

/-!
# C92: the numbers of a whole series of `sample` calls are independent

The calls `sample(d 0, n 0)`, …, `sample(d (k-1), n (k-1))` one after the other, with an ideal source of
randomness.  The same distribution may occur several times.
-/

namespace Verif

open MeasureTheory ProbabilityTheory Spec

theorem measurable_cons' (k : ℕ) {X : Fin (k + 1) → Type} [∀ i, MeasurableSpace (X i)] :
    Measurable fun p : X 0 × (∀ i : Fin k, X i.succ) => (Fin.cons p.1 p.2 : ∀ i, X i) := by
  refine measurable_pi_lambda _ fun i => ?_
  refine Fin.cases ?_ (fun j => ?_) i
  · exact measurable_fst
  · exact (measurable_pi_apply j).comp measurable_snd

/-- Put a value in front of a vector whose entries have different types. -/
theorem map_cons_pi' (k : ℕ) {X : Fin (k + 1) → Type} [∀ i, MeasurableSpace (X i)]
    (μ : ∀ i, Measure (X i)) [∀ i, IsProbabilityMeasure (μ i)] :
    ((μ 0).prod (Measure.pi fun i : Fin k => μ i.succ)).map (fun p => (Fin.cons p.1 p.2 : ∀ i, X i))
      = Measure.pi μ := by
  refine (Measure.pi_eq fun A hA => ?_).symm
  rw [Measure.map_apply (measurable_cons' k) (MeasurableSet.univ_pi hA)]
  have e : (fun p : X 0 × (∀ i : Fin k, X i.succ) => (Fin.cons p.1 p.2 : ∀ i, X i)) ⁻¹' Set.pi Set.univ A
      = A 0 ×ˢ Set.pi Set.univ fun i : Fin k => A i.succ := by
    ext p
    simp only [Set.mem_preimage, Set.mem_pi, Set.mem_univ, true_implies, Set.mem_prod]
    rw [Fin.forall_fin_succ]
    rfl
  rw [e, Measure.prod_prod, Measure.pi_pi, Fin.prod_univ_succ]

/-- A user's script: one program after the other (no code of the library). -/
def runAll {σ A : Type} : {k : ℕ} → (Fin k → SM σ ℝ A) → SM σ ℝ (Fin k → A)
  | 0, _ => SM.pure Fin.elim0
  | _ + 1, m => SM.bind (m 0) fun a => SM.bind (runAll fun i => m i.succ) fun as => SM.pure (Fin.cons a as)

section

variable {Ω : Type} [MeasurableSpace Ω] (S : IdealSource Ω) {left : ℕ → ℕ → Option (List (Scalar ℝ))}

theorem runAll_law {A : Type} {k : ℕ} {X : Fin k → Type} [∀ i, MeasurableSpace (X i)]
    {m : Fin k → SM (ℕ → Ω) ℝ A} {R : ∀ i, A → X i → Prop} {μ : ∀ i, Measure (X i)}
    [∀ i, IsProbabilityMeasure (μ i)] (h : ∀ i, DrawsLaw S.law left (m i) (R i) (μ i)) :
    DrawsLaw S.law left (runAll m) (fun as x => ∀ i, R i (as i) (x i)) (Measure.pi μ) := by
  induction k with
  | zero =>
    rw [Measure.pi_of_empty μ fun i => i.elim0]
    exact DrawsLaw.pure fun i => i.elim0
  | succ k ih =>
    have := ((h 0).pair (ih fun i => h i.succ)).bind_lift
      (h := fun c : A × (Fin k → A) => .ok (Fin.cons c.1 c.2 : Fin (k + 1) → A))
      (R' := fun as (x : ∀ i, X i) => ∀ i, R i (as i) (x i))
      (fun p => (Fin.cons p.1 p.2 : ∀ i, X i)) (measurable_cons' k)
      (Filter.Eventually.of_forall fun p c hc => ⟨_, rfl, fun i => by
        refine Fin.cases ?_ (fun j => ?_) i
        · exact hc.1
        · exact hc.2 j⟩)
    rw [map_cons_pi' k μ] at this
    refine this.congr fun ω => ?_
    simp only [runAll, SM.bind, SM.pure, SM.lift]
    cases m 0 ⟨ω, left⟩ with
    | mk r s =>
      cases r with
      | error e => rfl
      | ok a =>
        dsimp only
        cases runAll (fun i => m i.succ) s with
        | mk r' s' => cases r' <;> rfl

variable {E : Env (ℕ → Ω) ℝ} (hE : S.Drives E)
  (hU : S.primLaw (.uniform 0 1) = some (volume.restrict (Set.Ico 0 1)))

include hE hU

/-- What `sample` returns has the law. -/
theorem sampleLaw_draws {d : Obj (St (ℕ → Ω) ℝ) ℝ} {μ : Measure ℝ} (hd : SampleLaw S.primLaw E d μ) {n : ℕ}
    (hn : 1 ≤ n) : IsProbabilityMeasure μ ∧
      DrawsLaw S.law left (sampleObj E d n none none) (Reads n) (Measure.pi fun _ : Fin n => μ) := by
  cases hd with
  | dist h =>
    obtain ⟨h1, h2⟩ := denotes_draws S (left := left) hE hU h
    exact ⟨h1, h2 n hn⟩
  | number h => exact fnObj_number_law S hE hU h hn
  | choice h h' => exact fnObj_dist_law S hE hU h h' hn

/-- **C92**: a series of `k` calls `sample(d i, n i)` almost surely succeeds; all numbers returned by all calls
together are independent, and those of call `i` have the law of `d i`. -/
theorem C92_series {k : ℕ} {d : Fin k → Obj (St (ℕ → Ω) ℝ) ℝ} {μ : Fin k → Measure ℝ}
    (hd : ∀ i, SampleLaw S.primLaw E (d i) (μ i)) {n : Fin k → ℕ} (hn : ∀ i, 1 ≤ n i)
    (left : ℕ → ℕ → Option (List (Scalar ℝ))) :
    ∃ X : (i : Fin k) → Fin (n i) → (ℕ → Ω) → ℝ, (∀ i j, Measurable (X i j)) ∧
      (∀ᵐ ω ∂(Measure.infinitePi fun _ : ℕ => S.law), ∃ zs s',
        runAll (fun i => sampleObj E (d i) (n i) none none) ⟨ω, left⟩ = (.ok zs, s') ∧
        ∀ i, Reads (n i) (zs i) fun j => X i j ω) ∧
      (∀ i j, (Measure.infinitePi fun _ : ℕ => S.law).map (X i j) = μ i) ∧
      iIndepFun (fun p : Σ i, Fin (n i) => X p.1 p.2) (Measure.infinitePi fun _ : ℕ => S.law) := by
  have hp : ∀ i, IsProbabilityMeasure (μ i) := fun i => (sampleLaw_draws S (left := left) hE hU (hd i) (hn i)).1
  obtain ⟨F, hF, hmap, hae⟩ := runAll_law S (X := fun i => Fin (n i) → ℝ)
    (μ := fun i => Measure.pi fun _ : Fin (n i) => μ i) (R := fun i => Reads (n i))
    fun i => (sampleLaw_draws S (left := left) hE hU (hd i) (hn i)).2
  have hX : (streamLaw S.law).map (fun ω => (F ω).1)
      = Measure.pi fun i => Measure.pi fun _ : Fin (n i) => μ i := by
    have : (fun ω => (F ω).1) = Prod.fst ∘ F := rfl
    rw [this, ← Measure.map_map measurable_fst hF, hmap, Measure.map_fst_prod]
    simp
  have hXi : ∀ i, (streamLaw S.law).map (fun ω => (F ω).1 i) = Measure.pi fun _ : Fin (n i) => μ i := by
    intro i
    have e : (fun ω => (F ω).1 i) = (fun x : ∀ i, Fin (n i) → ℝ => x i) ∘ fun ω => (F ω).1 := rfl
    rw [e, ← Measure.map_map (measurable_pi_apply i) (by fun_prop), hX]
    simpa using (measurePreserving_eval (fun i => Measure.pi fun _ : Fin (n i) => μ i) i).map_eq
  have hin : ∀ i, (∀ j, (streamLaw S.law).map (fun ω => (F ω).1 i j) = μ i) ∧
      iIndepFun (fun j ω => (F ω).1 i j) (streamLaw S.law) := fun i =>
    iIndep_of_pi (P := streamLaw S.law) (X := fun ω => (F ω).1 i) (by fun_prop) (hXi i)
  have hout : iIndepFun (fun i ω => (F ω).1 i) (streamLaw S.law) := by
    refine (iIndepFun_iff_map_fun_eq_pi_map fun i => by fun_prop).2 ?_
    simp_rw [hXi]
    exact hX
  refine ⟨fun i j ω => (F ω).1 i j, fun i j => by fun_prop, hae.mono fun ω hω => ?_, fun i => (hin i).1,
    iIndepFun_uncurry (fun i j => by fun_prop) hout fun i => (hin i).2⟩
  obtain ⟨zs, hz, hR⟩ := hω
  exact ⟨zs, _, hz, hR⟩

end

/-! ## Example -/

/-- Two calls with the same normal distribution and one with a function. -/
example : ∃ X : (i : Fin 3) → Fin (![1, 100, 250] i) → (ℕ → ℝ × ℝ) → ℝ,
    (∀ᵐ ω ∂(Measure.infinitePi fun _ : ℕ => demoSource.law), ∃ zs s',
      runAll (fun i => sampleObj idealEnv (![.leaf (.normal 1 2) none none, .leaf (.normal 1 2) none none,
        demoNumberFn.obj idealEnv fun x => .lit (.flt x)] i) (![1, 100, 250] i) none none) ⟨ω, fun _ _ => none⟩
        = (.ok zs, s') ∧ ∀ i, Reads (![1, 100, 250] i) (zs i) fun j => X i j ω) ∧
    iIndepFun (fun p : Σ i, Fin (![1, 100, 250] i) => X p.1 p.2)
      (Measure.infinitePi fun _ : ℕ => demoSource.law) := by
  have hN := denotes_normal (T := St (ℕ → ℝ × ℝ) ℝ) (demoSource_normal 1 (s := 2) (by norm_num))
  obtain ⟨X, -, h1, -, h2⟩ := C92_series demoSource (E := idealEnv) idealEnv_driven demoSource_uniform
    (d := ![.leaf (.normal 1 2) none none, .leaf (.normal 1 2) none none,
      demoNumberFn.obj idealEnv fun x => .lit (.flt x)]) (μ := ![_, _, _]) (n := ![1, 100, 250])
    (Fin.forall_fin_succ.2 ⟨.dist hN, Fin.forall_fin_two.2 ⟨.dist hN, .number demoNumberFn_law⟩⟩)
    (Fin.forall_fin_succ.2 ⟨by simp, Fin.forall_fin_two.2 ⟨by simp, by simp⟩⟩) fun _ _ => none
  exact ⟨X, h1, h2⟩

end Verif
