import Verif.Lemmas.ExplodingDice
import Verif.Lemmas.DenoteDraw
import Verif.Lemmas.Patience

/-!
# Helper lemmas: sampling an exploding die
-/

namespace Verif

open MeasureTheory Spec

section

variable {Ω : Type} [MeasurableSpace Ω] (S : IdealSource Ω)

/-- The face an input stands for. -/
def faceOf (q : Ω → Scalar ℝ) (x : Ω) : ℤ := match q x with | .int z => z | _ => 0

theorem faces_fair {s : ℤ} {q : Ω → Scalar ℝ} (hq : S.answer (.integers 1 (s + 1)) = some q)
    (hfair : S.primLaw (.integers 1 (s + 1)) = some (dieLaw s)) :
    FairFaces S.law (faceOf q) s ∧ ∀ x, q x = .int (faceOf q x) := by
  have hsup := S.support _ q hq
  have hint : ∀ x, q x = .int (faceOf q x) ∧ 1 ≤ faceOf q x ∧ faceOf q x < s + 1 := by
    intro x
    obtain ⟨z, h1, h2, h3⟩ := hsup x
    have : faceOf q x = z := by simp [faceOf, h1]
    rw [this]; exact ⟨h1, h2, h3⟩
  have hval : ∀ x, realVal (q x) = (faceOf q x : ℝ) := by
    intro x
    rw [(hint x).1]; rfl
  have hmeas : Measurable fun x => realVal (q x) := S.meas _ q hq
  have hmap : S.law.map (fun x => realVal (q x)) = dieLaw s := by
    have := hfair
    unfold IdealSource.primLaw at this
    rw [hq] at this
    simpa using this
  refine ⟨⟨?_, ?_, ?_⟩, fun x => (hint x).1⟩
  · have : faceOf q = fun x => ⌊realVal (q x)⌋ := by
      funext x; rw [hval, Int.floor_intCast]
    rw [this]
    exact Int.measurable_floor.comp hmeas
  · intro x
    have := hint x
    exact Finset.mem_Icc.2 ⟨this.2.1, by omega⟩
  · intro t ht
    have hpre : faceOf q ⁻¹' {t} = (fun x => realVal (q x)) ⁻¹' {(t : ℝ)} := by
      ext x
      simp [hval]
    rw [hpre, ← Measure.map_apply hmeas (measurableSet_singleton _), hmap]
    unfold dieLaw
    rw [Measure.finsetSum_apply, Finset.sum_eq_single t]
    · simp
    · intro b _ hb
      have : (b : ℝ) ≠ t := by exact_mod_cast hb
      simp [this]
    · intro h; exact absurd ht h

variable {E : Env (ℕ → Ω) ℝ} {left : ℕ → ℕ → Option (List (Scalar ℝ))}

theorem drawInt_eq (hE : E.gen = S.gen) {s : ℤ} {q : Ω → Scalar ℝ} (hq : S.answer (.integers 1 (s + 1)) = some q)
    (hint : ∀ x, q x = .int (faceOf q x)) (ω : ℕ → Ω) :
    drawInt E 1 (s + 1) ⟨ω, left⟩ = (.ok (faceOf q (ω 0)), ⟨fun i => ω (i + 1), left⟩) := by
  unfold drawInt
  simp only [SM.bind]
  rw [drawSM_eq_replicate S hE hq]
  simp only [SM.replicateL, SM.bind, oneAnswer, SM.pure]
  rw [hint (ω 0)]

theorem push_eta (ω : ℕ → Ω) : pushHead (ω 0, fun i => ω (i + 1)) = ω := by
  funext i
  cases i <;> rfl

theorem explodeLoop_stop {next : St (ℕ → Ω) ℝ → Except PyErr ℤ × St (ℕ → Ω) ℝ} {l : List ℤ} {r : ℤ} (h : r ∉ l)
    (f : ℕ) (tot : ℤ) (st : St (ℕ → Ω) ℝ) : explodeLoop next l f r tot st = (.ok tot, st) := by
  cases f <;> simp [explodeLoop, h]

/-- The loop, when it is allowed enough rolls. -/
theorem explodeLoop_enough {next : St (ℕ → Ω) ℝ → Except PyErr ℤ × St (ℕ → Ω) ℝ} {face : Ω → ℤ} {l : List ℤ}
    (hnext : ∀ ω, next ⟨ω, left⟩ = (.ok (face (ω 0)), ⟨fun i => ω (i + 1), left⟩)) :
    ∀ (f : ℕ) (r tot : ℤ) (ω : ℕ → Ω), r ∈ l → Ends face l ω → runLen face l ω < f →
      explodeLoop next l f r tot ⟨ω, left⟩ = (.ok (tot + runTotal face l ω), ⟨runRest face l ω, left⟩) := by
  intro f
  induction f with
  | zero => intro r tot ω _ _ h; omega
  | succ f ih =>
    intro r tot ω hr he hlen
    unfold explodeLoop
    rw [if_pos hr]
    simp only [hnext]
    by_cases h0 : face (ω 0) ∈ l
    · rw [← push_eta ω] at he hlen
      have he' := (ends_push h0).1 he
      rw [runLen_push h0 he'] at hlen
      rw [ih _ _ _ h0 he' (by omega)]
      conv_rhs => rw [← push_eta ω]
      rw [runTotal_push h0 he', runRest_push h0 he', add_assoc]
    · unfold explodeLoop
      rw [if_neg h0]
      conv_rhs => rw [← push_eta ω]
      rw [runTotal_stop h0, runRest_stop h0]

theorem explodeLoop_short {next : St (ℕ → Ω) ℝ → Except PyErr ℤ × St (ℕ → Ω) ℝ} {face : Ω → ℤ} {l : List ℤ}
    (hnext : ∀ ω, next ⟨ω, left⟩ = (.ok (face (ω 0)), ⟨fun i => ω (i + 1), left⟩)) :
    ∀ (f : ℕ) (r tot : ℤ) (ω : ℕ → Ω), (explodeLoop next l f r tot ⟨ω, left⟩).1 = .error .outOfFuel ↔
      r ∈ l ∧ ∀ i, i < f → face (ω i) ∈ l := by
  intro f
  induction f with
  | zero =>
    intro r tot ω
    unfold explodeLoop
    by_cases hr : r ∈ l
    · simp [hr]
    · simp [hr]
  | succ f ih =>
    intro r tot ω
    unfold explodeLoop
    by_cases hr : r ∈ l
    · simp only [hr, if_true, hnext, ih, true_and]
      constructor
      · rintro ⟨h1, h2⟩ i hi
        cases i with
        | zero => exact h1
        | succ i => exact h2 i (by omega)
      · intro h
        exact ⟨h 0 (by omega), fun i hi => h (i + 1) (by omega)⟩
    · simp [hr]

/-- One roll with unbounded patience. -/
noncomputable def rollOn (face : Ω → ℤ) (l : List ℤ) : SM (ℕ → Ω) ℝ ℤ := fun st =>
  (.ok (runTotal face l st.rng), ⟨runRest face l st.rng, st.left⟩)

theorem singleRoll_enough (hE : E.gen = S.gen) {s : ℤ} {q : Ω → Scalar ℝ}
    (hq : S.answer (.integers 1 (s + 1)) = some q) (hint : ∀ x, q x = .int (faceOf q x)) (l : List ℤ) (f : ℕ)
    (ω : ℕ → Ω) (he : Ends (faceOf q) l ω) (hlen : runLen (faceOf q) l ω ≤ f) :
    singleRoll (drawInt E 1 (s + 1)) (some l) f ⟨ω, left⟩ = rollOn (faceOf q) l ⟨ω, left⟩ := by
  unfold singleRoll rollOn
  simp only [drawInt_eq S hE hq hint]
  by_cases h0 : faceOf q (ω 0) ∈ l
  · rw [← push_eta ω] at he hlen
    have he' := (ends_push h0).1 he
    rw [runLen_push h0 he'] at hlen
    rw [explodeLoop_enough (drawInt_eq S hE hq hint) f _ _ _ h0 he' (by omega)]
    conv_rhs => rw [← push_eta ω]
    rw [runTotal_push h0 he', runRest_push h0 he']
  · refine (explodeLoop_stop (next := drawInt E 1 (s + 1)) h0 f _ _).trans ?_
    conv_rhs => rw [← push_eta ω]
    rw [runTotal_stop h0, runRest_stop h0]

theorem rollOn_law {μ₀ : Measure Ω} [IsProbabilityMeasure μ₀] {face : Ω → ℤ} {s : ℤ} {l : List ℤ}
    (h : FairFaces μ₀ face s) (hk : (hot s l).card < s) :
    DrawsLaw μ₀ left (rollOn face l) (fun (z : ℤ) (r : ℝ) => r = z) (runLaw μ₀ face l) :=
  ⟨_, measurable_run h.meas, run_law h hk, Filter.Eventually.of_forall fun _ => ⟨_, rfl, rfl⟩⟩

theorem rest_stream {μ₀ : Measure Ω} [IsProbabilityMeasure μ₀] {face : Ω → ℤ} {s : ℤ} {l : List ℤ}
    (h : FairFaces μ₀ face s) (hk : (hot s l).card < s) : (streamLaw μ₀).map (runRest face l) = streamLaw μ₀ := by
  have hp := runLaw_prob (l := l) h
  have e := congrArg (Measure.map Prod.snd) (run_law h hk)
  rw [Measure.map_map measurable_snd (measurable_run h.meas), Measure.map_snd_prod, measure_univ, one_smul] at e
  exact e

omit [MeasurableSpace Ω] in
theorem hot_card_lt {s t : ℤ} {l : List ℤ} (h1 : 1 ≤ t) (h2 : t ≤ s) (h3 : t ∉ l) : (hot s l).card < s := by
  have hlt : (hot s l).card < (Finset.Icc 1 s).card := by
    refine Finset.card_lt_card ((Finset.filter_ssubset).2 ⟨t, Finset.mem_Icc.2 ⟨h1, h2⟩, h3⟩)
  rw [Int.card_Icc] at hlt
  omega

/-- Samples of an exploding die. -/
theorem explode_law (hE : S.Drives E) {s : ℤ} {l : List ℤ} (hs : 1 ≤ s) (hk : (hot s l).card < s)
    (hfair : S.primLaw (.integers 1 (s + 1)) = some (dieLaw s)) {μ : Measure ℝ} (hμ : IsExplodingLaw s l μ) (n : ℕ) :
    DrawsLaw S.law left (leafSample E (.die ⟨s, some l⟩) n) (Reads n) (Measure.pi fun _ : Fin n => μ) := by
  cases hq : S.answer (.integers 1 (s + 1)) with
  | none => simp [IdealSource.primLaw, hq] at hfair
  | some q =>
    obtain ⟨hF, hint⟩ := faces_fair S hq hfair
    obtain rfl : μ = runLaw S.law (faceOf q) l := explodingLaw_unique hs hk hμ (runLaw_exploding hF hk)
    have hp := hμ.prob
    have h1 : DrawsLaw S.law left (rollDie E ⟨s, some l⟩) (fun (z : ℤ) (r : ℝ) => r = z)
        (runLaw S.law (faceOf q) l) := by
      refine ⟨_, measurable_run hF.meas, run_law hF hk, (ends_ae (l := l) hF hk).mono fun ω he => ?_⟩
      have h := singleRoll_enough S (left := left) hE.gen hq hint l (runLen (faceOf q) l ω) ω he le_rfl
      refine ⟨runTotal (faceOf q) l ω, ?_, rfl⟩
      refine (rollDie_eq hE.loops (f := runLen (faceOf q) l ω) ?_).trans h
      rw [h]
      simp [rollOn]
    have h2 := (h1.replicateL n).bind_lift
      (h := fun rs => .ok (Samples.simplify (.arr (rs.map .int)))) (R' := Reads n) id measurable_id
      (Filter.Eventually.of_forall fun x rs hx => ⟨_, rfl, reads_simplify (by
        rw [List.forall₂_map_left_iff]
        exact hx.imp fun z r h => Or.inr ⟨z, rfl, h⟩)⟩)
    rw [Measure.map_id] at h2
    exact h2

end

end Verif
