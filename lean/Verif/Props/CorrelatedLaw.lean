import Verif.Lemmas.CorrelatedLaw
import Verif.Lemmas.DemoSource
import Verif.Props.Denote
import Verif.Lemmas.Frequency
import Verif.Lemmas.Pearson

/-!
# The law of correlated samples: C97

Sampling a member of a correlation group under ideal randomness: what the group does to the distribution of
each of its variables.
-/

namespace Verif

open MeasureTheory ProbabilityTheory Spec

section

variable {Ω : Type} [MeasurableSpace Ω] (S : IdealSource Ω) {E : Env (ℕ → Ω) ℝ}

omit [MeasurableSpace Ω] in
/-- One call on a member without left-over samples, given the independent samples `X` it draws. -/
theorem corr_call {g m n : ℕ} {members : Fin m → Obj (St (ℕ → Ω) ℝ) ℝ} (hn : 1 ≤ n)
    (hclips : ∀ j, (members j).clips = (none, none)) (i : Fin m)
    {left : ℕ → ℕ → Option (List (Scalar ℝ))} (hleft : left g i = none) {ω ω' : ℕ → Ω}
    {X : Fin m → Fin n → ℝ}
    (hdraw : SM.mapL (fun j =>
        SM.bind (withClips E (members j).clips (rawObj E (members j)) n none none) fun x =>
        SM.lift (toColumn n x)) (List.finRange m) ⟨ω, left⟩ = (.ok (colsOf X), ⟨ω', left⟩)) :
    (∀ Y : Fin m → Fin n → ℝ, E.induce g (colsOf X) = .ok (colsOf Y) →
      ∃ s', sampleObj E (.corr g m members i) n none none ⟨ω, left⟩
          = (.ok (.arr ((List.ofFn (Y i)).map .flt)), s') ∧
        ∀ k, k ≠ i → ∀ n', 1 ≤ n' → ∃ s'', sampleObj E (.corr g m members k) n' none none s'
          = (.ok (.arr ((List.ofFn (Y k)).map .flt)), s'')) ∧
    ∀ e, E.induce g (colsOf X) = .error e →
      ∃ s', sampleObj E (.corr g m members i) n none none ⟨ω, left⟩ = (.error e, s') := by
  have hframe : ∀ (k : Fin m) (n' : ℕ), 1 ≤ n' → ∀ s, sampleObj E (.corr g m members k) n' none none s
      = SM.bind (rawObj E (.corr g m members k) n') (fun x => SM.lift (applyClips E.powf none none x)) s := by
    intro k n' hn' s
    unfold sampleObj withClips
    simp only [Obj.clips, hclips, combineL, combineR]
    rw [if_neg (by omega)]
    rfl
  have hcl : ∀ z : Samples ℝ, applyClips E.powf none none z = .ok z := fun _ => rfl
  have htake : takeLeft (σ := ℕ → Ω) (K := ℝ) g i ⟨ω, left⟩ = (.ok none, ⟨ω, left⟩) := by
    unfold takeLeft
    simp only [hleft]
  have hraw : rawObj E (.corr g m members i) n ⟨ω, left⟩
      = SM.bind (SM.lift (E.induce g (colsOf X))) (fun cols' => storeOthers g i cols') ⟨ω', left⟩ := by
    have hb : ∀ {α β : Type} (M : SM (ℕ → Ω) ℝ α) (f : α → SM (ℕ → Ω) ℝ β) (s s' : St (ℕ → Ω) ℝ) (a : α),
        M s = (.ok a, s') → SM.bind M f s = f a s' := by
      intro α β M f s s' a h
      simp only [SM.bind, h]
    unfold rawObj
    refine (hb _ _ _ _ _ htake).trans ?_
    exact hb _ _ _ _ _ hdraw
  constructor
  · intro Y hY
    have hget : ∀ k : Fin m, (colsOf Y)[k.1]? = some (List.ofFn (Y k)) := by
      intro k
      rw [colsOf, List.getElem?_ofFn, dif_pos k.2]
    rw [hframe i n hn]
    refine ⟨(storeOthers g i (colsOf Y) ⟨ω', left⟩).2, ?_, ?_⟩
    · simp only [SM.bind, hraw, hY, SM.lift, storeOthers, hget i, hcl]
    · intro k hk n' hn'
      have hki : k.1 ≠ i.1 := fun h => hk (Fin.ext h)
      rw [hframe k n' hn']
      refine ⟨(takeLeft g k (storeOthers g i (colsOf Y) ⟨ω', left⟩).2).2, ?_⟩
      unfold rawObj
      simp only [SM.bind, takeLeft, storeOthers, hget k, hget i, hki, ne_eq, not_false_eq_true, and_self, if_true,
        SM.pure, SM.lift, hcl]
  · intro e he
    rw [hframe i n hn]
    refine ⟨⟨ω', left⟩, ?_⟩
    simp only [SM.bind, hraw, he, SM.lift]

/-- **C97, in full detail.** Sampling a member of a correlation group (no samples left over, `n ≥ 1`, members
without bounds): with probability one, the call returns a column of a table `X`, later calls on the other
members return the other columns, or (outside an event `OK`) it raises.  The independent samples `I` drawn
first have the laws of the members, independently.  For every member with a continuous law, given that the
call succeeded and that none of this member's samples was lost, the member's column consists of `n` independent
draws from its own law. -/
theorem C97_kept (hE : S.Drives E) (hU : S.primLaw (.uniform 0 1) = some unitLaw) {C : CorrEnv ℝ}
    (hA : IsArgsort C.argsort) (hC : RowBlind C) (G : CorrGroup ℝ) {g m n : ℕ} (hn : 1 ≤ n)
    (hind : E.induce g = G.induce C) {members : Fin m → Obj (St (ℕ → Ω) ℝ) ℝ}
    (hclips : ∀ j, (members j).clips = (none, none)) {ν : Fin m → Measure ℝ}
    (hν : ∀ j, Denotes S.primLaw (members j) (ν j)) (i : Fin m)
    (left : ℕ → ℕ → Option (List (Scalar ℝ))) (hleft : left g i = none) :
    ∃ (OK : Set (ℕ → Ω)) (I X : (ℕ → Ω) → Fin m → Fin n → ℝ),
      MeasurableSet OK ∧ Measurable I ∧ Measurable X ∧
      (Measure.infinitePi fun _ : ℕ => S.law).map I = (Measure.pi fun j => Measure.pi fun _ : Fin n => ν j) ∧
      (∀ᵐ ω ∂(Measure.infinitePi fun _ : ℕ => S.law),
        (ω ∈ OK → ∃ s', sampleObj E (.corr g m members i) n none none ⟨ω, left⟩
            = (.ok (.arr ((List.ofFn (X ω i)).map .flt)), s') ∧
          ∀ k, k ≠ i → ∀ n', 1 ≤ n' → ∃ s'', sampleObj E (.corr g m members k) n' none none s'
            = (.ok (.arr ((List.ofFn (X ω k)).map .flt)), s'')) ∧
        (ω ∉ OK → ∃ e s', sampleObj E (.corr g m members i) n none none ⟨ω, left⟩ = (.error e, s'))) ∧
      (∀ ω ∈ OK, G.induce C (colsOf (I ω)) = .ok (colsOf (X ω))) ∧
      ∀ k, (∀ x, ν k {x} = 0) → ∀ B : Set (Fin n → ℝ), MeasurableSet B →
        (Measure.infinitePi fun _ : ℕ => S.law)
          ({ω | ω ∈ OK ∧ ∃ π : Equiv.Perm (Fin n), X ω k = I ω k ∘ π} ∩ {ω | X ω k ∈ B})
        = (Measure.infinitePi fun _ : ℕ => S.law)
            {ω | ω ∈ OK ∧ ∃ π : Equiv.Perm (Fin n), X ω k = I ω k ∘ π}
          * (Measure.pi fun _ : Fin n => ν k) B := by
  have hm : 0 < m := i.pos
  have hp : ∀ j, IsProbabilityMeasure (ν j) := fun j => (denotes_draws S (left := left) hE hU (hν j)).1
  obtain ⟨F, hF, hFmap, hFae⟩ := members_law S (left := left) hE hU hν hn
  obtain ⟨OK, T, hOK, hT, hok, herr, hord⟩ := induce_measurable hA hC G (n := n) hm
  have hImap : (streamLaw S.law).map (fun ω => (F ω).1) = tableLaw n ν := by
    have : (fun ω => (F ω).1) = Prod.fst ∘ F := rfl
    rw [this, ← Measure.map_map measurable_fst hF, hFmap, Measure.map_fst_prod]
    simp
  have hI : Measurable fun ω => (F ω).1 := measurable_fst.comp hF
  refine ⟨(fun ω => (F ω).1) ⁻¹' OK, fun ω => (F ω).1, fun ω => T (F ω).1, hI hOK, hI, hT.comp hI, hImap, ?_,
    fun ω hω => hok _ hω, ?_⟩
  · filter_upwards [hFae] with ω hω
    obtain ⟨cols, h1, rfl⟩ := hω
    obtain ⟨h2, h3⟩ := corr_call (E := E) (g := g) (n := n) hn hclips i hleft h1
    refine ⟨fun hmem => ?_, fun hmem => ?_⟩
    · exact h2 _ (by rw [hind]; exact hok _ hmem)
    · obtain ⟨e, he⟩ := herr _ hmem
      obtain ⟨s', hs⟩ := h3 e (by rw [hind]; exact he)
      exact ⟨e, s', hs⟩
  · intro k hk B hB
    obtain ⟨hmeas, hlaw⟩ := kept_law hA hC G hm hOK hT hok herr hord ν k
    have hns : NullSingletonClass (ν k) := ⟨hk⟩
    have hlaw := hlaw B hB
    have hTk : Measurable fun X => T X k := (measurable_pi_apply k).comp hT
    have e : (Measure.infinitePi fun _ : ℕ => S.law) = streamLaw S.law := rfl
    rw [e]
    have hm1 : MeasurableSet (keptSet OK T k ∩ {X | T X k ∈ B}) := hmeas.inter (hTk hB)
    rw [← hImap, Measure.map_apply hI hm1, Measure.map_apply hI hmeas] at hlaw
    exact hlaw

/-- **C97.** Sampling a member of a correlation group of continuous variables (without bounds, no samples left
over, `n ≥ 1`), when target scores do not tie: with probability one the call returns a column of a table `X`
and later calls on the other members return its other columns, or (outside an event `OK`) it raises.  Given
that it succeeds, the samples of *every* member are `n` independent draws from this member's own law: the
correlation does not distort the distributions. -/
theorem C97_own_law (hE : S.Drives E) (hU : S.primLaw (.uniform 0 1) = some unitLaw) {C : CorrEnv ℝ}
    (hA : IsArgsort C.argsort) (hC : RowBlind C) (G : CorrGroup ℝ) {g m n : ℕ} (hn : 1 ≤ n)
    (hind : E.induce g = G.induce C) {members : Fin m → Obj (St (ℕ → Ω) ℝ) ℝ}
    (hclips : ∀ j, (members j).clips = (none, none)) {ν : Fin m → Measure ℝ}
    (hν : ∀ j, Denotes S.primLaw (members j) (ν j)) (hcont : ∀ j x, ν j {x} = 0)
    (hties : NoTiedTargets C m n) (i : Fin m)
    (left : ℕ → ℕ → Option (List (Scalar ℝ))) (hleft : left g i = none) :
    ∃ (OK : Set (ℕ → Ω)) (X : (ℕ → Ω) → Fin m → Fin n → ℝ), MeasurableSet OK ∧ Measurable X ∧
      (∀ᵐ ω ∂(Measure.infinitePi fun _ : ℕ => S.law),
        (ω ∈ OK → ∃ s', sampleObj E (.corr g m members i) n none none ⟨ω, left⟩
            = (.ok (.arr ((List.ofFn (X ω i)).map .flt)), s') ∧
          ∀ k, k ≠ i → ∀ n', 1 ≤ n' → ∃ s'', sampleObj E (.corr g m members k) n' none none s'
            = (.ok (.arr ((List.ofFn (X ω k)).map .flt)), s'')) ∧
        (ω ∉ OK → ∃ e s', sampleObj E (.corr g m members i) n none none ⟨ω, left⟩ = (.error e, s'))) ∧
      ∀ k (B : Set (Fin n → ℝ)), MeasurableSet B →
        (Measure.infinitePi fun _ : ℕ => S.law) (OK ∩ {ω | X ω k ∈ B})
        = (Measure.infinitePi fun _ : ℕ => S.law) OK * (Measure.pi fun _ : Fin n => ν k) B := by
  obtain ⟨OK, I, X, h1, h2, h3, h4, h5, h6, h7⟩ :=
    C97_kept S hE hU hA hC G hn hind hclips hν i left hleft
  refine ⟨OK, X, h1, h3, h5, fun k B hB => ?_⟩
  have h8 := h7 k (hcont k) B hB
  have hp : ∀ j, IsProbabilityMeasure (ν j) := fun j => (denotes_draws S (left := left) hE hU (hν j)).1
  have hinj : ∀ᵐ ω ∂(Measure.infinitePi fun _ : ℕ => S.law), ∀ j, Function.Injective (I ω j) := by
    refine ae_all_iff.2 fun j => ?_
    have hns : NullSingletonClass (ν j) := ⟨hcont j⟩
    have hj : (Measure.infinitePi fun _ : ℕ => S.law).map (fun ω => I ω j) = Measure.pi fun _ : Fin n => ν j := by
      have : (fun ω => I ω j) = (fun Y : Fin m → Fin n → ℝ => Y j) ∘ I := rfl
      rw [this, ← Measure.map_map (measurable_pi_apply j) h2, h4]
      exact (measurePreserving_eval (fun j => Measure.pi fun _ : Fin n => ν j) j).map_eq
    have := pi_injective (n := n) (ν j)
    rw [← hj] at this
    exact ae_of_ae_map ((measurable_pi_apply j).comp h2).aemeasurable this
  have hkeep : ∀ᵐ ω ∂(Measure.infinitePi fun _ : ℕ => S.law), ω ∈ OK →
      ∃ π : Equiv.Perm (Fin n), X ω k = I ω k ∘ π := by
    filter_upwards [hinj] with ω hω hmem
    have hok := h6 ω hmem
    have hperm := C30_permutation_partial hA (n := n) (by
      intro c hc
      obtain ⟨j, rfl⟩ := List.mem_ofFn.1 hc
      simp) hok (hties (I ω) hω)
    rw [List.forall₂_iff_get] at hperm
    have hk := hperm.2 k.1 (by simp [colsOf]) (by simp [colsOf])
    simp only [List.get_eq_getElem, colsOf, List.getElem_ofFn, Fin.eta] at hk
    rcases induce_order hA hC G i.pos (I ω) with ⟨τ, hτ⟩ | ⟨e, he⟩
    · have h9 := hτ (I ω) fun j a b => Iff.rfl
      rw [hok] at h9
      have h10 := congrFun (colsOf_inj (Except.ok.inj h9)) k
      have hXi : Function.Injective (X ω k) := by
        have : (List.ofFn (X ω k)).Nodup := (hk.nodup_iff).2 (List.nodup_ofFn.2 (hω k))
        exact List.nodup_ofFn.1 this
      have hτi : Function.Injective (τ k) := by
        intro a b hab
        refine hXi ?_
        rw [h10]
        simp only [Function.comp, hab]
      exact ⟨Equiv.ofBijective (τ k) (Finite.injective_iff_bijective.1 hτi), h10⟩
    · have := he (I ω) fun j a b => Iff.rfl
      rw [hok] at this
      cases this
  have e1 : (Measure.infinitePi fun _ : ℕ => S.law)
        {ω | ω ∈ OK ∧ ∃ π : Equiv.Perm (Fin n), X ω k = I ω k ∘ π}
      = (Measure.infinitePi fun _ : ℕ => S.law) OK := by
    refine measure_congr ?_
    filter_upwards [hkeep] with ω hω
    exact propext ⟨fun h => h.1, fun h => ⟨h, hω h⟩⟩
  have e2 : (Measure.infinitePi fun _ : ℕ => S.law)
        ({ω | ω ∈ OK ∧ ∃ π : Equiv.Perm (Fin n), X ω k = I ω k ∘ π} ∩ {ω | X ω k ∈ B})
      = (Measure.infinitePi fun _ : ℕ => S.law) (OK ∩ {ω | X ω k ∈ B}) := by
    refine measure_congr ?_
    filter_upwards [hkeep] with ω hω
    exact propext ⟨fun h => ⟨h.1.1, h.2⟩, fun h => ⟨⟨h.1, hω h.1⟩, h.2⟩⟩
  rw [← e1, ← e2]
  exact h8

/-- **C97, success is possible.** If the group can correlate *some* table of distinct numbers, then sampling a
member succeeds with positive probability, so "given that it succeeds" in `C97_own_law` is not empty. -/
theorem C97_possible (hE : S.Drives E) (hU : S.primLaw (.uniform 0 1) = some unitLaw) {C : CorrEnv ℝ}
    (hA : IsArgsort C.argsort) (hC : RowBlind C) (G : CorrGroup ℝ) {g m n : ℕ} (hn : 1 ≤ n)
    (hind : E.induce g = G.induce C) {members : Fin m → Obj (St (ℕ → Ω) ℝ) ℝ}
    (hclips : ∀ j, (members j).clips = (none, none)) {ν : Fin m → Measure ℝ}
    (hν : ∀ j, Denotes S.primLaw (members j) (ν j)) (hcont : ∀ j x, ν j {x} = 0) (i : Fin m)
    (left : ℕ → ℕ → Option (List (Scalar ℝ))) (hleft : left g i = none)
    {X₀ : Fin m → Fin n → ℝ} (hX₀ : ∀ j, Function.Injective (X₀ j)) {Y₀ : List (List ℝ)}
    (h₀ : G.induce C (colsOf X₀) = .ok Y₀) :
    0 < (Measure.infinitePi fun _ : ℕ => S.law)
      {ω | ∃ z s', sampleObj E (.corr g m members i) n none none ⟨ω, left⟩ = (.ok z, s')} := by
  have hp : ∀ j, IsProbabilityMeasure (ν j) := fun j => (denotes_draws S (left := left) hE hU (hν j)).1
  have hns : ∀ j, NullSingletonClass (ν j) := fun j => ⟨hcont j⟩
  obtain ⟨F, hF, hFmap, hFae⟩ := members_law S (left := left) hE hU hν hn
  have hImap : (streamLaw S.law).map (fun ω => (F ω).1) = tableLaw n ν := by
    have : (fun ω => (F ω).1) = Prod.fst ∘ F := rfl
    rw [this, ← Measure.map_map measurable_fst hF, hFmap, Measure.map_fst_prod]
    simp
  have hI : Measurable fun ω => (F ω).1 := measurable_fst.comp hF
  rw [pos_iff_ne_zero]
  intro h0
  refine pattern_pos ν hX₀ ?_
  rw [← hImap]
  -- the draws are almost never ordered like the table
  have hae : ∀ᵐ ω ∂(streamLaw S.law), (F ω).1 ∉ {X : Fin m → Fin n → ℝ | ∀ j, SameOrder (X₀ j) (X j)} := by
    have h0' := measure_eq_zero_iff_ae_notMem.1 h0
    filter_upwards [hFae, h0'] with ω hω hfail hmem
    obtain ⟨cols, h1, rfl⟩ := hω
    refine hfail ?_
    rcases induce_order hA hC G i.pos X₀ with ⟨τ, hτ⟩ | ⟨e, he⟩
    · obtain ⟨s', hs, -⟩ := (corr_call (E := E) (g := g) (n := n) hn hclips i hleft h1).1 _
        (by rw [hind]; exact hτ (F ω).1 hmem)
      exact ⟨_, s', hs⟩
    · have := he X₀ fun j a b => Iff.rfl
      rw [h₀] at this
      cases this
  have hms : MeasurableSet {X : Fin m → Fin n → ℝ | ∀ j, SameOrder (X₀ j) (X j)} := by
    have : {X : Fin m → Fin n → ℝ | ∀ j, SameOrder (X₀ j) (X j)}
        = ⋂ j, ⋂ a, ⋂ b, {X | X₀ j a < X₀ j b ↔ X j a < X j b} := by
      ext X
      simp [SameOrder]
    rw [this]
    refine MeasurableSet.iInter fun j => MeasurableSet.iInter fun a => MeasurableSet.iInter fun b => ?_
    have hlt : MeasurableSet {X : Fin m → Fin n → ℝ | X j a < X j b} :=
      measurableSet_lt ((measurable_pi_apply a).comp (measurable_pi_apply j))
        ((measurable_pi_apply b).comp (measurable_pi_apply j))
    by_cases h : X₀ j a < X₀ j b
    · simpa [h] using hlt
    · have : {X : Fin m → Fin n → ℝ | X₀ j a < X₀ j b ↔ X j a < X j b} = {X | X j a < X j b}ᶜ := by
        ext X
        simp [h]
      rw [this]
      exact hlt.compl
  rw [Measure.map_apply hI hms]
  exact measure_eq_zero_iff_ae_notMem.2 hae

/-- **C97, frequencies.** Given that sampling a member of a group of continuous variables succeeds, the
frequency of any condition among its `n` samples is within `ε` of the probability the member's own law gives
it, except with (conditional) probability at most `2 exp(-2 n ε²)`. -/
theorem C97_frequency (hE : S.Drives E) (hU : S.primLaw (.uniform 0 1) = some unitLaw) {C : CorrEnv ℝ}
    (hA : IsArgsort C.argsort) (hC : RowBlind C) (G : CorrGroup ℝ) {g m n : ℕ} (hn : 1 ≤ n)
    (hind : E.induce g = G.induce C) {members : Fin m → Obj (St (ℕ → Ω) ℝ) ℝ}
    (hclips : ∀ j, (members j).clips = (none, none)) {ν : Fin m → Measure ℝ}
    (hν : ∀ j, Denotes S.primLaw (members j) (ν j)) (hcont : ∀ j x, ν j {x} = 0)
    (hties : NoTiedTargets C m n) (i : Fin m)
    (left : ℕ → ℕ → Option (List (Scalar ℝ))) (hleft : left g i = none)
    (q : ℝ → Bool) (hq : MeasurableSet {x | q x = true}) {ε : ℝ} (hε : 0 < ε) :
    (Measure.infinitePi fun _ : ℕ => S.law).real
      {ω | ∃ z s', sampleObj E (.corr g m members i) n none none ⟨ω, left⟩ = (.ok z, s') ∧
        ¬ ∃ xs, List.Forall₂ IsReal z.toList xs ∧
          |((xs.countP q : ℕ) : ℝ) / n - (ν i).real {x | q x = true}| < ε}
    ≤ (Measure.infinitePi fun _ : ℕ => S.law).real
        {ω | ∃ z s', sampleObj E (.corr g m members i) n none none ⟨ω, left⟩ = (.ok z, s')}
      * (2 * Real.exp (-2 * n * ε ^ 2)) := by
  have hp : ∀ j, IsProbabilityMeasure (ν j) := fun j => (denotes_draws S (left := left) hE hU (hν j)).1
  obtain ⟨OK, X, h1, h2, h3, h4⟩ := C97_own_law S hE hU hA hC G hn hind hclips hν hcont hties i left hleft
  set P := Measure.infinitePi fun _ : ℕ => S.law with hP
  set B : Set (Fin n → ℝ) :=
    {x | ε ≤ |(((List.ofFn x).countP q : ℕ) : ℝ) / n - (ν i).real {x | q x = true}|} with hB
  have hBm : MeasurableSet B := by
    refine measurableSet_le measurable_const ?_
    refine Measurable.abs (Measurable.sub_const (Measurable.div_const ?_ _) _)
    simp only [countP_ofFn]
    exact Finset.measurable_sum _ fun r _ => (measurable_const.indicator hq).comp (measurable_pi_apply r)
  have hfb : (Measure.pi fun _ : Fin n => ν i).real B ≤ 2 * Real.exp (-2 * n * ε ^ 2) :=
    frequency_bound (P := Measure.pi fun _ : Fin n => ν i) hn (X := fun r x => x r)
      (fun r => measurable_pi_apply r) (μ := ν i)
      (fun r => (measurePreserving_eval (fun _ : Fin n => ν i) r).map_eq)
      (iIndepFun_pi (X := fun _ x => x) fun _ => aemeasurable_id) q hq hε
  have hOKeq : P {ω | ∃ z s', sampleObj E (.corr g m members i) n none none ⟨ω, left⟩ = (.ok z, s')} = P OK := by
    refine measure_congr ?_
    filter_upwards [h3] with ω hω
    refine propext ⟨?_, ?_⟩
    · rintro ⟨z, s', hz⟩
      by_contra hno
      obtain ⟨e, s'', he⟩ := hω.2 hno
      rw [he] at hz
      cases hz
    · intro hmem
      obtain ⟨s', hs, -⟩ := hω.1 hmem
      exact ⟨_, s', hs⟩
  have hle : P {ω | ∃ z s', sampleObj E (.corr g m members i) n none none ⟨ω, left⟩ = (.ok z, s') ∧
        ¬ ∃ xs, List.Forall₂ IsReal z.toList xs ∧
          |((xs.countP q : ℕ) : ℝ) / n - (ν i).real {x | q x = true}| < ε} ≤ P (OK ∩ {ω | X ω i ∈ B}) := by
    refine measure_mono_ae ?_
    filter_upwards [h3] with ω hω
    rintro ⟨z, s', hz, hno⟩
    have hmem : ω ∈ OK := by
      by_contra hc
      obtain ⟨e, s'', he⟩ := hω.2 hc
      rw [he] at hz
      cases hz
    obtain ⟨s'', hs, -⟩ := hω.1 hmem
    rw [hs] at hz
    cases hz
    refine ⟨hmem, ?_⟩
    by_contra hc
    refine hno ⟨List.ofFn (X ω i), ?_, not_le.1 hc⟩
    rw [Samples.toList, List.forall₂_map_left_iff]
    exact List.forall₂_same.2 fun x _ => Or.inl rfl
  rw [h4 i B hBm] at hle
  have hfin := ENNReal.toReal_mono (ENNReal.mul_ne_top (measure_ne_top P OK) (measure_ne_top _ B)) hle
  rw [ENNReal.toReal_mul] at hfin
  refine hfin.trans ?_
  rw [measureReal_def, hOKeq]
  exact mul_le_mul_of_nonneg_left hfb ENNReal.toReal_nonneg

end

end Verif
