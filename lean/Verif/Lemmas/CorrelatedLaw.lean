import Verif.Lemmas.Exchange
import Verif.Lemmas.DenoteInduct

/-!
# Helper lemmas: the joint draw of a correlation group under ideal randomness
-/

namespace Verif

open MeasureTheory Spec

/-- A sequence of independent programs. -/
theorem mapL_cols {Ω : Type} [MeasurableSpace Ω] {μ₀ : Measure Ω} [IsProbabilityMeasure μ₀]
    {left : ℕ → ℕ → Option (List (Scalar ℝ))} {ι A X : Type} [MeasurableSpace X]
    {f : ι → SM (ℕ → Ω) ℝ A} {R : A → X → Prop} {vals : List ι} {k : ℕ} {μ : Fin k → Measure X}
    [∀ i, IsProbabilityMeasure (μ i)] (hv : vals.length = k)
    (h : ∀ i : Fin k, DrawsLaw μ₀ left (f (vals[i.1]'(hv ▸ i.2))) R (μ i)) :
    DrawsLaw μ₀ left (SM.mapL f vals) (fun as x => List.Forall₂ R as (List.ofFn x)) (Measure.pi μ) := by
  induction vals generalizing k with
  | nil =>
    simp only [List.length_nil] at hv
    subst hv
    have h : DrawsLaw μ₀ left (SM.pure ([] : List A))
        (fun as (x : Fin 0 → X) => List.Forall₂ R as (List.ofFn x)) (Measure.dirac Fin.elim0) :=
      DrawsLaw.pure (by simp)
    rw [Measure.pi_of_empty μ Fin.elim0]
    exact h
  | cons a vals ih =>
    obtain ⟨k, rfl⟩ : ∃ k', k = k' + 1 := ⟨vals.length, by simpa using hv.symm⟩
    have hv' : vals.length = k := by simpa using hv
    have h0 := h 0
    have hs := ih (μ := fun i => μ i.succ) hv' fun i => by
      have := h i.succ
      simpa using this
    have := (h0.pair hs).bind_lift (h := fun c => .ok (c.1 :: c.2))
      (R' := fun as (x : Fin (k + 1) → X) => List.Forall₂ R as (List.ofFn x))
      (fun p => (Fin.cons p.1 p.2 : Fin (k + 1) → X)) (measurable_cons k)
      (Filter.Eventually.of_forall fun p c hc => ⟨_, rfl, by
        rw [List.ofFn_succ]
        exact .cons (by simpa using hc.1) (by simpa using hc.2)⟩)
    rw [map_cons_pi] at this
    refine this.congr fun ω => ?_
    simp only [SM.mapL, SM.bind, SM.pure, SM.lift, List.getElem_cons_zero, Fin.val_zero]
    cases f a ⟨ω, left⟩ with
    | mk r s =>
      cases r with
      | error e => rfl
      | ok a =>
        dsimp only
        cases SM.mapL f vals s with
        | mk r' s' => cases r' <;> rfl

theorem toColumn_real {n : ℕ} {z : Samples ℝ} {x : Fin n → ℝ} (h : Reads n z x) :
    toColumn n z = .ok (List.ofFn x) := by
  obtain ⟨-, h⟩ := h
  unfold toColumn
  refine Except.bind_ok_iff.2 ⟨List.ofFn x, ?_, if_pos (by simp)⟩
  rw [mapExcept_ok]
  refine h.imp fun v r hv => ?_
  rcases hv with rfl | ⟨z, rfl, rfl⟩ <;> rfl

section

variable {Ω : Type} [MeasurableSpace Ω] (S : IdealSource Ω)
  {left : ℕ → ℕ → Option (List (Scalar ℝ))} {E : Env (ℕ → Ω) ℝ}

/-- The independent samples of all members, before the correlation is induced. -/
theorem members_law (hE : S.Drives E) (hU : S.primLaw (.uniform 0 1) = some unitLaw) {m : ℕ}
    {members : Fin m → Obj (St (ℕ → Ω) ℝ) ℝ} {ν : Fin m → Measure ℝ}
    (hν : ∀ j, Denotes S.primLaw (members j) (ν j)) {n : ℕ} (hn : 1 ≤ n) :
    DrawsLaw S.law left (SM.mapL (fun j =>
        SM.bind (withClips E (members j).clips (rawObj E (members j)) n none none) fun x =>
        SM.lift (toColumn n x)) (List.finRange m))
      (fun cols X => cols = colsOf X) (tableLaw n ν) := by
  have hp : ∀ j, IsProbabilityMeasure (ν j) := fun j => (denotes_draws S (left := left) hE hU (hν j)).1
  have hcol : ∀ j : Fin m, DrawsLaw S.law left
      (SM.bind (withClips E (members j).clips (rawObj E (members j)) n none none) fun x =>
        SM.lift (toColumn n x)) (fun c (x : Fin n → ℝ) => c = List.ofFn x) (Measure.pi fun _ : Fin n => ν j) := by
    intro j
    have h1 := (denotes_draws S (left := left) hE hU (hν j)).2 n hn
    have := h1.bind_lift (h := toColumn n) (R' := fun c (x : Fin n → ℝ) => c = List.ofFn x) id measurable_id
      (Filter.Eventually.of_forall fun x z hz => ⟨_, toColumn_real hz, rfl⟩)
    rwa [Measure.map_id] at this
  have := mapL_cols (f := fun j =>
        SM.bind (withClips E (members j).clips (rawObj E (members j)) n none none) fun x =>
        SM.lift (toColumn n x)) (vals := List.finRange m) (k := m) (μ := fun j => Measure.pi fun _ : Fin n => ν j)
      (R := fun c (x : Fin n → ℝ) => c = List.ofFn x) (by simp) (fun i => by
        have : (List.finRange m)[i.1]'(by simp) = i := by simp
        rw [this]
        exact hcol i)
  refine this.mono fun cols X h => ?_
  rw [List.forall₂_iff_get] at h
  obtain ⟨h1, h2⟩ := h
  refine List.ext_getElem (by rw [h1]; simp [colsOf]) fun i hi1 hi2 => ?_
  have := h2 i hi1 (by rw [← h1]; exact hi1)
  simp only [List.get_eq_getElem, List.getElem_ofFn] at this
  rw [this]
  simp [colsOf]

end

/-! ### Measurability -/

theorem measurable_rkF {n : ℕ} (i : Fin n) : Measurable fun x : Fin n → ℝ => rkF x i := by
  unfold rkF
  refine measurable_const.add ?_
  have : (fun x : Fin n → ℝ => (Finset.univ.filter fun j => x j < x i).card)
      = fun x => ∑ j, if x j < x i then 1 else 0 := by
    funext x
    rw [Finset.card_filter]
  rw [this]
  refine Finset.measurable_sum _ fun j _ => ?_
  exact Measurable.ite (measurableSet_lt (measurable_pi_apply j) (measurable_pi_apply i)) measurable_const
    measurable_const

theorem rkF_sameOrder {n : ℕ} (x : Fin n → ℝ) : SameOrder (fun r => (rkF x r : ℝ)) x := by
  intro a b
  rw [Nat.cast_lt]
  exact rkF_lt_iff x a b

/-- The result of inducing a correlation, as a measurable function on the set where it succeeds; each column of
it selects positions of the column of the data. -/
theorem induce_measurable {C : CorrEnv ℝ} (hA : IsArgsort C.argsort) (hC : RowBlind C) (G : CorrGroup ℝ)
    {m n : ℕ} (hm : 0 < m) :
    ∃ (OK : Set (Fin m → Fin n → ℝ)) (T : (Fin m → Fin n → ℝ) → Fin m → Fin n → ℝ),
      MeasurableSet OK ∧ Measurable T ∧
      (∀ X ∈ OK, G.induce C (colsOf X) = .ok (colsOf (T X))) ∧
      (∀ X, X ∉ OK → ∃ e, G.induce C (colsOf X) = .error e) ∧
      (∀ X, ∃ τ : Fin m → Fin n → Fin n, ∀ Y, (∀ j, SameOrder (X j) (Y j)) → (X ∈ OK ↔ Y ∈ OK) ∧
        T Y = fun j => Y j ∘ τ j) := by
  classical
  set rk : (Fin m → Fin n → ℝ) → Fin m → Fin n → ℕ := fun X j r => rkF (X j) r with hrk
  have hrkm : Measurable rk := measurable_pi_lambda _ fun j => measurable_pi_lambda _ fun r =>
    (measurable_rkF r).comp (measurable_pi_apply j)
  have hrko : ∀ X Y : Fin m → Fin n → ℝ, (∀ j, SameOrder (X j) (Y j)) → rk X = rk Y := by
    intro X Y h
    funext j r
    simp only [hrk, rkF_order (h j)]
  set cast : (Fin m → Fin n → ℕ) → Fin m → Fin n → ℝ := fun N j r => (N j r : ℝ) with hcast
  have hso : ∀ X j, SameOrder (cast (rk X) j) (X j) := fun X j => rkF_sameOrder (X j)
  set Good : (Fin m → Fin n → ℕ) → Prop := fun N => ∃ τ : Fin m → Fin n → Fin n,
    ∀ Y : Fin m → Fin n → ℝ, (∀ j, SameOrder (cast N j) (Y j)) →
      G.induce C (colsOf Y) = .ok (colsOf fun j => Y j ∘ τ j) with hGood
  set τ : (Fin m → Fin n → ℕ) → Fin m → Fin n → Fin n :=
    fun N => if h : Good N then h.choose else fun _ r => r with hτ
  refine ⟨rk ⁻¹' {N | Good N}, fun X j => X j ∘ τ (rk X) j, ?_, ?_, ?_, ?_, ?_⟩
  · exact hrkm (Set.to_countable _).measurableSet
  · refine measurable_pi_lambda _ fun j => measurable_pi_lambda _ fun r => ?_
    have h1 : Measurable fun p : (Fin m → Fin n → ℕ) × (Fin m → Fin n → ℝ) => p.2 j (τ p.1 j r) :=
      measurable_from_prod_countable_right fun N =>
        (measurable_pi_apply (τ N j r)).comp (measurable_pi_apply j)
    exact h1.comp (hrkm.prodMk measurable_id)
  · intro X hX
    have hX' : Good (rk X) := hX
    have := hX'.choose_spec X (hso X)
    simp only [hτ, dif_pos hX']
    exact this
  · intro X hX
    have hX' : ¬ Good (rk X) := hX
    rcases induce_order hA hC G hm (cast (rk X)) with h | ⟨e, h⟩
    · exact absurd h hX'
    · exact ⟨e, h X (hso X)⟩
  · intro X
    refine ⟨τ (rk X), fun Y h => ?_⟩
    have e := hrko X Y h
    refine ⟨?_, ?_⟩
    · show Good (rk X) ↔ Good (rk Y)
      rw [e]
    · funext j
      show Y j ∘ τ (rk Y) j = Y j ∘ τ (rk X) j
      rw [e]

/-- The tables for which the reordering succeeds and loses nothing of column `j`. -/
def keptSet {m n : ℕ} (OK : Set (Fin m → Fin n → ℝ)) (T : (Fin m → Fin n → ℝ) → Fin m → Fin n → ℝ)
    (j : Fin m) : Set (Fin m → Fin n → ℝ) :=
  {X | X ∈ OK ∧ ∃ π : Equiv.Perm (Fin n), T X j = X j ∘ π}

theorem kept_law {C : CorrEnv ℝ} (hA : IsArgsort C.argsort) (hC : RowBlind C) (G : CorrGroup ℝ)
    {m n : ℕ} (hm : 0 < m) {OK : Set (Fin m → Fin n → ℝ)} {T : (Fin m → Fin n → ℝ) → Fin m → Fin n → ℝ}
    (hOK : MeasurableSet OK) (hT : Measurable T)
    (hok : ∀ X ∈ OK, G.induce C (colsOf X) = .ok (colsOf (T X)))
    (herr : ∀ X, X ∉ OK → ∃ e, G.induce C (colsOf X) = .error e)
    (hord : ∀ X, ∃ τ : Fin m → Fin n → Fin n, ∀ Y, (∀ j, SameOrder (X j) (Y j)) → (X ∈ OK ↔ Y ∈ OK) ∧
        T Y = fun j => Y j ∘ τ j)
    (ν : Fin m → Measure ℝ) [∀ j, IsProbabilityMeasure (ν j)] (j : Fin m) :
    MeasurableSet (keptSet OK T j) ∧
    ([NullSingletonClass (ν j)] → ∀ B : Set (Fin n → ℝ), MeasurableSet B →
      tableLaw n ν (keptSet OK T j ∩ {X | T X j ∈ B})
        = tableLaw n ν (keptSet OK T j) * (Measure.pi fun _ : Fin n => ν j) B) := by
  have hTj : Measurable fun X => T X j := (measurable_pi_apply j).comp hT
  have hcomp : ∀ σ : Equiv.Perm (Fin n), Measurable fun x : Fin n → ℝ => x ∘ σ := fun σ =>
    measurable_pi_lambda _ fun i => measurable_pi_apply _
  have hmeas : MeasurableSet (keptSet OK T j) := by
    have e : keptSet OK T j = OK ∩ ⋃ π : Equiv.Perm (Fin n), {X | T X j = X j ∘ π} := by
      ext X
      simp [keptSet]
    rw [e]
    refine hOK.inter (MeasurableSet.iUnion fun π => ?_)
    exact measurableSet_eq_fun hTj ((hcomp π).comp (measurable_pi_apply j))
  have hmem : ∀ (σ : Equiv.Perm (Fin n)) X, X ∈ OK → rowsOf σ X ∈ OK ∧ T (rowsOf σ X) = rowsOf σ (T X) := by
    intro σ X hX
    have h1 := (induce_rows hA hC G hm X σ).1 _ (hok X hX)
    have h2 : rowsOf σ X ∈ OK := by
      by_contra hc
      obtain ⟨e, he⟩ := herr _ hc
      have he' : G.induce C (colsOf fun j => X j ∘ σ) = .error e := he
      rw [h1] at he'
      cases he'
    have h3 := hok _ h2
    have h3' : G.induce C (colsOf fun j => X j ∘ σ) = .ok (colsOf (T (rowsOf σ X))) := h3
    rw [h1] at h3'
    exact ⟨h2, (colsOf_inj (Except.ok.inj h3')).symm⟩
  refine ⟨hmeas, fun B hB => ?_⟩
  refine reorder_law ν hmeas ?_ ?_ j (T := fun X => T X j) hTj ?_ ?_ hB
  · rintro σ X ⟨hX, π, hπ⟩
    obtain ⟨h1, h2⟩ := hmem σ X hX
    refine ⟨h1, σ.trans (π.trans σ.symm), ?_⟩
    funext r
    rw [h2]
    simp only [rowsOf, hπ, Function.comp, Equiv.trans_apply, Equiv.apply_symm_apply]
  · rintro X Y h ⟨hX, π, hπ⟩
    obtain ⟨τ, hτ⟩ := hord X
    obtain ⟨h1, h2⟩ := hτ Y h
    obtain ⟨-, h3⟩ := hτ X fun k a b => Iff.rfl
    refine ⟨h1.1 hX, π, ?_⟩
    rw [h3] at hπ
    rw [h2]
    funext r
    have hr := congrFun hπ r
    simp only [Function.comp] at hr ⊢
    exact le_antisymm (((h j).le _ _).1 hr.le) (((h j).le _ _).1 hr.ge)
  · rintro σ X ⟨hX, -⟩
    have := (hmem σ X hX).2
    exact congrFun this j
  · rintro X ⟨-, π, hπ⟩
    exact ⟨π, hπ⟩

end Verif
