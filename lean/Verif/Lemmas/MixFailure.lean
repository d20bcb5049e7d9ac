import Verif.Lemmas.DenoteInduct

/-!
# Helper lemmas: how often a mixture with too little weight raises
-/

namespace Verif

open MeasureTheory Spec

theorem mapExcept_raises {α β : Type} {f : α → Except PyErr β} {e : PyErr} :
    ∀ {l : List α}, (∀ x ∈ l, (∃ v, f x = .ok v) ∨ f x = .error e) → (∃ x ∈ l, f x = .error e) →
      mapExcept f l = .error e
  | [], _, h => by simp at h
  | x :: l, h, h' => by
    simp only [mapExcept]
    rcases h x List.mem_cons_self with ⟨v, hv⟩ | hv
    · obtain ⟨y, hy, he⟩ := h'
      rcases List.mem_cons.1 hy with rfl | hy
      · rw [hv] at he; cases he
      · rw [hv, mapExcept_raises (fun z hz => h z (List.mem_cons_of_mem _ hz)) ⟨y, hy, he⟩]
        rfl
    · rw [hv]
      rfl

theorem unitLaw_Iic {t : ℝ} (h0 : 0 ≤ t) (h1 : t < 1) : unitLaw (Set.Iic t) = ENNReal.ofReal t := by
  rw [unitLaw, Measure.restrict_apply measurableSet_Iic]
  have : Set.Iic t ∩ Set.Ico 0 1 = Set.Icc 0 t := by
    ext u
    simp only [Set.mem_inter_iff, Set.mem_Iic, Set.mem_Ico, Set.mem_Icc]
    constructor
    · rintro ⟨a, b, c⟩; exact ⟨b, a⟩
    · rintro ⟨a, b⟩; exact ⟨b, a, by linarith⟩
  rw [this, Real.volume_Icc, sub_zero]

section

variable {Ω : Type} [MeasurableSpace Ω] (S : IdealSource Ω)
  {left : ℕ → ℕ → Option (List (Scalar ℝ))}

variable {E : Env (ℕ → Ω) ℝ} (hE : E.gen = S.gen) (hU : S.primLaw (.uniform 0 1) = some unitLaw)
  {ι : Type} {comp : ι → ℕ → SM (ℕ → Ω) ℝ (Samples ℝ)} {vals : List ι} {k : ℕ} {ws : List ℝ}
  (hv : vals.length = k) (hk : ws.length = k) {ν : Fin k → Measure ℝ} [∀ i, IsProbabilityMeasure (ν i)]
  (hpos : ∀ w ∈ ws, 0 < w) (hne : ws ≠ [])

include hE hU hv hk hpos hne

/-- Errors as values: the `n` uniform numbers decide whether the call for many samples succeeds. -/
theorem mixtureLarge_outcome (n : ℕ)
    (hcomp : ∀ i : Fin k, DrawsLaw S.law left (comp (vals[i.1]'(hv ▸ i.2)) n) (Reads n)
      (Measure.pi fun _ : Fin n => ν i)) :
    ∃ U : (ℕ → Ω) → Fin n → ℝ, Measurable U ∧
      (streamLaw S.law).map U = (Measure.pi fun _ : Fin n => unitLaw) ∧
      ∀ᵐ ω ∂(streamLaw S.law), ∃ s',
        ((∀ j, U ω j ≤ ws.sum) → ∃ z x, mixtureLarge E comp ws vals n ⟨ω, left⟩ = (.ok z, s') ∧ Reads n z x) ∧
        (¬ (∀ j, U ω j ≤ ws.sum) → mixtureLarge E comp ws vals n ⟨ω, left⟩ = (.error .indexError, s')) := by
  have hnn : ∀ w ∈ ws, 0 ≤ w := fun w hw => (hpos w hw).le
  have h1 := mapL_law S n hv hcomp
  have h2 := (drawSM_law S (left := left) hE hU n).mono_ae
    (R₂ := fun us x => List.Forall₂ (fun v r => v = .flt r) us (List.ofFn x))
    (Filter.Eventually.of_forall fun x us hx => hx.imp fun v r h => by
        obtain ⟨⟨u, rfl, -, -, hu⟩, hr⟩ := h
        rcases hr with e | ⟨z, e, -⟩
        · cases e; rfl
        · cases e)
  have h3 := h1.bind₂ h2 (h := fun pre us => .ok (do
      let vs ← mapExcept (pickValue ws pre) us.zipIdx
      .ok (Samples.simplify (.arr (npArray E.fmt vs)))))
    (R'' := fun (r : Except PyErr (Samples ℝ)) (u : Fin n → ℝ) =>
      ((∀ j, u j ≤ ws.sum) → ∃ z x, r = .ok z ∧ Reads n z x) ∧
      (¬ (∀ j, u j ≤ ws.sum) → r = .error .indexError)) Prod.snd measurable_snd
    (Filter.Eventually.of_forall fun p pre us hpre hus => by
      refine ⟨_, rfl, ?_⟩
      obtain ⟨hl, hr⟩ := hpre
      have hul : us.length = n := by rw [hus.length_eq, List.length_ofFn]
      have hlen : ∀ i : Fin k, (pre[i.1]'(hl ▸ i.2)).toList.length = n := fun i => by
        rw [(hr i).2.length_eq, List.length_ofFn]
      have hval : ∀ i (hin : i < n), us[i]'(hul ▸ hin) = .flt (p.2 ⟨i, hin⟩) := fun i hin => by
        have hi0 := hus.get (by omega : i < us.length) (by simpa using hin)
        simpa using hi0
      have hok : ∀ i (hin : i < n), p.2 ⟨i, hin⟩ ≤ ws.sum →
          ∃ v, pickValue ws pre (us[i]'(hul ▸ hin), i) = .ok v ∧
            IsReal v (p.1 ⟨i, hin⟩ (pickFin ws hk hpos hne (p.2 ⟨i, hin⟩))) := by
        intro i hin hle
        have hpk := (C06_strategies_partial ws hnn hne (p.2 ⟨i, hin⟩) hle).1
        have hlt2 : pickSmall ws (p.2 ⟨i, hin⟩) < pre.length :=
          hl ▸ (pickFin ws hk hpos hne (p.2 ⟨i, hin⟩)).2
        have hlt3 : i < (pre[pickSmall ws (p.2 ⟨i, hin⟩)]).toList.length := by
          have := hlen (pickFin ws hk hpos hne (p.2 ⟨i, hin⟩))
          simp only [pickFin] at this
          rw [this]; exact hin
        refine ⟨(pre[pickSmall ws (p.2 ⟨i, hin⟩)]).toList[i], ?_, ?_⟩
        · unfold pickValue
          simp only [hval i hin, hpk, List.getElem?_eq_getElem hlt2, List.getElem?_eq_getElem hlt3]
        · obtain ⟨_, h'⟩ := forall₂_ofFn.1 (hr (pickFin ws hk hpos hne (p.2 ⟨i, hin⟩))).2
          exact h' ⟨i, hin⟩
      have herr : ∀ i (hin : i < n), ¬ p.2 ⟨i, hin⟩ ≤ ws.sum →
          pickValue ws pre (us[i]'(hul ▸ hin), i) = .error .indexError := by
        intro i hin hlt
        unfold pickValue
        simp only [hval i hin, (pickLarge_error_iff ws hnn hne _).2 (not_le.1 hlt)]
      constructor
      · intro hall
        choose v hv1 hv2 using fun j : Fin n => hok j.1 j.2 (hall j)
        have hm : mapExcept (pickValue ws pre) us.zipIdx = .ok (List.ofFn v) := by
          refine mapExcept_ok.2 (List.forall₂_iff_get.2 ⟨by simp [hul], fun i hi hi' => ?_⟩)
          have hin : i < n := by simpa using hi'
          simpa using hv1 ⟨i, hin⟩
        refine ⟨_, fun j => p.1 j (pickFin ws hk hpos hne (p.2 j)), by simp only [hm]; rfl,
          reads_simplify (npArray_real (forall₂_ofFn.2 ⟨by simp, fun j => by simpa using hv2 j⟩))⟩
      · intro hall
        push Not at hall
        obtain ⟨j, hj⟩ := hall
        have hm : mapExcept (pickValue ws pre) us.zipIdx = .error .indexError := by
          refine mapExcept_raises ?_ ⟨(us[j.1]'(hul ▸ j.2), j.1), ?_, herr j.1 j.2 (not_le.2 hj)⟩
          · rintro ⟨v, i⟩ hvi
            obtain ⟨-, h2, h3⟩ := List.mem_zipIdx hvi
            have hin : i < n := by simpa [hul] using h2
            have h3' : v = us[i]'(hul ▸ hin) := by simpa using h3
            rw [h3']
            by_cases hle : p.2 ⟨i, hin⟩ ≤ ws.sum
            · obtain ⟨v, hv, -⟩ := hok i hin hle
              exact Or.inl ⟨v, hv⟩
            · exact Or.inr (herr i hin hle)
          · rw [List.mem_iff_getElem]
            exact ⟨j.1, by simp [hul], by simp⟩
        simp only [hm]
        rfl)
  rw [Measure.map_snd_prod] at h3
  simp only [measure_univ, one_smul] at h3
  obtain ⟨F, hF, hmap, hae⟩ := h3
  refine ⟨fun ω => (F ω).1, by fun_prop, ?_, ?_⟩
  · have : (fun ω => (F ω).1) = Prod.fst ∘ F := rfl
    rw [this, ← Measure.map_map measurable_fst hF, hmap, Measure.map_fst_prod]
    simp
  · filter_upwards [hae] with ω hω
    obtain ⟨r, hr, hR⟩ := hω
    refine ⟨⟨(F ω).2, left⟩, ?_⟩
    have hrun : mixtureLarge E comp ws vals n ⟨ω, left⟩ = (r, ⟨(F ω).2, left⟩) := by
      simp only [SM.bind, SM.lift] at hr
      simp only [mixtureLarge, SM.bind, SM.lift]
      cases hA : SM.mapL (fun i => comp i n) vals ⟨ω, left⟩ with
      | mk a s =>
        rw [hA] at hr
        cases a with
        | error e => simp at hr
        | ok pre =>
          dsimp only at hr ⊢
          cases hB : drawSM E (.uniform 0 1) n s with
          | mk b s2 =>
            rw [hB] at hr
            cases b with
            | error e => simp at hr
            | ok us =>
              simp only [Prod.mk.injEq, Except.ok.injEq] at hr
              simp only [hr.1, hr.2]
    rw [hrun]
    refine ⟨fun hall => ?_, fun hall => by rw [hR.2 hall]⟩
    obtain ⟨z, x, hz, hx⟩ := hR.1 hall
    exact ⟨z, x, by rw [hz], hx⟩

end

end Verif
