import Verif.Lemmas.DenoteDraw

/-!
# Helper lemmas: the law of a mixture's samples
-/

namespace Verif

open MeasureTheory Spec

theorem pi_dirac_const (r : ℝ) (n : ℕ) :
    (Measure.pi fun _ : Fin n => Measure.dirac r) = Measure.dirac fun _ => r := by
  refine Measure.pi_eq fun s hs => ?_
  rw [Measure.dirac_apply' _ (MeasurableSet.univ_pi hs)]
  by_cases hall : ∀ i, r ∈ s i
  · rw [Set.indicator_of_mem (by simpa using hall)]
    simp [Measure.dirac_apply' _ (hs _), hall]
  · rw [Set.indicator_of_notMem (by simpa using hall)]
    push Not at hall
    obtain ⟨i, hi⟩ := hall
    exact (Finset.prod_eq_zero (Finset.mem_univ i) (by simp [Measure.dirac_apply' _ (hs _), hi])).symm

/-- The uniform law on `[0, 1)`. -/
noncomputable def unitLaw : Measure ℝ := volume.restrict (Set.Ico 0 1)

instance : IsProbabilityMeasure unitLaw := by
  refine ⟨?_⟩
  simp [unitLaw]

/-- The component picked. -/
noncomputable def pickFin {k : ℕ} (ws : List ℝ) (hk : ws.length = k) (hpos : ∀ w ∈ ws, 0 < w)
    (hne : ws ≠ []) (u : ℝ) : Fin k :=
  ⟨pickSmall ws u, hk ▸ C06_small_total ws (fun w hw => (hpos w hw).le) hne u⟩

section Pick

variable {k : ℕ} {ws : List ℝ} (hk : ws.length = k) (hpos : ∀ w ∈ ws, 0 < w) (hne : ws ≠ [])

theorem measurableSet_pickSmall (i : ℕ) (hpos : ∀ w ∈ ws, 0 < w) (hne : ws ≠ []) :
    MeasurableSet {u : ℝ | pickSmall ws u = i} := by
  have : {u : ℝ | pickSmall ws u = i}
      = {u | i < ws.length ∧ (u ≤ (ws.take (i + 1)).sum ∨ i + 1 = ws.length) ∧
          (i = 0 ∨ (ws.take i).sum < u)} := by
    ext u
    exact pickSmall_iff ws (fun w hw => (hpos w hw).le) hne u i
  rw [this]
  have e : {u : ℝ | i < ws.length ∧ (u ≤ (ws.take (i + 1)).sum ∨ i + 1 = ws.length) ∧
          (i = 0 ∨ (ws.take i).sum < u)}
      = {_u | i < ws.length} ∩ ((Set.Iic (ws.take (i + 1)).sum ∪ {_u | i + 1 = ws.length}) ∩
          ({_u | i = 0} ∪ Set.Ioi (ws.take i).sum)) := rfl
  rw [e]
  exact (MeasurableSet.const _).inter ((measurableSet_Iic.union (MeasurableSet.const _)).inter
    ((MeasurableSet.const _).union measurableSet_Ioi))

theorem measurable_pickFin : Measurable (pickFin ws hk hpos hne) := by
  refine measurable_to_countable' fun i => ?_
  have : pickFin ws hk hpos hne ⁻¹' {i} = {u | pickSmall ws u = i.1} := by
    ext u
    simp [pickFin, Fin.ext_iff]
  rw [this]
  exact measurableSet_pickSmall i.1 hpos hne

theorem map_pickFin (hsum : ws.sum = 1) (i : Fin k) :
    (unitLaw.map (pickFin ws hk hpos hne)) {i} = ENNReal.ofReal (ws[i.1]'(hk ▸ i.2)) := by
  rw [Measure.map_apply (measurable_pickFin hk hpos hne) (measurableSet_singleton i)]
  have : pickFin ws hk hpos hne ⁻¹' {i} = {u | pickSmall ws u = i.1} := by
    ext u
    simp [pickFin, Fin.ext_iff]
  rw [this, unitLaw, Measure.restrict_apply (measurableSet_pickSmall i.1 hpos hne),
    ← (C05_component_probability ws (fun w hw => (hpos w hw).le) hsum i.1 (hk ▸ i.2)).1]
  unfold prob
  congr 1
  ext u
  simp only [Set.mem_inter_iff, Set.mem_setOf_eq, Set.mem_Ico]
  tauto

end Pick

/-- The mixture of laws. -/
noncomputable def mixLaw {k : ℕ} (ws : List ℝ) (hk : ws.length = k) (ν : Fin k → Measure ℝ) :
    Measure ℝ := ∑ i : Fin k, ENNReal.ofReal (ws[i.1]'(hk ▸ i.2)) • ν i

theorem mixLaw_prob {k : ℕ} {ws : List ℝ} (hk : ws.length = k) (hpos : ∀ w ∈ ws, 0 < w)
    (hsum : ws.sum = 1) (ν : Fin k → Measure ℝ) [∀ i, IsProbabilityMeasure (ν i)] :
    IsProbabilityMeasure (mixLaw ws hk ν) := by
  refine ⟨?_⟩
  simp only [mixLaw, Measure.coe_finset_sum, Finset.sum_apply, Measure.smul_apply, measure_univ,
    smul_eq_mul, mul_one]
  rw [← ENNReal.ofReal_sum_of_nonneg fun i _ => (hpos _ (List.getElem_mem _)).le]
  subst hk
  rw [Fin.sum_univ_getElem, hsum, ENNReal.ofReal_one]

theorem map_pick_value {k : ℕ} {ws : List ℝ} (hk : ws.length = k) (hpos : ∀ w ∈ ws, 0 < w)
    (hne : ws ≠ []) (hsum : ws.sum = 1) (ν : Fin k → Measure ℝ) [∀ i, IsProbabilityMeasure (ν i)] :
    Measurable (fun p : (Fin k → ℝ) × ℝ => p.1 (pickFin ws hk hpos hne p.2)) ∧
    ((Measure.pi ν).prod unitLaw).map (fun p => p.1 (pickFin ws hk hpos hne p.2)) = mixLaw ws hk ν := by
  have hp := measurable_pickFin hk hpos hne
  have hm0 : Measurable fun p : (Fin k → ℝ) × Fin k => p.1 p.2 :=
    measurable_from_prod_countable_left fun i => measurable_pi_apply i
  have hm : Measurable fun p : (Fin k → ℝ) × ℝ => p.1 (pickFin ws hk hpos hne p.2) :=
    hm0.comp (measurable_fst.prodMk (hp.comp measurable_snd))
  refine ⟨hm, ?_⟩
  ext s hs
  rw [Measure.map_apply hm hs, Measure.prod_apply_symm (hm hs)]
  have e : ∀ u : ℝ, Measure.pi ν ((fun x => (x, u)) ⁻¹'
      ((fun p : (Fin k → ℝ) × ℝ => p.1 (pickFin ws hk hpos hne p.2)) ⁻¹' s))
      = ν (pickFin ws hk hpos hne u) s := by
    intro u
    have h := (measurePreserving_eval ν (pickFin ws hk hpos hne u)).map_eq
    conv_rhs => rw [← h]
    rw [Measure.map_apply (measurable_pi_apply (pickFin ws hk hpos hne u)) hs]
    rfl
  simp_rw [e]
  have hmap : ∫⁻ u, ν (pickFin ws hk hpos hne u) s ∂unitLaw
      = ∫⁻ i, ν i s ∂(unitLaw.map (pickFin ws hk hpos hne)) :=
    (lintegral_map (f := fun i => ν i s) (measurable_of_finite _) hp).symm
  rw [hmap, lintegral_fintype]
  simp only [mixLaw, Measure.coe_finset_sum, Finset.sum_apply, Measure.smul_apply, smul_eq_mul]
  refine Finset.sum_congr rfl fun i _ => ?_
  rw [map_pickFin hk hpos hne hsum, mul_comm]

theorem mapL_law {Ω : Type} [MeasurableSpace Ω] (S : IdealSource Ω)
    {left : ℕ → ℕ → Option (List (Scalar ℝ))} {ι : Type} {comp : ι → ℕ → SM (ℕ → Ω) ℝ (Samples ℝ)}
    {vals : List ι} {k : ℕ} {ν : Fin k → Measure ℝ} [∀ i, IsProbabilityMeasure (ν i)] (n : ℕ)
    (hv : vals.length = k)
    (hcomp : ∀ i : Fin k, DrawsLaw S.law left (comp (vals[i.1]'(hv ▸ i.2)) n) (Reads n)
      (Measure.pi fun _ : Fin n => ν i)) :
    DrawsLaw S.law left (SM.mapL (fun i => comp i n) vals)
      (fun pre Y => ∃ h : pre.length = k, ∀ i : Fin k, Reads n (pre[i.1]'(lt_of_lt_of_eq i.2 h.symm)) fun j => Y j i)
      (Measure.pi fun _ : Fin n => Measure.pi ν) := by
  induction vals generalizing k with
  | nil =>
    simp only [List.length_nil] at hv
    subst hv
    have h : DrawsLaw S.law left (SM.pure ([] : List (Samples ℝ)))
        (fun pre (Y : Fin n → Fin 0 → ℝ) => ∃ h : pre.length = 0, ∀ i : Fin 0,
          Reads n (pre[i.1]'(lt_of_lt_of_eq i.2 h.symm)) fun j => Y j i) (Measure.dirac fun _ => Fin.elim0) :=
      DrawsLaw.pure ⟨rfl, fun i => i.elim0⟩
    have e : (Measure.pi fun _ : Fin n => Measure.pi ν) = Measure.dirac fun _ => Fin.elim0 := by
      ext s _
      rcases Set.eq_empty_or_nonempty s with rfl | ⟨y, hy⟩
      · simp
      · have : s = Set.univ := Set.eq_univ_of_forall fun z => Subsingleton.elim y z ▸ hy
        rw [this]
        simp
    rw [e]
    exact h
  | cons a vals ih =>
    obtain ⟨k, rfl⟩ : ∃ k', k = k' + 1 := ⟨vals.length, by simpa using hv.symm⟩
    have hv' : vals.length = k := by simpa using hv
    have h0 := hcomp 0
    have hs := ih (ν := fun i => ν i.succ) hv' fun i => by
      have := hcomp i.succ
      simpa using this
    have := (h0.pair hs).bind_lift (h := fun c => .ok (c.1 :: c.2))
      (R' := fun (pre : List (Samples ℝ)) (Y : Fin n → Fin (k + 1) → ℝ) => ∃ h : pre.length = k + 1, ∀ i : Fin (k + 1),
        Reads n (pre[i.1]'(lt_of_lt_of_eq i.2 h.symm)) fun j => Y j i)
      (fun p j => (Fin.cons (p.1 j) (p.2 j) : Fin (k + 1) → ℝ))
      (measurable_pi_lambda _ fun j => (measurable_cons k).comp
        (((measurable_pi_apply j).comp measurable_fst).prodMk
          ((measurable_pi_apply j).comp measurable_snd)))
      (Filter.Eventually.of_forall fun p c hc => ⟨_, rfl, by
        obtain ⟨hc1, h, hc2⟩ := hc
        refine ⟨by simp [h], fun i => ?_⟩
        refine Fin.cases ?_ (fun i => ?_) i
        · simpa using hc1
        · simpa using hc2 i⟩)
    rw [map_zip_pi n (ν 0) (Measure.pi fun i : Fin k => ν i.succ)
      (fun p => (Fin.cons p.1 p.2 : Fin (k + 1) → ℝ)) (measurable_cons k), map_cons_pi] at this
    refine this.congr fun ω => ?_
    simp only [SM.mapL, SM.bind, SM.pure, SM.lift, List.getElem_cons_zero, Fin.val_zero]
    cases comp a n ⟨ω, left⟩ with
    | mk r s =>
      cases r with
      | error e => rfl
      | ok a =>
        dsimp only
        cases SM.mapL (fun i => comp i n) vals s with
        | mk r' s' => cases r' <;> rfl

section Mixture

variable {Ω : Type} [MeasurableSpace Ω] (S : IdealSource Ω)
  {left : ℕ → ℕ → Option (List (Scalar ℝ))}

variable {E : Env (ℕ → Ω) ℝ} (hE : E.gen = S.gen) (hU : S.primLaw (.uniform 0 1) = some unitLaw)
  {ι : Type} {comp : ι → ℕ → SM (ℕ → Ω) ℝ (Samples ℝ)} {vals : List ι} {k : ℕ} {ws : List ℝ}
  (hv : vals.length = k) (hk : ws.length = k) {ν : Fin k → Measure ℝ} [∀ i, IsProbabilityMeasure (ν i)]
  (hpos : ∀ w ∈ ws, 0 < w) (hne : ws ≠ []) (hsum : ws.sum = 1)

include hE hU hpos hne hsum

theorem mixtureOne_law
    (hcomp : ∀ i : Fin k, DrawsLaw S.law left (comp (vals[i.1]'(hv ▸ i.2)) 1) (Reads 1)
      (Measure.pi fun _ : Fin 1 => ν i)) :
    DrawsLaw S.law left (mixtureOne E comp ws vals) (fun s r => ∃ v, s = .scalar v ∧ IsReal v r)
      (mixLaw ws hk ν) := by
  have h1 := (drawSM_law S (left := left) hE hU 1).map
    (R' := fun us i => ∃ u, us = [.flt u] ∧ pickFin ws hk hpos hne u = i)
    (fun x => pickFin ws hk hpos hne (x 0)) ((measurable_pickFin hk hpos hne).comp (measurable_pi_apply 0))
    (by
      intro us x h
      simp only [List.ofFn_succ, List.ofFn_zero, List.forall₂_cons_right_iff,
        List.forall₂_nil_right_iff] at h
      obtain ⟨v, l, ⟨⟨u, rfl, -⟩, hu⟩, rfl, rfl⟩ := h
      refine ⟨u, rfl, ?_⟩
      rcases hu with e | ⟨z, e, -⟩
      · cases e; rfl
      · cases e)
  have h2 : (Measure.pi fun _ : Fin 1 => unitLaw).map (fun x => pickFin ws hk hpos hne (x 0))
      = unitLaw.map (pickFin ws hk hpos hne) := by
    conv_rhs => rw [← pi_map_eval unitLaw (0 : Fin 1)]
    rw [Measure.map_map (measurable_pickFin hk hpos hne) (measurable_pi_apply 0)]
    rfl
  rw [h2] at h1
  have h3 : ∀ i : Fin k, DrawsLaw S.law left (comp (vals[i.1]'(hv ▸ i.2)) 1)
      (fun s r => ∃ v, s = .scalar v ∧ IsReal v r) (ν i) := by
    intro i
    have := (hcomp i).map (R' := fun s r => ∃ v, s = Samples.scalar v ∧ IsReal v r)
      (fun x => x 0) (measurable_pi_apply 0) fun s x hx => reads_one hx
    rwa [pi_map_eval] at this
  have hl : mixLaw ws hk ν = ∑ i, (unitLaw.map (pickFin ws hk hpos hne)) {i} • ν i := by
    simp_rw [map_pickFin hk hpos hne hsum]
    rfl
  rw [hl]
  unfold mixtureOne
  refine h1.choose h3 ?_
  rintro us i ⟨u, rfl, rfl⟩ ω
  have hlt : pickSmall ws u < vals.length := hv ▸ (pickFin ws hk hpos hne u).2
  simp only [List.getElem?_eq_getElem hlt]
  rfl

theorem mixtureSmall_law (n : ℕ)
    (hcomp : ∀ i : Fin k, DrawsLaw S.law left (comp (vals[i.1]'(hv ▸ i.2)) 1) (Reads 1)
      (Measure.pi fun _ : Fin 1 => ν i)) :
    DrawsLaw S.law left (mixtureSmall E comp ws vals n) (Reads n)
      (Measure.pi fun _ : Fin n => mixLaw ws hk ν) := by
  have hp := mixLaw_prob hk hpos hsum ν
  have h := (mixtureOne_law S hE hU hv hk hpos hne hsum hcomp).replicateL n
  have h' := h.bind_lift (h := fun ss => match ss with
    | [s] => .ok s
    | ss => gather E ss) (R' := Reads n) id measurable_id
    (Filter.Eventually.of_forall fun x ss hss => by
      by_cases hn : n = 1
      · subst hn
        simp only [List.ofFn_succ, List.ofFn_zero, List.forall₂_cons_right_iff,
          List.forall₂_nil_right_iff] at hss
        obtain ⟨s, l, ⟨v, rfl, hv⟩, rfl, rfl⟩ := hss
        exact ⟨_, rfl, reads_scalar.2 hv⟩
      · obtain ⟨z, hz, hr⟩ := gather_real E hss
        refine ⟨z, ?_, hr⟩
        have hl : ss.length = n := by rw [hss.length_eq, List.length_ofFn]
        match ss, hl with
        | [], _ => exact hz
        | [s], h => exact absurd h.symm hn
        | _ :: _ :: _, _ => exact hz)
  rw [Measure.map_id] at h'
  refine h'.congr fun ω => ?_
  simp only [mixtureSmall, SM.bind]
  cases SM.replicateL (mixtureOne E comp ws vals) n ⟨ω, left⟩ with
  | mk r s =>
    cases r with
    | error e => rfl
    | ok ss =>
      match ss with
      | [] => rfl
      | [s] => rfl
      | _ :: _ :: _ => rfl

theorem mixtureLarge_law (n : ℕ) (hn : n ≠ 1)
    (hcomp : ∀ i : Fin k, DrawsLaw S.law left (comp (vals[i.1]'(hv ▸ i.2)) n) (Reads n)
      (Measure.pi fun _ : Fin n => ν i)) :
    DrawsLaw S.law left (mixtureLarge E comp ws vals n) (Reads n)
      (Measure.pi fun _ : Fin n => mixLaw ws hk ν) := by
  obtain ⟨hmv, hmap⟩ := map_pick_value hk hpos hne hsum ν
  have h1 := mapL_law S n hv hcomp
  have h2 := drawSM_law S (left := left) hE hU n
  have h2' := h2.mono_ae (R₂ := fun us x => List.Forall₂ (fun v r => v = .flt r ∧ r < 1) us
      (List.ofFn x)) (Filter.Eventually.of_forall fun x us hx => hx.imp fun v r h => by
        obtain ⟨⟨u, rfl, -, -, hu⟩, hr⟩ := h
        rcases hr with e | ⟨z, e, -⟩
        · cases e; exact ⟨rfl, hu (by norm_num)⟩
        · cases e)
  have hmeas : Measurable fun (p : (Fin n → Fin k → ℝ) × (Fin n → ℝ)) (j : Fin n) =>
      p.1 j (pickFin ws hk hpos hne (p.2 j)) := by
    refine measurable_pi_lambda _ fun j => ?_
    have hj : Measurable fun p : (Fin n → Fin k → ℝ) × (Fin n → ℝ) => (p.1 j, p.2 j) :=
      ((measurable_pi_apply j).comp measurable_fst).prodMk ((measurable_pi_apply j).comp measurable_snd)
    exact hmv.comp hj
  have h3 := h1.bind₂ h2' (h := fun pre us => do
      let vs ← mapExcept (pickValue ws pre) us.zipIdx
      .ok (Samples.simplify (.arr (npArray E.fmt vs)))) (R'' := Reads n)
    (fun p j => p.1 j (pickFin ws hk hpos hne (p.2 j)))
    hmeas
    (Filter.Eventually.of_forall fun p pre us hpre hus => by
      obtain ⟨hl, hr⟩ := hpre
      have hul : us.length = n := by rw [hus.length_eq, List.length_ofFn]
      have hlen : ∀ i : Fin k, (pre[i.1]'(hl ▸ i.2)).toList.length = n := fun i => by
        rw [(hr i).2.length_eq, List.length_ofFn]
      let v : Fin n → Scalar ℝ := fun j =>
        (pre[(pickFin ws hk hpos hne (p.2 j)).1]'(hl ▸ (pickFin ws hk hpos hne (p.2 j)).2)).toList[j.1]'(by
          rw [hlen]; exact j.2)
      have hvr : ∀ j, IsReal (v j) (p.1 j (pickFin ws hk hpos hne (p.2 j))) := fun j => by
        have := hr (pickFin ws hk hpos hne (p.2 j))
        obtain ⟨_, h'⟩ := forall₂_ofFn.1 this.2
        exact h' j
      have hm : mapExcept (pickValue ws pre) us.zipIdx = .ok (List.ofFn v) := by
        refine mapExcept_ok.2 (List.forall₂_iff_get.2 ⟨by simp [hul], fun i hi hi' => ?_⟩)
        have hin : i < n := by simpa using hi'
        have hi0 := hus.get (by omega : i < us.length) (by simpa using hin)
        simp only [List.get_eq_getElem, List.getElem_ofFn] at hi0
        obtain ⟨he, hlt⟩ := hi0
        simp only [List.get_eq_getElem, List.getElem_zipIdx, List.getElem_ofFn, Nat.zero_add]
        unfold pickValue
        simp only [he]
        have hpk := (C06_strategies_partial ws (fun w hw => (hpos w hw).le) hne
          (p.2 ⟨i, hin⟩) (hsum ▸ hlt.le)).1
        simp only [hpk]
        have hlt2 : pickSmall ws (p.2 ⟨i, hin⟩) < pre.length :=
          hl ▸ (pickFin ws hk hpos hne (p.2 ⟨i, hin⟩)).2
        simp only [List.getElem?_eq_getElem hlt2]
        have hlt3 : i < (pre[pickSmall ws (p.2 ⟨i, hin⟩)]).toList.length := by
          have := hlen (pickFin ws hk hpos hne (p.2 ⟨i, hin⟩))
          simp only [pickFin] at this
          rw [this]; exact hin
        simp only [List.getElem?_eq_getElem hlt3]
        rfl
      refine ⟨_, by simp only [hm]; rfl, reads_simplify (npArray_real (forall₂_ofFn.2
        ⟨by simp, fun j => by simpa using hvr j⟩))⟩)
  rw [map_zip_pi n (Measure.pi ν) unitLaw _ hmv, hmap] at h3
  exact h3

/-- The law of `n` samples of a mixture. -/
theorem mixtureRun_law (n : ℕ) (hn : 1 ≤ n)
    (hcomp : ∀ m, 1 ≤ m → ∀ i : Fin k, DrawsLaw S.law left (comp (vals[i.1]'(hv ▸ i.2)) m) (Reads m)
      (Measure.pi fun _ : Fin m => ν i)) :
    DrawsLaw S.law left (mixtureRun E comp ws vals n) (Reads n)
      (Measure.pi fun _ : Fin n => mixLaw ws hk ν) := by
  have hvne : vals ≠ [] := by
    rintro rfl
    simp only [List.length_nil] at hv
    exact hne (List.length_eq_zero_iff.1 (hk.trans hv.symm))
  have hproc : (processWeightsValues (fun _ => false) (.list (ws.map some)) .absent
      (.list (vals.map .plain)) false).result = .ok (ws, vals.map .plain) :=
    C07_reprocessing_is_identity ws vals (hk.trans hv.symm) hvne hpos (by rw [hsum]; norm_num)
      (by rw [hsum]; norm_num)
  have hitems : (vals.map VItem.plain).filterMap (VItem.plain? (K := ℝ)) = vals := by
    rw [List.filterMap_map]
    exact List.filterMap_some
  by_cases h1 : k = 1
  · subst h1
    obtain ⟨a, rfl⟩ := List.length_eq_one_iff.1 hv
    obtain ⟨w, rfl⟩ := List.length_eq_one_iff.1 hk
    have hw : w = 1 := by simpa using hsum
    have e : mixLaw [w] hk ν = ν 0 := by
      simp [mixLaw, hw]
    rw [e]
    refine (hcomp n hn 0).congr fun ω => ?_
    unfold mixtureRun
    rw [hproc]
    rfl
  · have hrun : ∀ ω, mixtureRun E comp ws vals n ⟨ω, left⟩
        = (if n > 100 then mixtureLarge E comp ws vals n ⟨ω, left⟩
          else mixtureSmall E comp ws vals n ⟨ω, left⟩) := by
      intro ω
      unfold mixtureRun
      rw [hproc]
      simp only [hitems]
      match vals, hv with
      | [], _ => rfl
      | [a], h => exact absurd h.symm h1
      | _ :: _ :: _, _ => rfl
    by_cases hbig : n > 100
    · refine (mixtureLarge_law S hE hU hv hk hpos hne hsum n (by omega) (hcomp n hn)).congr
        fun ω => ?_
      rw [hrun, if_pos hbig]
    · refine (mixtureSmall_law S hE hU hv hk hpos hne hsum n (hcomp 1 le_rfl)).congr fun ω => ?_
      rw [hrun, if_neg hbig]

end Mixture

end Verif
