import Verif.Lemmas.DenoteDiscrete
import Verif.Lemmas.DenoteInduct
import Verif.Lemmas.PointsLaw
import Verif.Spec.EventLaw

/-!
# Helper lemmas: the law of a sampled text
-/

namespace Verif

open MeasureTheory Spec

section Pick

variable {σ : Type}

/-- Which component `mixture_sample` picks for one sample. -/
noncomputable def pickOne (E : Env σ ℝ) (ws : List ℝ) : SM σ ℝ ℕ :=
  if ws.length = 1 then SM.pure 0
  else SM.bind (drawSM E (.uniform 0 1) 1) fun us => SM.lift (match us with
    | [.flt u] => .ok (pickSmall ws u)
    | _ => .error .unmodelled)

theorem mixtureRun_one {ι : Type} (E : Env σ ℝ) {ws : List ℝ} {vals : List ι} (hlen : ws.length = vals.length)
    (hne : ws ≠ []) (hpos : ∀ w ∈ ws, 0 < w) (hsum : ws.sum = 1) (v : ι → Scalar ℝ) (s : St σ ℝ) :
    mixtureRun E (fun a m => SM.pure (constSamples (v a) m)) ws vals 1 s
      = SM.bind (pickOne E ws) (fun i => match vals[i]? with
          | some a => SM.pure (Samples.scalar (v a))
          | none => SM.throw .indexError) s := by
  have hvne : vals ≠ [] := by
    rintro rfl
    exact hne (List.length_eq_zero_iff.1 hlen)
  have hproc : (processWeightsValues (fun _ => false) (.list (ws.map some)) .absent
      (.list (vals.map .plain)) false).result = .ok (ws, vals.map .plain) :=
    C07_reprocessing_is_identity ws vals hlen hvne hpos (by rw [hsum]; norm_num) (by rw [hsum]; norm_num)
  have hitems : (vals.map VItem.plain).filterMap (VItem.plain? (K := ℝ)) = vals := by
    rw [List.filterMap_map]
    exact List.filterMap_some
  have hc : ∀ a, constSamples (v a) 1 = Samples.scalar (v a) := fun a => rfl
  unfold mixtureRun
  rw [hproc]
  simp only [hitems]
  match vals, hvne, hlen with
  | [a], _, hlen =>
    simp only [pickOne, if_pos (show ws.length = 1 from hlen)]
    rfl
  | a :: b :: l, _, hlen =>
    have h1 : ws.length ≠ 1 := by simp [hlen]
    simp only [pickOne, if_neg h1]
    simp only [mixtureSmall, SM.replicateL, mixtureOne, SM.bind]
    rw [if_neg (by norm_num)]
    cases drawSM E (.uniform 0 1) 1 s with
    | mk r s' =>
      cases r with
      | error e => rfl
      | ok us =>
        rcases us with _ | ⟨x, _ | ⟨_, _⟩⟩
        · rfl
        · cases x with
          | flt u =>
            simp only [SM.lift]
            cases (a :: b :: l)[pickSmall ws u]? with
            | none => rfl
            | some c => simp only [SM.pure, hc]
          | _ => rfl
        · cases x <;> rfl

theorem sampleObj_unbounded (E : Env σ ℝ) (l : Leaf ℝ) (s : St σ ℝ) :
    sampleObj E (.leaf l none none) 1 none none s = rawObj E (.leaf l none none) 1 s := by
  unfold sampleObj withClips
  rw [if_neg (by norm_num)]
  simp only [SM.bind, SM.lift, Obj.clips, combineL, combineR]
  cases rawObj E (.leaf l none none) 1 s with
  | mk r s' => cases r <;> rfl

end Pick

section

variable {Ω : Type} [MeasurableSpace Ω] (S : IdealSource Ω)
  {left : ℕ → ℕ → Option (List (Scalar ℝ))} {E : Env (ℕ → Ω) ℝ} (hE : S.Drives E)
  (hU : S.primLaw (.uniform 0 1) = some unitLaw)

include hE hU

/-- The position of the picked component. -/
theorem pickOne_law {ws : List ℝ} (hne : ws ≠ []) (hpos : ∀ w ∈ ws, 0 < w) (hsum : ws.sum = 1) :
    DrawsLaw S.law left (pickOne E ws) (fun i x => x = (i : ℝ) ∧ i < ws.length)
      (mixLaw ws rfl fun i => Measure.dirac ((i.1 : ℕ) : ℝ)) := by
  have := mixLaw_prob rfl hpos hsum fun i : Fin ws.length => Measure.dirac ((i.1 : ℕ) : ℝ)
  have h := mixtureRun_law S (left := left)
    (comp := fun (a : ℕ) m => SM.pure (constSamples (Scalar.int (K := ℝ) a) m)) (vals := List.range ws.length)
    (ν := fun i : Fin ws.length => Measure.dirac ((i.1 : ℕ) : ℝ)) hE.gen hU (by simp) rfl hpos hne hsum 1 le_rfl
    (fun m _ i => by
      have hi : IsReal (Scalar.int ((i.1 : ℕ) : ℤ)) ((i.1 : ℕ) : ℝ) := Or.inr ⟨i.1, rfl, by simp⟩
      have := DrawsLaw.pure (μ₀ := S.law) (left := left) (R := Reads m) (constSamples_real hi m)
      rw [← pi_dirac_const] at this
      simpa using this)
  have h1 := h.map (R' := fun z r => ∃ v, z = Samples.scalar v ∧ IsReal v r) (fun x => x 0)
    (measurable_pi_apply 0) fun z x hz => reads_one hz
  rw [pi_map_eval] at h1
  obtain ⟨F, hF, hm, hae⟩ := h1
  refine ⟨F, hF, hm, ?_⟩
  filter_upwards [hae] with ω hω
  obtain ⟨z, hz, v, rfl, hv⟩ := hω
  rw [mixtureRun_one E (by simp) hne hpos hsum] at hz
  obtain ⟨i, s1, hi, hz⟩ := SM.bind_ok.1 hz
  by_cases hlt : i < ws.length
  · simp only [List.getElem?_range hlt, SM.pure, Prod.mk.injEq, Except.ok.injEq, Samples.scalar.injEq] at hz
    obtain ⟨rfl, rfl⟩ := hz
    refine ⟨i, hi, ?_, hlt⟩
    rcases hv with e | ⟨z, e, hr⟩
    · cases e
    · cases e
      simpa using hr
  · rw [List.getElem?_eq_none (by simpa using hlt)] at hz
    simp [SM.throw] at hz

/-- A sampled text of a `discrete` whose processed weights and values are known. -/
theorem textDiscrete_law {arg : VArg ℝ (Scalar ℝ)} {ws : List ℝ} {ts : List String}
    (hproc : (processDiscrete arg).result = .ok (ws, ts.map fun t => .plain (.str t)))
    (hlen : ws.length = ts.length) (hsum : ws.sum = 1) (hpos : ∀ w ∈ ws, 0 < w) :
    DrawsLaw S.law left (SM.bind (sampleObj E (.leaf (.categorical arg) none none) 1 none none)
      fun z => SM.lift z.text?) Eq (pointsLaw (ts.zip ws)) := by
  have hne : ws ≠ [] := by rintro rfl; simp at hsum
  have hp := mixLaw_prob rfl hpos hsum fun i : Fin ws.length => Measure.dirac ((i.1 : ℕ) : ℝ)
  set g : ℝ → String := fun x => ts.getD ⌊x⌋₊ "" with hg
  have hgm : Measurable g := (measurable_of_countable fun i : ℕ => ts.getD i "").comp Nat.measurable_floor
  have h := (pickOne_law S (left := left) hE hU hne hpos hsum).bind_lift
    (h := fun i => match ts[i]? with | some t => .ok t | none => .error .indexError) (R' := Eq) g hgm
    (Filter.Eventually.of_forall fun x i hi => by
      obtain ⟨rfl, hlt⟩ := hi
      have hlt' : i < ts.length := hlen ▸ hlt
      refine ⟨ts[i], by simp [hlt'], ?_⟩
      simp [hg, hlt'])
  have hlaw : (mixLaw ws rfl fun i => Measure.dirac ((i.1 : ℕ) : ℝ)).map g = pointsLaw (ts.zip ws) := by
    have h1 : (mixLaw ws rfl fun i => Measure.dirac ((i.1 : ℕ) : ℝ))
        = pointsLaw (((List.range ws.length).map fun i : ℕ => (i : ℝ)).zip ws) := by
      ext s hs
      have := mixLaw_dirac_apply (ws := ws) rfl (rs := (List.range ws.length).map fun i : ℕ => (i : ℝ)) (by simp) s
      simp only [List.getElem_map, List.getElem_range] at this
      rw [this, pointsLaw, listSum_apply, List.map_map, ← List.zip_swap, List.map_map]
      rfl
    rw [h1, pointsLaw_map _ hgm]
    congr 1
    refine List.ext_getElem (by simp [hlen]) fun i h1 h2 => ?_
    simp only [List.length_zip, hlen, min_self] at h2
    simp [hg, h2]
  rw [hlaw] at h
  refine h.congr fun ω => ?_
  have hitems : (ts.map fun t => VItem.plain (K := ℝ) (Scalar.str (K := ℝ) t)).filterMap (VItem.plain? (K := ℝ))
      = ts.map (Scalar.str (K := ℝ)) := by
    rw [List.filterMap_map]
    exact List.filterMap_eq_map_iff_forall_eq_some.2 fun _ _ => rfl
  have hrun := mixtureRun_one E (vals := ts.map (Scalar.str (K := ℝ))) (by simp [hlen]) hne hpos hsum id ⟨ω, left⟩
  have hraw : rawObj E (.leaf (.categorical arg) none none) 1 ⟨ω, left⟩
      = mixtureRun E (fun a m => SM.pure (constSamples (id a) m)) ws (ts.map (Scalar.str (K := ℝ))) 1 ⟨ω, left⟩ := by
    simp only [rawObj, leafSample, SM.bind, SM.lift, hproc, hitems, id]
  unfold SM.bind
  rw [sampleObj_unbounded, hraw, hrun]
  unfold SM.bind
  cases hpk : pickOne E ws ⟨ω, left⟩ with
  | mk r s' =>
    cases r with
    | error e => rfl
    | ok i =>
      simp only [List.getElem?_map]
      cases ts[i]? <;> rfl

theorem textItems_law {ts : List String} (hne : ts ≠ []) :
    DrawsLaw S.law left (SM.bind (sampleObj E (.leaf (.categorical
        (.list (ts.map fun t => .plain (.str t)))) none none) 1 none none) fun z => SM.lift z.text?) Eq
      (pointsLaw (ts.map fun t => (t, 1 / (ts.length : ℝ)))) := by
  obtain ⟨ws, xs, hproc, hlen, hsum, hpos, hw⟩ := C08_empirical (K := ℝ) (ts.map (Scalar.str (K := ℝ))) (by simpa)
  have hmem : ∀ x ∈ xs, x ∈ ts.map (Scalar.str (K := ℝ)) := by
    intro x hx
    by_contra hnot
    have h0 : weightOf ws xs x = 0 := by rw [hw, List.count_eq_zero.2 hnot]; simp
    obtain ⟨i, hi, rfl⟩ := List.getElem_of_mem hx
    have hin : ws[i]'(hlen ▸ hi) ∈ ((ws.zip xs).filter fun p => p.2 = xs[i]).map Prod.fst := by
      refine List.mem_map.2 ⟨(ws[i]'(hlen ▸ hi), xs[i]), List.mem_filter.2 ⟨?_, by simp⟩, rfl⟩
      exact List.mem_iff_getElem.2 ⟨i, by simp [hlen, hi], by simp⟩
    have hle : ws[i]'(hlen ▸ hi) ≤ weightOf ws xs xs[i] := by
      refine List.single_le_sum (fun w hw' => ?_) _ hin
      obtain ⟨p, hp, rfl⟩ := List.mem_map.1 hw'
      exact (hpos _ (List.of_mem_zip (List.mem_filter.1 hp).1).1).le
    have := hpos _ (List.getElem_mem (hlen ▸ hi : i < ws.length))
    linarith
  obtain ⟨us, rfl⟩ : ∃ us : List String, xs = us.map Scalar.str := by
    clear hproc hlen hw
    induction xs with
    | nil => exact ⟨[], rfl⟩
    | cons x xs ih =>
      obtain ⟨us, rfl⟩ := ih fun y hy => hmem y (List.mem_cons_of_mem _ hy)
      obtain ⟨u, -, rfl⟩ := List.mem_map.1 (hmem x List.mem_cons_self)
      exact ⟨u :: us, rfl⟩
  rw [List.map_map, List.map_map] at hproc
  rw [List.length_map] at hlen
  have h := textDiscrete_law S (left := left) hE hU hproc hlen hsum hpos
  have e : pointsLaw (us.zip ws) = pointsLaw (ts.map fun t => (t, 1 / (ts.length : ℝ))) := by
    set textOf : Scalar ℝ → String := fun v => match v with | .str t => t | _ => "" with htext
    ext s -
    have hs : MeasurableSet s := trivial
    have sumApply : ∀ ms : List (Measure String), ms.sum s = (ms.map fun m => m s).sum := by
      intro ms
      induction ms with
      | nil => simp
      | cons m ms ih => simp [ih]
    have h1 := sum_by_value ws hpos (us.map Scalar.str) (fun v => Measure.dirac (textOf v) s)
      (ts.map (Scalar.str (K := ℝ))).toFinset (by simpa using hmem)
    have h2 : pointsLaw (us.zip ws) s = ((ws.zip (us.map Scalar.str)).map fun p =>
        ENNReal.ofReal p.1 * Measure.dirac (textOf p.2) s).sum := by
      rw [pointsLaw, sumApply, List.map_map, ← List.zip_swap, List.map_map, List.zip_map_right, List.map_map]
      rfl
    have h3 : pointsLaw (ts.map fun t => (t, 1 / (ts.length : ℝ))) s
        = ENNReal.ofReal (1 / (ts.length : ℝ)) * ((ts.map (Scalar.str (K := ℝ))).map fun v =>
            (Measure.dirac (textOf v) s : ENNReal)).sum := by
      rw [pointsLaw, sumApply, List.map_map, List.map_map, List.map_map, ← List.sum_map_mul_left]
      rfl
    rw [h2, h1, h3, Finset.sum_list_map_count, Finset.mul_sum]
    refine Finset.sum_congr rfl fun v _ => ?_
    have hn0 : (0 : ℝ) < ts.length := by exact_mod_cast List.length_pos_iff.2 hne
    rw [hw, List.length_map, nsmul_eq_mul, ← mul_assoc, ← ENNReal.ofReal_natCast,
      ← ENNReal.ofReal_mul (by positivity), one_div_mul_eq_div]
  rw [e] at h
  exact h

theorem textTable_law {ts : List String} {ws : List ℝ} (hlen : ws.length = ts.length) (hpos : ∀ w ∈ ws, 0 < w)
    (hsum : ws.sum = 1) :
    DrawsLaw S.law left (SM.bind (sampleObj E (.leaf (.categorical
        (.dict ((ts.zip ws).map fun p => (.str p.1, some p.2)))) none none) 1 none none) fun z => SM.lift z.text?) Eq
      (pointsLaw (ts.zip ws)) := by
  have hproc := processDiscrete_table (vs := ts.map (Scalar.str (K := ℝ))) (ws := ws) (Or.inl rfl) (by simp [hlen])
    (by rw [hsum]; norm_num) (by rw [hsum]; norm_num) hpos
  rw [List.map_map, List.zip_map_left, List.map_map] at hproc
  exact textDiscrete_law S hE hU hproc hlen hsum hpos

omit hU in
theorem textCoin_law (h2 : S.primLaw (.integers 0 2) = some ((2 : ENNReal)⁻¹ • (Measure.dirac 0 + Measure.dirac 1))) :
    DrawsLaw S.law left (SM.bind (sampleObj E (.leaf .coin none none) 1 none none) fun z => SM.lift z.text?) Eq
      (pointsLaw [("tails", 1 / 2), ("heads", 1 / 2)]) := by
  have hp := primLaw_prob S h2
  set g : ℝ → String := fun x => if x = 1 then "heads" else "tails" with hg
  have hgm : Measurable g := Measurable.ite (measurableSet_singleton 1) measurable_const measurable_const
  have h := (drawSM_law S (left := left) hE.gen h2 1).bind_lift (h := fun xs =>
      Samples.text? (Samples.simplify (.arr (xs.map fun v =>
        if v = .int 1 then .str "heads" else .str "tails")))) (R' := Eq) (fun x => g (x 0))
    (hgm.comp (measurable_pi_apply 0)) (Filter.Eventually.of_forall fun x us hx => by
      simp only [List.ofFn_succ, List.ofFn_zero, List.forall₂_cons_right_iff,
        List.forall₂_nil_right_iff] at hx
      obtain ⟨v, l, ⟨hs, hv⟩, rfl, rfl⟩ := hx
      obtain ⟨z, rfl, -, -⟩ := hs
      have hz : x 0 = (z : ℝ) := by
        rcases hv with e | ⟨w, e, hw⟩
        · cases e
        · cases e; exact hw
      refine ⟨g (x 0), ?_, rfl⟩
      rw [hg, hz]
      by_cases h1 : z = 1
      · subst h1; simp [Samples.simplify, Samples.text?]
      · have h1' : ((z : ℤ) : ℝ) ≠ 1 := by exact_mod_cast h1
        simp [Samples.simplify, Samples.text?, h1, h1'])
  have e : (Measure.pi fun _ : Fin 1 => ((2 : ENNReal)⁻¹ • (Measure.dirac 0 + Measure.dirac 1) : Measure ℝ)).map
      (fun x => g (x 0)) = pointsLaw [("tails", 1 / 2), ("heads", 1 / 2)] := by
    have e1 : (fun x : Fin 1 → ℝ => g (x 0)) = g ∘ fun x => x 0 := rfl
    rw [e1, ← Measure.map_map hgm (measurable_pi_apply 0), pi_map_eval, Measure.map_smul, Measure.map_add _ _ hgm,
      Measure.map_dirac' hgm, Measure.map_dirac' hgm, pointsLaw_cons, pointsLaw_cons, pointsLaw_nil, add_zero,
      smul_add]
    simp [hg]
  rw [e] at h
  refine h.congr fun ω => ?_
  unfold SM.bind
  rw [sampleObj_unbounded]
  simp only [rawObj, leafSample, SM.bind]
  cases drawSM E (.integers 0 2) 1 ⟨ω, left⟩ with
  | mk r s' => cases r <;> rfl

/-- The law of a sampled text, for all the rules. -/
theorem textLaw_draws {d : Obj (St (ℕ → Ω) ℝ) ℝ} {t : List (String × ℝ)} (h : TextLaw S.primLaw d t) :
    (∀ p ∈ t, 0 ≤ p.2) ∧ (t.map Prod.snd).sum = 1 ∧
    DrawsLaw S.law left (SM.bind (sampleObj E d 1 none none) fun z => SM.lift z.text?) Eq (pointsLaw t) := by
  cases h with
  | coin h2 => exact ⟨by simp, by norm_num, textCoin_law S hE h2⟩
  | @items ts hne =>
    have hn0 : (ts.length : ℝ) ≠ 0 := by exact_mod_cast (List.length_pos_iff.2 hne).ne'
    refine ⟨?_, ?_, textItems_law S hE hU hne⟩
    · intro p hp
      obtain ⟨t, -, rfl⟩ := List.mem_map.1 hp
      positivity
    · rw [List.map_map, show (Prod.snd ∘ fun t : String => (t, 1 / (ts.length : ℝ))) = fun _ => 1 / (ts.length : ℝ)
        from rfl, List.map_const', List.sum_replicate, nsmul_eq_mul]
      field_simp
  | @table ts ws hlen hpos hsum =>
    refine ⟨fun p hp => (hpos _ (List.of_mem_zip hp).2).le, ?_, textTable_law S hE hU hlen hpos hsum⟩
    rw [map_snd_zip' _ _ hlen.symm, hsum]

end

end Verif
