import Verif.Lemmas.DenoteMix
import Verif.Props.Weights

/-!
# Helper lemmas: the law of samples of `discrete`
-/

namespace Verif

open MeasureTheory Spec

section Lists

variable {α : Type} [DecidableEq α]

theorem weightOf_cons (w : ℝ) (ws : List ℝ) (x : α) (xs : List α) (v : α) :
    weightOf (w :: ws) (x :: xs) v = (if x = v then w else 0) + weightOf ws xs v := by
  unfold weightOf
  by_cases h : x = v <;> simp [h]

theorem weightOf_nonneg {ws : List ℝ} (hpos : ∀ w ∈ ws, 0 < w) (xs : List α) (v : α) :
    0 ≤ weightOf ws xs v := by
  unfold weightOf
  refine List.sum_nonneg fun w hw => ?_
  obtain ⟨p, hp, rfl⟩ := List.mem_map.1 hw
  have := (List.of_mem_zip (List.mem_filter.1 hp).1 : p.1 ∈ _ ∧ p.2 ∈ _).1
  exact (hpos _ this).le

/-- Sum by position, or by value. -/
theorem sum_by_value (ws : List ℝ) (hpos : ∀ w ∈ ws, 0 < w) (xs : List α) (f : α → ENNReal)
    (T : Finset α) (hT : ∀ x ∈ xs, x ∈ T) :
    ((ws.zip xs).map fun p => ENNReal.ofReal p.1 * f p.2).sum
      = ∑ v ∈ T, ENNReal.ofReal (weightOf ws xs v) * f v := by
  induction ws generalizing xs with
  | nil => simp [weightOf]
  | cons w ws ih =>
    cases xs with
    | nil => simp [weightOf]
    | cons x xs =>
      have hw : 0 < w := hpos w (by simp)
      have hpos' : ∀ w ∈ ws, 0 < w := fun w hw => hpos w (by simp [hw])
      simp only [List.zip_cons_cons, List.map_cons, List.sum_cons]
      rw [ih hpos' xs fun y hy => hT y (by simp [hy])]
      have e : ∀ v, ENNReal.ofReal (weightOf (w :: ws) (x :: xs) v) * f v
          = (if x = v then ENNReal.ofReal w * f x else 0) +
            ENNReal.ofReal (weightOf ws xs v) * f v := by
        intro v
        rw [weightOf_cons, ENNReal.ofReal_add (by split_ifs <;> linarith) (weightOf_nonneg hpos' _ _),
          add_mul]
        congr 1
        by_cases h : x = v
        · subst h; simp
        · simp [h]
      simp_rw [e]
      rw [Finset.sum_add_distrib, Finset.sum_ite_eq, if_pos (hT x (by simp))]

end Lists

theorem listSum_apply (ms : List (Measure ℝ)) (s : Set ℝ) : ms.sum s = (ms.map fun m => m s).sum := by
  induction ms with
  | nil => simp
  | cons m ms ih => simp [ih]

/-- A mixture of points, position by position. -/
theorem mixLaw_dirac_apply {k : ℕ} {ws : List ℝ} (hk : ws.length = k) {rs : List ℝ} (hr : rs.length = k)
    (s : Set ℝ) :
    mixLaw ws hk (fun i => Measure.dirac (rs[i.1]'(hr ▸ i.2))) s
      = ((ws.zip rs).map fun p => ENNReal.ofReal p.1 * Measure.dirac p.2 s).sum := by
  subst hk
  simp only [mixLaw, Measure.coe_finset_sum, Finset.sum_apply, Measure.smul_apply, smul_eq_mul]
  induction ws generalizing rs with
  | nil => simp
  | cons w ws ih =>
    cases rs with
    | nil => simp at hr
    | cons r rs =>
      have hr' : rs.length = ws.length := by simpa using hr
      simp only [List.length_cons, List.zip_cons_cons, List.map_cons, List.sum_cons]
      rw [Fin.sum_univ_succ]
      have := ih hr'
      simp only [List.getElem_cons_zero, Fin.val_zero, Fin.val_succ, List.getElem_cons_succ]
      rw [this]

theorem unzipPairs_zip (vs : List (Scalar ℝ)) (ws : List ℝ) :
    unzipPairs ((vs.zip ws).map fun p => VItem.pair (some p.2) p.1)
      = .ok ((vs.zip ws).map (fun p => some p.2), (vs.zip ws).map Prod.fst) := by
  induction vs.zip ws with
  | nil => rfl
  | cons p l ih => rw [List.map_cons, unzipPairs, ih]; rfl

/-- Weights given together with the values. -/
theorem processDiscrete_table {vs : List (Scalar ℝ)} {ws : List ℝ} {arg : VArg ℝ (Scalar ℝ)}
    (harg : arg = .dict ((vs.zip ws).map fun p => (p.1, some p.2)) ∨
      arg = .list ((vs.zip ws).map fun p => .pair (some p.2) p.1))
    (hlen : ws.length = vs.length) (hlo : 99 / 100 < ws.sum) (hhi : ws.sum < 101 / 100)
    (hpos : ∀ w ∈ ws, 0 < w) : (processDiscrete arg).result = .ok (ws, vs.map .plain) := by
  have hkeep : (finishWeights false ws .fresh (vs.map (VItem.plain (K := ℝ)))).result
      = .ok (ws, vs.map .plain) := by
    unfold finishWeights
    simp only [Bool.false_eq_true, if_false, List.length_map]
    rw [if_neg (by rw [hlen]; simp), if_neg (by push Not; exact ⟨hlo, hhi⟩), if_neg (by simp [hlen])]
    show keepPositive _ _ = _
    rw [keepPositive_eq _ _ (by simp [hlen]), if_pos (fun w hw => (hpos w hw).le)]
    have : (ws.zip (vs.map (VItem.plain (K := ℝ)))).filter (fun p => p.1 ≠ 0)
        = ws.zip (vs.map (VItem.plain (K := ℝ))) := by
      rw [List.filter_eq_self]
      intro q hq
      have := (List.of_mem_zip (by simpa using hq) : q.1 ∈ _ ∧ q.2 ∈ _).1
      simpa using ne_of_gt (hpos _ this)
    rw [this, map_fst_zip' _ _ (by simp [hlen]), map_snd_zip' _ _ (by simp [hlen])]
  have hws : (vs.zip ws).map (fun p => some p.2) = ws.map some := by
    rw [show (fun p : Scalar ℝ × ℝ => some p.2) = some ∘ Prod.snd from rfl, ← List.map_map,
      map_snd_zip' _ _ hlen.symm]
  have hne : ws ≠ [] := by rintro rfl; norm_num at hlo
  have habs : (WArg.absent : WArg ℝ).isAbsent = true := rfl
  rcases harg with rfl | rfl
  · have hres : resolveValues (K := ℝ) none (.dict ((vs.zip ws).map fun p => (p.1, some p.2)))
        = .ok (some (ws.map some, .fresh), vs.map .plain) := by
      simp only [resolveValues, List.map_map, Function.comp_def]
      rw [hws, show (fun p : Scalar ℝ × ℝ => VItem.plain (K := ℝ) p.1) = VItem.plain ∘ Prod.fst from rfl,
        ← List.map_map, map_fst_zip' _ _ hlen.symm]
    have hfill : fillWeights (K := ℝ) (fun _ => false) false (some (ws.map some, .fresh))
        (vs.map .plain) = .ok ((ws.map some, .fresh), vs.map .plain) := rfl
    simp only [processDiscrete, processWeightsValues, habs, Bool.not_true, Bool.and_false,
      Bool.false_eq_true, if_false, valuesEmpty, resolveWeights, hres, hfill, requireNumbers_some]
    exact hkeep
  · obtain ⟨w, ws', rfl⟩ := List.exists_cons_of_ne_nil hne
    obtain ⟨v, vs', rfl⟩ := List.exists_cons_of_length_pos (l := vs) (by rw [← hlen]; simp)
    have hcomp : compresses (((v :: vs').zip (w :: ws')).map fun p =>
        VItem.pair (K := ℝ) (some p.2) p.1) = false := by
      simp [compresses, VItem.isPlain]
    have hres : resolveValues (K := ℝ) none (.list (((v :: vs').zip (w :: ws')).map fun p =>
        VItem.pair (some p.2) p.1)) = .ok (none, ((v :: vs').zip (w :: ws')).map fun p =>
        VItem.pair (some p.2) p.1) := rfl
    have hfill : fillWeights (K := ℝ) (fun _ => false) false none
        (((v :: vs').zip (w :: ws')).map fun p => VItem.pair (some p.2) p.1)
        = .ok (((w :: ws').map some, .fresh), (v :: vs').map .plain) := by
      have hz := unzipPairs_zip (v :: vs') (w :: ws')
      rw [hws, map_fst_zip' _ _ hlen.symm] at hz
      rw [List.zip_cons_cons, List.map_cons] at hz ⊢
      simp only [fillWeights, hz]
      rfl
    have hv : valuesEmpty (VArg.list (((v :: vs').zip (w :: ws')).map fun p =>
        VItem.pair (K := ℝ) (some p.2) p.1)) = false := rfl
    simp only [processDiscrete, hcomp, processWeightsValues, habs, Bool.not_true, Bool.and_false,
      Bool.false_eq_true, if_false, hv, resolveWeights, hres, hfill, requireNumbers_some]
    exact hkeep

section Laws

variable {Ω : Type} [MeasurableSpace Ω] (S : IdealSource Ω)
  {left : ℕ → ℕ → Option (List (Scalar ℝ))}

variable {E : Env (ℕ → Ω) ℝ} (hE : E.gen = S.gen) (hU : S.primLaw (.uniform 0 1) = some unitLaw)

include hE hU

/-- `discrete` whose processed weights and values are known. -/
theorem discrete_law {arg : VArg ℝ (Scalar ℝ)} {ws : List ℝ} {xs : List (Scalar ℝ)} {rs : List ℝ}
    (hproc : (processDiscrete arg).result = .ok (ws, xs.map .plain)) (hlen : ws.length = xs.length)
    (hsum : ws.sum = 1) (hpos : ∀ w ∈ ws, 0 < w) (hxs : List.Forall₂ IsReal xs rs) {n : ℕ} (hn : 1 ≤ n) :
    DrawsLaw S.law left (leafSample E (.categorical arg) n) (Reads n)
      (Measure.pi fun _ : Fin n => mixLaw ws hlen fun i => Measure.dirac
        (rs[i.1]'(hxs.length_eq ▸ i.2))) := by
  have hne : ws ≠ [] := by rintro rfl; simp at hsum
  have hitems : (xs.map VItem.plain).filterMap (VItem.plain? (K := ℝ)) = xs := by
    rw [List.filterMap_map]
    exact List.filterMap_some
  have h := mixtureRun_law S (left := left) (comp := fun v m => SM.pure (constSamples v m)) (vals := xs)
    (ν := fun i => Measure.dirac (rs[i.1]'(hxs.length_eq ▸ i.2))) hE hU rfl hlen hpos hne hsum n hn
    (fun m _ i => by
      have hi : IsReal (xs[i.1]) (rs[i.1]'(hxs.length_eq ▸ i.2)) := hxs.get i.2 _
      have := DrawsLaw.pure (μ₀ := S.law) (left := left) (R := Reads m) (constSamples_real hi m)
      rw [← pi_dirac_const] at this
      exact this)
  refine h.congr fun ω => ?_
  simp only [leafSample, SM.bind, SM.lift, hproc, hitems]

theorem items_law {vs : List (Scalar ℝ)} {rs : List ℝ} (hne : vs ≠ [])
    (hvs : List.Forall₂ IsReal vs rs) {n : ℕ} (hn : 1 ≤ n) :
    IsProbabilityMeasure ((rs.length : ENNReal)⁻¹ • (rs.map Measure.dirac).sum : Measure ℝ) ∧
    DrawsLaw S.law left (leafSample E (.categorical (.list (vs.map .plain))) n) (Reads n)
      (Measure.pi fun _ : Fin n => (rs.length : ENNReal)⁻¹ • (rs.map Measure.dirac).sum) := by
  obtain ⟨ws, xs, hproc, hlen, hsum, hpos, hw⟩ := C08_empirical (K := ℝ) vs hne
  have hrv : ∀ {v r}, IsReal v r → r = realVal v := by
    rintro v r (rfl | ⟨z, rfl, rfl⟩) <;> rfl
  have hrs : rs = vs.map realVal := by
    clear hproc hlen hsum hpos hw hne
    induction hvs with
    | nil => rfl
    | cons h _ ih => simp [hrv h, ih]
  have hmem : ∀ x ∈ xs, x ∈ vs := by
    intro x hx
    by_contra hnot
    have h0 : weightOf ws xs x = 0 := by rw [hw, List.count_eq_zero.2 hnot]; simp
    obtain ⟨i, hi, rfl⟩ := List.getElem_of_mem hx
    have hin : ws[i]'(hlen ▸ hi) ∈ ((ws.zip xs).filter fun p => p.2 = xs[i]).map Prod.fst := by
      refine List.mem_map.2 ⟨(ws[i]'(hlen ▸ hi), xs[i]), List.mem_filter.2 ⟨?_, by simp⟩, rfl⟩
      exact List.mem_iff_getElem.2 ⟨i, by simp [hlen, hi], by simp⟩
    have hle : ws[i]'(hlen ▸ hi) ≤ weightOf ws xs xs[i] := by
      refine List.single_le_sum (fun w hw' => ?_) _ hin
      obtain ⟨p, hp, rfl⟩ := List.mem_map.1 hw'
      exact (hpos _ (List.of_mem_zip (List.mem_filter.1 hp).1).1).le
    have := hpos _ (List.getElem_mem (hlen ▸ hi : i < ws.length))
    linarith
  have hreal : ∀ v ∈ vs, IsReal v (realVal v) := by
    intro v hv
    obtain ⟨i, hi, rfl⟩ := List.getElem_of_mem hv
    have := hvs.get hi (hvs.length_eq ▸ hi)
    simp only [List.get_eq_getElem] at this
    rwa [hrv this] at this
  have hxs : List.Forall₂ IsReal xs (xs.map realVal) := by
    rw [List.forall₂_map_right_iff, List.forall₂_same]
    exact fun x hx => hreal x (hmem x hx)
  have h := discrete_law S (left := left) hE hU hproc hlen hsum hpos hxs hn
  have e : mixLaw ws hlen (fun i => Measure.dirac ((xs.map realVal)[i.1]'(hxs.length_eq ▸ i.2)))
      = (rs.length : ENNReal)⁻¹ • (rs.map Measure.dirac).sum := by
    ext s hs
    rw [mixLaw_dirac_apply hlen (by simp) s, List.zip_map_right, List.map_map]
    have h1 := sum_by_value ws hpos xs (fun v => Measure.dirac (realVal v) s) vs.toFinset
      (by simpa using hmem)
    have h2 : ((ws.zip xs).map ((fun p : ℝ × ℝ => ENNReal.ofReal p.1 * Measure.dirac p.2 s) ∘
        Prod.map id realVal)) = (ws.zip xs).map fun p =>
          ENNReal.ofReal p.1 * Measure.dirac (realVal p.2) s := rfl
    rw [h2, h1, Measure.smul_apply, listSum_apply, smul_eq_mul, hrs, List.map_map, List.map_map,
      List.length_map]
    have h3 := Finset.sum_list_map_count vs fun v => (Measure.dirac (realVal v) s : ENNReal)
    have h4 : ((fun m : Measure ℝ => m s) ∘ Measure.dirac ∘ realVal)
        = fun v => (Measure.dirac (realVal v) s : ENNReal) := rfl
    rw [Function.comp_assoc, h4, h3, Finset.mul_sum]
    refine Finset.sum_congr rfl fun v _ => ?_
    have hn0 : (0 : ℝ) < vs.length := by exact_mod_cast List.length_pos_iff.2 hne
    rw [hw, ENNReal.ofReal_div_of_pos hn0, ENNReal.ofReal_natCast, ENNReal.ofReal_natCast,
      nsmul_eq_mul, div_eq_mul_inv, ← mul_assoc, mul_comm ((vs.length : ENNReal)⁻¹)]
  have hp := mixLaw_prob hlen hpos hsum
    (fun i => Measure.dirac ((xs.map realVal)[i.1]'(hxs.length_eq ▸ i.2)))
  rw [e] at h hp
  exact ⟨hp, h⟩

theorem table_law {vs : List (Scalar ℝ)} {rs ws : List ℝ} {arg : VArg ℝ (Scalar ℝ)}
    (harg : arg = .dict ((vs.zip ws).map fun p => (p.1, some p.2)) ∨
      arg = .list ((vs.zip ws).map fun p => .pair (some p.2) p.1))
    (hlen : ws.length = vs.length) (hvs : List.Forall₂ IsReal vs rs) (hpos : ∀ w ∈ ws, 0 < w)
    (hsum : ws.sum = 1) {n : ℕ} (hn : 1 ≤ n) :
    IsProbabilityMeasure ((ws.zip rs).map fun p => ENNReal.ofReal p.1 • Measure.dirac p.2).sum ∧
    DrawsLaw S.law left (leafSample E (.categorical arg) n) (Reads n)
      (Measure.pi fun _ : Fin n =>
        ((ws.zip rs).map fun p => ENNReal.ofReal p.1 • Measure.dirac p.2).sum) := by
  have hproc : (processDiscrete arg).result = .ok (ws, vs.map .plain) := by
    rw [processDiscrete_table harg hlen (by rw [hsum]; norm_num) (by rw [hsum]; norm_num) hpos]
  have h := discrete_law S (left := left) hE hU hproc hlen hsum hpos hvs hn
  have e : mixLaw ws hlen (fun i => Measure.dirac (rs[i.1]'(hvs.length_eq ▸ i.2)))
      = ((ws.zip rs).map fun p => ENNReal.ofReal p.1 • Measure.dirac p.2).sum := by
    ext s hs
    rw [mixLaw_dirac_apply hlen hvs.length_eq.symm s, listSum_apply, List.map_map]
    rfl
  have hp := mixLaw_prob hlen hpos hsum (fun i => Measure.dirac (rs[i.1]'(hvs.length_eq ▸ i.2)))
  rw [e] at h hp
  exact ⟨hp, h⟩

end Laws

end Verif
