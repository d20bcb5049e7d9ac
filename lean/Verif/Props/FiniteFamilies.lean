import Verif.Props.Families
import Verif.Lemmas.LawChances
import Mathlib.Algebra.BigOperators.Group.Finset.Basic

/-!
# C135: dice, lists, tables and mixtures of constants; Pareto numbers
-/

namespace Verif

open MeasureTheory ProbabilityTheory Spec

/-! ### Laws -/

theorem list_law_counts (rs : List ℝ) :
    (rs.length : ENNReal)⁻¹ • (rs.map Measure.dirac).sum =
      (((rs.dedup.map fun r => (rs.count r : ℝ) / rs.length).zip rs.dedup).map
        fun p => ENNReal.ofReal p.1 • Measure.dirac p.2).sum := by
  classical
  have e : (((rs.dedup.map fun r => (rs.count r : ℝ) / rs.length).zip rs.dedup).map
      fun p => ENNReal.ofReal p.1 • (Measure.dirac p.2 : Measure ℝ)) =
      rs.dedup.map fun r => ENNReal.ofReal ((rs.count r : ℝ) / rs.length) • (Measure.dirac r : Measure ℝ) := by
    rw [List.zip_map_left, List.map_map]
    have : rs.dedup.zip rs.dedup = rs.dedup.map fun r => (r, r) := by
      generalize rs.dedup = l
      induction l with
      | nil => rfl
      | cons a l ih => simp [ih]
    rw [this, List.map_map]
    rfl
  have e2 : rs.dedup.toFinset = rs.toFinset := by ext x; simp
  rw [e, Finset.sum_list_map_count, Finset.smul_sum, ← List.sum_toFinset _ (List.nodup_dedup rs), e2]
  refine Finset.sum_congr rfl fun r hr => ?_
  have hl : 0 < rs.length := List.length_pos_of_mem (List.mem_toFinset.1 hr)
  rw [← Nat.cast_smul_eq_nsmul ENNReal, smul_smul, ENNReal.ofReal_div_of_pos (by exact_mod_cast hl),
    ENNReal.ofReal_natCast, ENNReal.ofReal_natCast, ENNReal.div_eq_inv_mul]

theorem die_law (s : ℕ) (hs : 1 ≤ s) :
    integersLaw 1 (s + 1) =
      (((List.range s).map fun i : ℕ => (i : ℝ) + 1).length : ENNReal)⁻¹ •
        (((List.range s).map fun i : ℕ => (i : ℝ) + 1).map Measure.dirac).sum := by
  have e : Finset.Ico (1 : ℤ) (s + 1) = (Finset.range s).image fun i : ℕ => (i : ℤ) + 1 := by
    ext t
    simp only [Finset.mem_Ico, Finset.mem_image, Finset.mem_range]
    constructor
    · rintro ⟨h1, h2⟩
      exact ⟨(t - 1).toNat, by omega, by omega⟩
    · rintro ⟨i, h1, rfl⟩
      omega
  rw [integersLaw, e, Finset.sum_image (by intro x _ y _ h; simpa using h), List.map_map, List.length_map,
    List.length_range, ← List.sum_toFinset _ List.nodup_range, List.toFinset_range,
    Finset.smul_sum]
  refine Finset.sum_congr rfl fun i _ => ?_
  congr 1
  · rw [add_sub_cancel_right, Int.cast_natCast, one_div, ENNReal.ofReal_inv_of_pos (by exact_mod_cast hs),
      ENNReal.ofReal_natCast]
  · simp

theorem bernoulli_two {p : ℝ} (h0 : 0 ≤ p) (h1 : p ≤ 1) :
    ((binomial 1 ⟨p, h0, h1⟩).map fun k : ℕ => (k : ℝ)) =
      ((([1 - p, p].zip [0, 1]).map fun q => ENNReal.ofReal q.1 • (Measure.dirac q.2 : Measure ℝ)).sum) := by
  have e : ((([1 - p, p].zip [0, 1]).map fun q => ENNReal.ofReal q.1 • (Measure.dirac q.2 : Measure ℝ)).sum) =
      ENNReal.ofReal (1 - p) • Measure.dirac 0 + ENNReal.ofReal p • Measure.dirac 1 := by simp
  rw [e]
  have : IsFiniteMeasure (ENNReal.ofReal (1 - p) • (Measure.dirac 0 : Measure ℝ) + ENNReal.ofReal p • Measure.dirac 1) := by
    refine ⟨?_⟩
    simp
  refine ExpMoments.eq one_pos (binomial_expMoments 1 ⟨p, h0, h1⟩ 1) fun t _ => ?_
  have i0 : Integrable (fun x : ℝ => Real.exp (t * x)) (ENNReal.ofReal (1 - p) • Measure.dirac 0) :=
    (integrable_dirac (by simp)).smul_measure (by simp)
  have i1 : Integrable (fun x : ℝ => Real.exp (t * x)) (ENNReal.ofReal p • Measure.dirac 1) :=
    (integrable_dirac (by simp)).smul_measure (by simp)
  refine ⟨i0.add_measure i1, ?_⟩
  rw [integral_add_measure i0 i1, integral_smul_measure, integral_smul_measure, integral_dirac, integral_dirac,
    ENNReal.toReal_ofReal (by linarith), ENNReal.toReal_ofReal h0]
  simp [add_comm]

theorem pareto_tail {a : ℝ} (ha : 0 < a) (x : ℝ) :
    paretoMeasure 1 a (Set.Ioi x) = ENNReal.ofReal ((max x 1) ^ (-a)) := by
  have := isProbabilityMeasure_paretoMeasure one_pos ha
  rw [← ofReal_measureReal, ← Set.compl_Iic, probReal_compl_eq_one_sub measurableSet_Iic, (pareto_cdf ha).le]
  congr 1
  split_ifs with h
  · rw [max_eq_right h]; simp
  · rw [max_eq_left (not_le.1 h).le]; ring

theorem pareto_min {a b : ℝ} (ha : 0 < a) (hb : 0 < b) :
    (((paretoMeasure 1 a).prod (paretoMeasure 1 b)).map fun p : ℝ × ℝ => min p.1 p.2) = paretoMeasure 1 (a + b) := by
  have := isProbabilityMeasure_paretoMeasure one_pos ha
  have := isProbabilityMeasure_paretoMeasure one_pos hb
  have := isProbabilityMeasure_paretoMeasure one_pos (add_pos ha hb)
  have := Measure.isProbabilityMeasure_map (μ := (paretoMeasure 1 a).prod (paretoMeasure 1 b))
    (f := fun p : ℝ × ℝ => min p.1 p.2) (by fun_prop)
  refine eq_of_tail fun x => ?_
  have hx : 0 < max x 1 := lt_max_of_lt_right one_pos
  rw [min_tail, pareto_tail ha, pareto_tail hb, pareto_tail (add_pos ha hb),
    ← ENNReal.ofReal_mul (Real.rpow_nonneg hx.le _), ← Real.rpow_add hx]
  congr 2
  ring

theorem beta_inverse {a : ℝ} (ha : 0 < a) :
    (betaMeasure a 1).map (fun x => 1 / x) = paretoMeasure 1 a := by
  have := isProbabilityMeasureBeta ha one_pos
  have := isProbabilityMeasure_paretoMeasure one_pos ha
  have hm : Measurable fun x : ℝ => 1 / x := by fun_prop
  have := Measure.isProbabilityMeasure_map (μ := betaMeasure a 1) hm.aemeasurable
  refine eq_of_tail fun x => ?_
  rw [Measure.map_apply hm measurableSet_Ioi, pareto_tail ha]
  rcases le_or_gt x 0 with hx | hx
  · have h1 : betaMeasure a 1 ((fun x => 1 / x) ⁻¹' Set.Ioi x) = betaMeasure a 1 Set.univ := by
      refine measure_congr ?_
      filter_upwards [beta_ae_pos a 1] with y hy
      refine propext ⟨fun _ => trivial, fun _ => ?_⟩
      exact lt_of_le_of_lt hx (one_div_pos.2 hy)
    rw [h1, measure_univ, max_eq_right (by linarith), Real.one_rpow, ENNReal.ofReal_one]
  · have h1 : betaMeasure a 1 ((fun x => 1 / x) ⁻¹' Set.Ioi x) = betaMeasure a 1 (Set.Iic (1 / x)) := by
      have h0 : betaMeasure a 1 {1 / x} = 0 := withDensity_null _
      refine measure_congr ?_
      filter_upwards [beta_ae_pos a 1, measure_eq_zero_iff_ae_notMem.1 h0] with y hy hne
      refine propext ?_
      show x < 1 / y ↔ y ≤ 1 / x
      rw [lt_one_div hx hy]
      exact ⟨le_of_lt, fun h => lt_of_le_of_ne h hne⟩
    rw [h1, beta_head ha]
    congr 1
    rcases le_total x 1 with h | h
    · have : 1 ≤ 1 / x := by rw [le_div_iff₀ hx]; linarith
      rw [min_eq_right this, max_eq_right zero_le_one, max_eq_right h, Real.one_rpow, Real.one_rpow]
    · have : 1 / x ≤ 1 := by rw [div_le_iff₀ hx]; linarith
      rw [min_eq_left this, max_eq_right (by positivity), max_eq_left h, one_div, Real.inv_rpow hx.le,
        Real.rpow_neg hx.le]

theorem pareto_shape {a c : ℝ} (ha : 0 < a) (hc : 0 < c) :
    (paretoMeasure 1 a).map (fun x => x ^ c) = paretoMeasure 1 (a / c) := by
  have hp := isProbabilityMeasureBeta ha one_pos
  rw [← beta_inverse ha, Measure.map_map (by fun_prop) (by fun_prop), ← beta_inverse (div_pos ha hc), ← beta_pow ha hc,
    Measure.map_map (by fun_prop) (by fun_prop)]
  refine Measure.map_congr ?_
  filter_upwards [beta_ae_pos a 1] with x hx
  simp [Real.inv_rpow hx.le]

theorem pareto_ae (a : ℝ) : ∀ᵐ x ∂(paretoMeasure 1 a), 0 < x := by
  rw [paretoMeasure, ae_withDensity_iff (measurable_paretoPDF 1 a)]
  refine .of_forall fun x hx => ?_
  by_contra h
  exact hx (paretoPDF_of_lt (by linarith))

section

variable {Ω : Type} [MeasurableSpace Ω] (S : IdealSource Ω) (hS : Documented S)

include hS

theorem denotes_pareto {a : ℝ} (ha : 0 < a) :
    Denotes S.primLaw (.leaf (.pareto a) none none : Obj (St (ℕ → Ω) ℝ) ℝ) (paretoMeasure 1 a) := by
  have h := Denotes.leaf (S := St (ℕ → Ω) ℝ) (L := S.primLaw) (l := .pareto a) (lc := none) (rc := none)
    (lo := none) (hi := none) (by
      rw [leafLaw, hS (.pareto a) _ (if_pos ha)]
      rfl) trivial trivial
  rw [clamp_none, Measure.map_id] at h
  beta_reduce at h
  rw [Measure.map_map (by fun_prop) (by fun_prop)] at h
  have e : ((fun x : ℝ => x + 1) ∘ fun x => x - 1) = id := by funext x; simp
  rwa [e, Measure.map_id] at h

theorem denotes_die {s : ℕ} (hs : 1 ≤ s) :
    Denotes S.primLaw (.leaf (.die ⟨s, none⟩) none none : Obj (St (ℕ → Ω) ℝ) ℝ) (integersLaw 1 (s + 1)) :=
  denotes_doc S hS (p := .integers 1 (s + 1)) rfl (if_pos (by omega))

omit hS in
theorem denotes_list {vs : List (Scalar ℝ)} {rs : List ℝ} (h0 : vs ≠ []) (h : List.Forall₂ IsReal vs rs) :
    Denotes S.primLaw (.leaf (.categorical (.list (vs.map .plain))) none none : Obj (St (ℕ → Ω) ℝ) ℝ)
      ((rs.length : ENNReal)⁻¹ • (rs.map Measure.dirac).sum) := by
  have := Denotes.items (S := St (ℕ → Ω) ℝ) (L := S.primLaw) (lc := none) (rc := none) (lo := none) (hi := none)
    h0 h trivial trivial
  rwa [clamp_none, Measure.map_id] at this

omit hS in
theorem denotes_dict {vs : List (Scalar ℝ)} {rs ws : List ℝ} (hl : ws.length = vs.length)
    (h : List.Forall₂ IsReal vs rs) (hpos : ∀ w ∈ ws, 0 < w) (hsum : ws.sum = 1) :
    Denotes S.primLaw (.leaf (.categorical (.dict ((vs.zip ws).map fun p => (p.1, some p.2)))) none none :
      Obj (St (ℕ → Ω) ℝ) ℝ) (((ws.zip rs).map fun p => ENNReal.ofReal p.1 • Measure.dirac p.2).sum) := by
  have := Denotes.table (S := St (ℕ → Ω) ℝ) (L := S.primLaw) (lc := none) (rc := none) (lo := none) (hi := none)
    (Or.inl rfl) hl h hpos hsum trivial trivial
  rwa [clamp_none, Measure.map_id] at this

omit hS in
theorem denotes_consts {k : ℕ} {v : Fin k → Scalar ℝ} {r : Fin k → ℝ} (h : ∀ i, IsReal (v i) (r i)) {ws : List ℝ}
    (hk : ws.length = k) (hpos : ∀ w ∈ ws, 0 < w) (hsum : ws.sum = 1) :
    Denotes S.primLaw (.mix k (fun i => .leaf (.const (v i)) none none) ws none none : Obj (St (ℕ → Ω) ℝ) ℝ)
      (∑ i : Fin k, ENNReal.ofReal (ws[i.1]'(hk ▸ i.2)) • Measure.dirac (r i)) := by
  have h1 : ∀ i, Denotes S.primLaw (.leaf (.const (v i)) none none : Obj (St (ℕ → Ω) ℝ) ℝ)
      (Measure.dirac (r i)) := fun i => by
    have := Denotes.const (S := St (ℕ → Ω) ℝ) (L := S.primLaw) (lc := none) (rc := none) (lo := none) (hi := none)
      (h i) trivial trivial
    rwa [clamp_none, Measure.map_id] at this
  have := Denotes.mix (S := St (ℕ → Ω) ℝ) (L := S.primLaw) (lc := none) (rc := none) (lo := none) (hi := none)
    hk h1 hpos hsum trivial trivial
  rwa [clamp_none, Measure.map_id] at this

variable {E : Env (ℕ → Ω) ℝ} (hE : S.Drives E)

include hE

/-- **C135**: `die(s)` and `discrete([1, 2, …, s])`. -/
theorem C135_die_list {s : ℕ} (hs : 1 ≤ s) :
    SameSamples S E (.leaf (.die ⟨s, none⟩) none none)
      (.leaf (.categorical (.list ((List.range s).map fun i : ℕ => .plain (.int (i + 1))))) none none) := by
  have h := denotes_list S (vs := (List.range s).map fun i : ℕ => .int (i + 1))
    (rs := (List.range s).map fun i : ℕ => (i : ℝ) + 1) (by simp; omega) (by
      rw [List.forall₂_map_left_iff, List.forall₂_map_right_iff, List.forall₂_same]
      exact fun i _ => Or.inr ⟨i + 1, rfl, by simp⟩)
  rw [List.map_map] at h
  exact C105_same_law S hE (documented_uniform S hS) (denotes_die S hS hs) h (die_law s hs)

/-- **C135**: `discrete([x, y, …])` with repetitions, and `discrete({value: share of the list, …})`. -/
theorem C135_list_counts {rs : List ℝ} (h0 : rs ≠ []) {num : ℝ → Scalar ℝ} (hn : ∀ r ∈ rs, IsReal (num r) r) :
    SameSamples S E (.leaf (.categorical (.list (rs.map fun r => .plain (num r)))) none none)
      (.leaf (.categorical (.dict (rs.dedup.map fun r => (num r, some ((rs.count r : ℝ) / rs.length))))) none none) := by
  have hl : (0 : ℝ) < rs.length := by exact_mod_cast List.length_pos_iff.2 h0
  have h1 := denotes_list S (vs := rs.map num) (rs := rs) (by simpa using h0) (by
    rw [List.forall₂_map_left_iff, List.forall₂_same]; exact hn)
  rw [List.map_map] at h1
  have h2 := denotes_dict S (vs := rs.dedup.map num) (rs := rs.dedup)
    (ws := rs.dedup.map fun r => (rs.count r : ℝ) / rs.length) (by simp) (by
      rw [List.forall₂_map_left_iff, List.forall₂_same]
      exact fun r hr => hn r (List.mem_dedup.1 hr)) (by
      intro w hw
      obtain ⟨r, hr, rfl⟩ := List.mem_map.1 hw
      have : 0 < rs.count r := List.count_pos_iff.2 (List.mem_dedup.1 hr)
      have : (0 : ℝ) < rs.count r := by exact_mod_cast this
      positivity) (by
      have e2 : rs.dedup.toFinset = rs.toFinset := by ext x; simp
      rw [← List.sum_toFinset _ (List.nodup_dedup rs), e2, ← Finset.sum_div, div_eq_one_iff_eq hl.ne']
      exact_mod_cast List.sum_toFinset_count_eq_length rs)
  rw [List.zip_map_left] at h2
  have e : ∀ l : List ℝ, (l.zip (l.map fun r => (rs.count r : ℝ) / rs.length)) =
      l.map fun r => (r, (rs.count r : ℝ) / rs.length) := fun l => by
    induction l with
    | nil => rfl
    | cons a l ih => simp [ih]
  rw [e, List.map_map, List.map_map] at h2
  exact C105_same_law S hE (documented_uniform S hS) h1 h2 (list_law_counts rs)

/-- **C135**: `discrete({v: w, …})` and the mixture of the constants `v` with the weights `w`. -/
theorem C135_dict_mixture {k : ℕ} {v : Fin k → Scalar ℝ} {r : Fin k → ℝ} (h : ∀ i, IsReal (v i) (r i))
    {w : Fin k → ℝ} (hpos : ∀ i, 0 < w i) (hsum : ∑ i, w i = 1) :
    SameSamples S E (.leaf (.categorical (.dict (List.ofFn fun i => (v i, some (w i))))) none none)
      (.mix k (fun i => .leaf (.const (v i)) none none) (List.ofFn w) none none) := by
  have hp : ∀ x ∈ List.ofFn w, 0 < x := by
    intro x hx
    obtain ⟨i, rfl⟩ := List.mem_ofFn.1 hx
    exact hpos i
  have hs : (List.ofFn w).sum = 1 := by rw [List.sum_ofFn, hsum]
  have zip_ofFn : ∀ {α β : Type} (f : Fin k → α) (g : Fin k → β),
      (List.ofFn f).zip (List.ofFn g) = List.ofFn fun i => (f i, g i) := fun f g => by
    refine List.ext_getElem (by simp) fun i h1 h2 => by simp
  have h1 := denotes_dict S (vs := List.ofFn v) (rs := List.ofFn r) (ws := List.ofFn w) (by simp)
    (List.forall₂_iff_get.2 ⟨by simp, fun i h1 h2 => by simpa using h _⟩) hp hs
  rw [zip_ofFn, zip_ofFn, List.map_ofFn, List.map_ofFn] at h1
  refine C105_same_law S hE (documented_uniform S hS) h1
    (denotes_consts S h (by simp) hp hs) ?_
  rw [List.sum_ofFn]
  refine Finset.sum_congr rfl fun i _ => by simp

/-- **C135**: `bernoulli(p)` and `discrete({0: 1 - p, 1: p})`. -/
theorem C135_bernoulli_dict {p : ℝ} (h0 : 0 < p) (h1 : p < 1) :
    SameSamples S E (.leaf (.bernoulli p) none none)
      (.leaf (.categorical (.dict [(.int 0, some (1 - p)), (.int 1, some p)])) none none) := by
  have h := denotes_dict S (vs := [.int 0, .int 1]) (rs := [0, 1]) (ws := [1 - p, p]) rfl
    (.cons (Or.inr ⟨0, rfl, by simp⟩) (.cons (Or.inr ⟨1, rfl, by simp⟩) .nil))
    (by simp [h0, h1]) (by simp)
  refine C105_same_law S hE (documented_uniform S hS) (denotes_bernoulli S hS ⟨h0.le, h1.le⟩) h ?_
  exact bernoulli_two h0.le h1.le

/-- **C135**: `dist_min(pareto(a), pareto(b))` and `pareto(a + b)`; `pareto(a) ** c` and `pareto(a / c)`;
`1 / uniform(0, 1) ** c` and `pareto(1 / c)`. -/
theorem C135_pareto {a b c : ℝ} (ha : 0 < a) (hb : 0 < b) (hc : 0 < c) :
    SameSamples S E (.bin (.op .min) (.leaf (.pareto a) none none) (.leaf (.pareto b) none none))
      (.leaf (.pareto (a + b)) none none) ∧
    SameSamples S E (.bin (.op .pow) (.leaf (.pareto a) none none) (.lit (.flt c))) (.leaf (.pareto (a / c)) none none) ∧
    SameSamples S E (.bin (.op .truediv) (.lit (.flt 1))
        (.bin (.op .pow) (.leaf (.uniform 0 1) none none) (.lit (.flt c))))
      (.leaf (.pareto (1 / c)) none none) := by
  have hu := denotes_between S hS one_pos
  rw [← beta_one_one] at hu
  have p1 := isProbabilityMeasureBeta one_pos one_pos
  have p2 := isProbabilityMeasure_paretoMeasure one_pos ha
  have hac : 0 < 1 / c := by positivity
  have p3 := isProbabilityMeasureBeta hac one_pos
  have hpow : ∀ {μ : Measure ℝ} [IsProbabilityMeasure μ], (∀ᵐ x ∂μ, 0 < x) →
      ∀ᵐ p ∂μ.prod (Measure.dirac c), opDefined .pow p.1 p.2 := fun {μ} _ h => by
    have h1 : ∀ᵐ p ∂μ.prod (Measure.dirac c), 0 < p.1 := Measure.quasiMeasurePreserving_fst.ae h
    have h2 : ∀ᵐ p ∂μ.prod (Measure.dirac c), p.2 = c :=
      Measure.quasiMeasurePreserving_snd.ae (p := fun y => y = c) (by simp [ae_dirac_eq])
    filter_upwards [h1, h2] with p h3 h4
    exact Or.inr ⟨h3, by rw [h4]; exact hc.le⟩
  refine ⟨C105_same_law S hE (documented_uniform S hS)
      (.bin (o := .min) rfl (denotes_pareto S hS ha) (denotes_pareto S hS hb) (.of_forall fun _ => trivial))
      (denotes_pareto S hS (add_pos ha hb)) (pareto_min ha hb),
    C105_same_law S hE (documented_uniform S hS)
      (.bin (o := .pow) rfl (denotes_pareto S hS ha) (denotes_num _ c) (hpow (pareto_ae a)))
      (denotes_pareto S hS (div_pos ha hc)) ?_, ?_⟩
  · rw [map_prod_dirac (g := (· ^ ·)) (by fun_prop)]
    exact pareto_shape ha hc
  · have h1 := Denotes.bin (o := .pow) rfl hu (denotes_num _ c) (hpow (beta_ae_pos 1 1))
    rw [map_prod_dirac (g := (· ^ ·)) (by fun_prop), beta_pow one_pos hc] at h1
    refine C105_same_law S hE (documented_uniform S hS)
      (.bin (o := .truediv) rfl (denotes_num _ 1) h1 ?_) (denotes_pareto S hS hac) ?_
    · have h2 : ∀ᵐ p ∂(Measure.dirac (1 : ℝ)).prod (betaMeasure (1 / c) 1), 0 < p.2 :=
        Measure.quasiMeasurePreserving_snd.ae (beta_ae_pos _ 1)
      filter_upwards [h2] with p hp
      exact hp.ne'
    · rw [map_dirac_prod (g := (· / ·)) (by fun_prop)]
      exact beta_inverse hac

end

/-! ### Concrete cases -/

/-- A generator with numpy's laws: a die, a list with a repetition, the coin, Pareto numbers. -/
example : ∃ (S : IdealSource (Prim ℝ → ℝ)) (E : Env (ℕ → Prim ℝ → ℝ) ℝ),
    SameSamples S E (.leaf (.die ⟨6, none⟩) none none)
      (.leaf (.categorical (.list ((List.range 6).map fun i : ℕ => .plain (.int (i + 1))))) none none) ∧
    SameSamples S E (.leaf (.bernoulli (1 / 4)) none none)
      (.leaf (.categorical (.dict [(.int 0, some (1 - 1 / 4)), (.int 1, some (1 / 4))])) none none) ∧
    SameSamples S E (.leaf (.categorical (.list ([7, 7, 2].map fun r => .plain (.flt r)))) none none)
      (.leaf (.categorical (.dict (([7, 7, 2] : List ℝ).dedup.map
        fun r => (.flt r, some ((([7, 7, 2] : List ℝ).count r : ℝ) / ([7, 7, 2] : List ℝ).length))))) none none) ∧
    SameSamples S E (.bin (.op .pow) (.leaf (.pareto 3) none none) (.lit (.flt 2))) (.leaf (.pareto (3 / 2)) none none) := by
  obtain ⟨S, hS, E, hE⟩ := C110_generator
  exact ⟨S, E, by exact_mod_cast C135_die_list S hS hE (s := 6) (by norm_num),
    C135_bernoulli_dict S hS hE (by norm_num) (by norm_num),
    C135_list_counts S hS hE (by simp) fun r _ => Or.inl rfl,
    (C135_pareto S hS hE (a := 3) (b := 1) (c := 2) (by norm_num) one_pos two_pos).2.1⟩

end Verif
