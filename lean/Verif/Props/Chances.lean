import Verif.Props.ExpectedValue
import Verif.Props.Estimates
import Verif.Lemmas.LawChances

/-!
# C112: chances worked out by hand
-/

namespace Verif

open MeasureTheory ProbabilityTheory Spec Filter Topology

theorem map_cdf {μ : Measure ℝ} {f : ℝ → ℝ} (hf : Measurable f) {F G : ℝ → ℝ}
    (h : ∀ x, μ.real {y | f y ≤ x} = F x) (h' : ∀ x, μ.real {y | f y < x} = G x) : CdfOf (μ.map f) F G := by
  constructor
  · intro x
    rw [map_measureReal_apply hf measurableSet_Iic]
    exact h x
  · intro x
    rw [map_measureReal_apply hf measurableSet_Iio]
    exact h' x

theorem dirac_cdf (r : ℝ) :
    CdfOf (Measure.dirac r) (fun x => if r ≤ x then 1 else 0) (fun x => if r < x then 1 else 0) :=
  cdfOf_integral (fun _ => integral_dirac _ _) fun _ => integral_dirac _ _

theorem clamp_cdf {μ : Measure ℝ} [IsProbabilityMeasure μ] {F G : ℝ → ℝ} (h : CdfOf μ F G) (lo hi : Option ℝ) :
    CdfOf (μ.map (clamp lo hi)) (boundedLe lo hi F) (boundedLt lo hi G) := by
  refine map_cdf (measurable_clamp lo hi) (fun x => ?_) fun x => ?_
  · unfold boundedLe
    split_ifs with h1 h2
    · obtain ⟨b, rfl, hb⟩ := h1
      have : {y | clamp lo (some b) y ≤ x} = Set.univ := by
        ext y
        simp only [Set.mem_ofPred_eq, Set.mem_univ, iff_true]
        exact (min_le_right _ _).trans hb
      rw [this, probReal_univ]
    · obtain ⟨a, rfl, ha⟩ := h2
      have : {y | clamp (some a) hi y ≤ x} = ∅ := by
        ext y
        simp only [Set.mem_ofPred_eq, Set.mem_empty_iff_false, iff_false, not_le]
        have h3 : x < max y a := lt_max_of_lt_right ha
        cases hi with
        | none => exact h3
        | some b => exact lt_min h3 (not_le.1 fun hb => h1 ⟨b, rfl, hb⟩)
      rw [this, measureReal_empty]
    · rw [← h.le]
      congr 1
      ext y
      simp only [Set.mem_ofPred_eq, Set.mem_Iic]
      have h3 : clamp lo none y ≤ x ↔ y ≤ x := by
        cases lo with
        | none => exact Iff.rfl
        | some a => exact ⟨fun h => (le_max_left _ _).trans h, fun h => max_le h (not_lt.1 fun ha => h2 ⟨a, rfl, ha⟩)⟩
      rw [← h3]
      cases hi with
      | none => exact Iff.rfl
      | some b =>
        show min (clamp lo none y) b ≤ x ↔ _
        refine ⟨fun h => ?_, fun h => (min_le_left _ _).trans h⟩
        exact (min_le_iff.1 h).resolve_right fun hb => h1 ⟨b, rfl, hb⟩
  · unfold boundedLt
    split_ifs with h1 h2
    · obtain ⟨b, rfl, hb⟩ := h1
      have : {y | clamp lo (some b) y < x} = Set.univ := by
        ext y
        simp only [Set.mem_ofPred_eq, Set.mem_univ, iff_true]
        exact (min_le_right _ _).trans_lt hb
      rw [this, probReal_univ]
    · obtain ⟨a, rfl, ha⟩ := h2
      have : {y | clamp (some a) hi y < x} = ∅ := by
        ext y
        simp only [Set.mem_ofPred_eq, Set.mem_empty_iff_false, iff_false, not_lt]
        have h3 : x ≤ max y a := le_max_of_le_right ha
        cases hi with
        | none => exact h3
        | some b => exact le_min h3 (not_lt.1 fun hb => h1 ⟨b, rfl, hb⟩)
      rw [this, measureReal_empty]
    · rw [← h.lt]
      congr 1
      ext y
      simp only [Set.mem_ofPred_eq, Set.mem_Iio]
      have h3 : clamp lo none y < x ↔ y < x := by
        cases lo with
        | none => exact Iff.rfl
        | some a => exact ⟨fun h => (le_max_left _ _).trans_lt h, fun h => max_lt h (not_le.1 fun ha => h2 ⟨a, rfl, ha⟩)⟩
      rw [← h3]
      cases hi with
      | none => exact Iff.rfl
      | some b =>
        show min (clamp lo none y) b < x ↔ _
        refine ⟨fun h => ?_, fun h => (min_le_left _ _).trans_lt h⟩
        exact (min_lt_iff.1 h).resolve_right fun hb => h1 ⟨b, rfl, hb⟩

theorem items_cdf {rs : List ℝ} (hr : rs ≠ []) :
    CdfOf ((rs.length : ENNReal)⁻¹ • (rs.map Measure.dirac).sum)
      (fun x => (rs.countP fun r => decide (r ≤ x) : ℕ) / rs.length)
      (fun x => (rs.countP fun r => decide (r < x) : ℕ) / rs.length) := by
  have e : ∀ (p : ℝ → Prop) [DecidablePred p] (l : List ℝ),
      (l.map fun y => if p y then (1 : ℝ) else 0).sum = (l.countP fun r => decide (p r) : ℕ) := by
    intro p _ l
    induction l with
    | nil => simp
    | cons y l ih =>
      rw [List.map_cons, List.sum_cons, ih, List.countP_cons]
      by_cases h : p y
      · simp [h]; ring
      · simp [h]
  refine cdfOf_integral (fun x => ?_) fun x => ?_
  · rw [(items_moment hr _).2, meanOf, e (fun y => y ≤ x), List.length_map]
  · rw [(items_moment hr _).2, meanOf, e (fun y => y < x), List.length_map]

theorem table_cdf {ws rs : List ℝ} (hw : ∀ w ∈ ws, 0 < w) :
    CdfOf ((ws.zip rs).map fun p => ENNReal.ofReal p.1 • Measure.dirac p.2).sum
      (fun x => (((ws.zip rs).filter fun p => decide (p.2 ≤ x)).map Prod.fst).sum)
      (fun x => (((ws.zip rs).filter fun p => decide (p.2 < x)).map Prod.fst).sum) := by
  have e : ∀ (p : ℝ → Prop) [DecidablePred p] (l : List (ℝ × ℝ)),
      (l.map fun q => q.1 * if p q.2 then (1 : ℝ) else 0).sum = ((l.filter fun q => decide (p q.2)).map Prod.fst).sum := by
    intro p _ l
    induction l with
    | nil => simp
    | cons y l ih =>
      rw [List.map_cons, List.sum_cons, ih, List.filter_cons]
      by_cases h : p y.2
      · simp [h]
      · simp [h]
  refine cdfOf_integral (fun x => ?_) fun x => ?_
  · rw [(table_moment hw _).2, e (fun y => y ≤ x)]
  · rw [(table_moment hw _).2, e (fun y => y < x)]

theorem prob_iff {μ : Measure ℝ} {p : ℝ → Prop} {A : Set ℝ} (h : ∀ y, p y ↔ y ∈ A) : μ.real {y | p y} = μ.real A := by
  congr 1
  ext y
  exact h y

theorem max_cdf {μ ν : Measure ℝ} [IsProbabilityMeasure μ] [IsProbabilityMeasure ν] {F G F' G' : ℝ → ℝ}
    (h : CdfOf μ F G) (h' : CdfOf ν F' G') :
    CdfOf ((μ.prod ν).map fun p => max p.1 p.2) (fun x => F x * F' x) (fun x => G x * G' x) := by
  constructor
  · intro x
    rw [map_measureReal_apply (by fun_prop) measurableSet_Iic, ← h.le, ← h'.le, ← measureReal_prod_prod]
    congr 1
    ext p
    exact max_le_iff (α := ℝ)
  · intro x
    rw [map_measureReal_apply (by fun_prop) measurableSet_Iio, ← h.lt, ← h'.lt, ← measureReal_prod_prod]
    congr 1
    ext p
    simp

theorem min_cdf {μ ν : Measure ℝ} [IsProbabilityMeasure μ] [IsProbabilityMeasure ν] {F G F' G' : ℝ → ℝ}
    (h : CdfOf μ F G) (h' : CdfOf ν F' G') :
    CdfOf ((μ.prod ν).map fun p => min p.1 p.2) (fun x => 1 - (1 - F x) * (1 - F' x))
      (fun x => 1 - (1 - G x) * (1 - G' x)) := by
  have hm : Measurable fun p : ℝ × ℝ => min p.1 p.2 := by fun_prop
  have := Measure.isProbabilityMeasure_map (μ := μ.prod ν) hm.aemeasurable
  constructor
  · intro x
    rw [← Set.compl_Ioi, probReal_compl_eq_one_sub measurableSet_Ioi, map_measureReal_apply hm measurableSet_Ioi,
      ← h.gt, ← h'.gt, ← measureReal_prod_prod]
    congr 2
    ext p
    simp
  · intro x
    rw [← Set.compl_Ici, probReal_compl_eq_one_sub measurableSet_Ici, map_measureReal_apply hm measurableSet_Ici,
      ← h.ge, ← h'.ge, ← measureReal_prod_prod]
    congr 2
    ext p
    exact le_min_iff (α := ℝ)

theorem mix_cdf {k : ℕ} {ν : Fin k → Measure ℝ} (hp : ∀ i, IsProbabilityMeasure (ν i)) {w : Fin k → ℝ} (hw : ∀ i, 0 ≤ w i)
    {F G : Fin k → ℝ → ℝ} (h : ∀ i, CdfOf (ν i) (F i) (G i)) :
    CdfOf (∑ i : Fin k, ENNReal.ofReal (w i) • ν i) (fun x => ∑ i, w i * F i x) (fun x => ∑ i, w i * G i x) := by
  have key : ∀ A : Set ℝ, (∑ i : Fin k, ENNReal.ofReal (w i) • ν i).real A = ∑ i, w i * (ν i).real A := by
    intro A
    rw [measureReal_def, Measure.finsetSum_apply, ENNReal.toReal_sum]
    · refine Finset.sum_congr rfl fun i _ => ?_
      rw [Measure.smul_apply, smul_eq_mul, ENNReal.toReal_mul, ENNReal.toReal_ofReal (hw i), measureReal_def]
    · intro i _
      rw [Measure.smul_apply, smul_eq_mul]
      exact ENNReal.mul_ne_top ENNReal.ofReal_ne_top (measure_ne_top _ _)
  constructor
  · intro x
    rw [key]
    exact Finset.sum_congr rfl fun i _ => by rw [(h i).le]
  · intro x
    rw [key]
    exact Finset.sum_congr rfl fun i _ => by rw [(h i).lt]

section

variable {Ω : Type} [MeasurableSpace Ω] (S : IdealSource Ω) {E : Env (ℕ → Ω) ℝ} (hS : Documented S)

include hS

theorem documented_leafCurve {l : Leaf ℝ} {F : ℝ → ℝ} (h : LeafCurve l F) :
    ∃ μ, leafLaw S.primLaw l = some μ ∧ IsProbabilityMeasure μ ∧ CdfOf μ F F := by
  cases h with
  | @uniform x y h => exact ⟨_, hS (.uniform x y) _ (if_pos h), uniformLaw_prob h, uniform_cdf h⟩
  | @normal m s h => exact ⟨_, hS (.normal m s) _ (if_pos h.le), by rw [normalLaw]; infer_instance, normal_cdf h⟩
  | @lognormal m s h =>
    refine ⟨_, hS (.lognormal m s) _ (if_pos h.le), ?_, lognormal_cdf h⟩
    have : IsProbabilityMeasure (normalLaw m s) := by rw [normalLaw]; infer_instance
    exact Measure.isProbabilityMeasure_map Real.measurable_exp.aemeasurable
  | @invlognormal m s h =>
    refine ⟨_, by rw [leafLaw, hS (.lognormal m s) (lognormalLaw m s) (if_pos h.le)]; rfl, ?_⟩
    have := invlognormal_eq m s
    rw [invlognormalLaw] at this
    beta_reduce
    rw [this]
    have hp : IsProbabilityMeasure (normalLaw (-m) s) := by rw [normalLaw]; infer_instance
    refine ⟨Measure.isProbabilityMeasure_map Real.measurable_exp.aemeasurable, ?_⟩
    have h := lognormal_cdf (m := -m) h
    simp only [sub_neg_eq_add] at h
    exact h
  | @exponential c h =>
    exact ⟨_, hS (.exponential c) _ (if_pos h), isProbabilityMeasure_expMeasure (by positivity), exponential_cdf h⟩
  | @pareto a h =>
    refine ⟨_, by rw [leafLaw, hS (.pareto a) _ (if_pos h)]; rfl, ?_⟩
    beta_reduce
    rw [Measure.map_map (by fun_prop) (by fun_prop)]
    have : ((fun x : ℝ => x + 1) ∘ fun x => x - 1) = id := by funext x; simp
    rw [this, Measure.map_id]
    exact ⟨isProbabilityMeasure_paretoMeasure one_pos h, pareto_cdf h⟩
  | @triangular l m r h1 h2 h3 =>
    exact ⟨_, hS (.triangular l m r) _ (if_pos ⟨h1, h2, h3⟩), triangularLaw_prob h1 h2 h3, triangular_cdf h1 h2 h3⟩

theorem documented_leafSteps {l : Leaf ℝ} {F G : ℝ → ℝ} (h : LeafSteps l F G) :
    ∃ μ, leafLaw S.primLaw l = some μ ∧ IsProbabilityMeasure μ ∧ CdfOf μ F G := by
  cases h with
  | @bernoulli p h0 h1 =>
    refine ⟨_, by rw [leafLaw, documented_uniform S hS]; rfl, ?_, bernoulli_cdf h0 h1⟩
    have : IsProbabilityMeasure unitLaw := by rw [← uniformLaw_unit]; exact uniformLaw_prob one_pos
    exact Measure.isProbabilityMeasure_map
      (Measurable.ite measurableSet_Iio measurable_const measurable_const).aemeasurable
  | @die s h =>
    exact ⟨_, hS (.integers 1 (s + 1)) _ (if_pos (by omega)), integersLaw_prob (by omega), die_cdf h⟩
  | @geometric p h0 h1 =>
    have hp : (⟨p, h0.le, h1⟩ : unitInterval) ≠ 0 := fun h => h0.ne' (congrArg Subtype.val h)
    refine ⟨_, hS (.geometric p) _ (dif_pos ⟨h0, h1⟩), ?_, geometric_cdf hp⟩
    exact Measure.isProbabilityMeasure_map (by fun_prop)
  | @binomial n p h0 h1 =>
    refine ⟨_, hS (.binomial n p) _ (dif_pos ⟨Int.natCast_nonneg n, h0, h1⟩), ?_, ?_⟩
    · exact Measure.isProbabilityMeasure_map (by fun_prop)
    · exact binomial_cdf n ⟨p, h0, h1⟩
  | @poisson lam h =>
    refine ⟨_, hS (.poisson lam) _ (dif_pos h), ?_, poisson_cdf h⟩
    exact Measure.isProbabilityMeasure_map (by fun_prop)

variable (hE : S.Drives E)

include hE

theorem chancesAre_law {d : Obj (St (ℕ → Ω) ℝ) ℝ} {F G : ℝ → ℝ} (h : ChancesAre d F G) :
    ∃ μ, Denotes S.primLaw d μ ∧ CdfOf μ F G := by
  induction h with
  | @lit v r hv => exact ⟨_, .lit hv, dirac_cdf r⟩
  | @const v r lc rc lo hi hv h1 h2 => exact ⟨_, .const hv h1 h2, clamp_cdf (dirac_cdf r) lo hi⟩
  | @curve l F lc rc lo hi hl h1 h2 =>
    obtain ⟨μ, hμ, hp, hc⟩ := documented_leafCurve S hS hl
    exact ⟨_, .leaf hμ h1 h2, clamp_cdf hc lo hi⟩
  | @steps l F G lc rc lo hi hl h1 h2 =>
    obtain ⟨μ, hμ, hp, hc⟩ := documented_leafSteps S hS hl
    exact ⟨_, .leaf hμ h1 h2, clamp_cdf hc lo hi⟩
  | @items vs rs lc rc lo hi hne hr h1 h2 =>
    have hne' : rs ≠ [] := fun h => hne (List.length_eq_zero_iff.1 (by rw [hr.length_eq, h]; rfl))
    have hp := denotes_prob S hS hE (Denotes.items (S := St (ℕ → Ω) ℝ) (L := S.primLaw) (lc := none) (rc := none)
      (lo := none) (hi := none) hne hr trivial trivial)
    rw [clamp_none, Measure.map_id] at hp
    exact ⟨_, .items hne hr h1 h2, clamp_cdf (items_cdf hne') lo hi⟩
  | @table vs rs ws lc rc lo hi hl hr hw hs h1 h2 =>
    have hp := denotes_prob S hS hE (Denotes.table (S := St (ℕ → Ω) ℝ) (L := S.primLaw) (lc := none) (rc := none)
      (lo := none) (hi := none) (Or.inl rfl) hl hr hw hs trivial trivial)
    rw [clamp_none, Measure.map_id] at hp
    exact ⟨_, .table (Or.inl rfl) hl hr hw hs h1 h2, clamp_cdf (table_cdf hw) lo hi⟩
  | @mix k ds F G ws lc rc lo hi hk _ hw hs h1 h2 ih =>
    choose ν hd hc using ih
    have hp : ∀ i, IsProbabilityMeasure (ν i) := fun i => denotes_prob S hS hE (hd i)
    have hq := denotes_prob S hS hE (Denotes.mix (L := S.primLaw) (lc := none) (rc := none) (lo := none) (hi := none)
      hk hd hw hs trivial trivial)
    rw [clamp_none, Measure.map_id] at hq
    exact ⟨_, .mix hk hd hw hs h1 h2, clamp_cdf (mix_cdf hp (fun i => (hw _ (List.getElem_mem _)).le) hc) lo hi⟩
  | @neg a F G _ ih =>
    obtain ⟨μ, hd, hc⟩ := ih
    have := denotes_prob S hS hE hd
    refine ⟨_, .un (f := .neg) rfl hd, map_cdf (by fun_prop) (fun x => ?_) fun x => ?_⟩
    · rw [← hc.ge]
      exact prob_iff fun y => neg_le
    · rw [← hc.gt]
      exact prob_iff fun y => neg_lt
  | @floor a F G _ ih =>
    obtain ⟨μ, hd, hc⟩ := ih
    refine ⟨_, .un (f := .floor) rfl hd, map_cdf (by fun_prop) (fun x => ?_) fun x => ?_⟩
    · rw [← hc.lt]
      refine prob_iff fun y => ?_
      rw [Set.mem_Iio, ← Int.le_floor, ← Int.lt_add_one_iff, Int.floor_lt]
      push_cast
      rfl
    · rw [← hc.lt]
      refine prob_iff fun y => ?_
      rw [Set.mem_Iio, ← Int.lt_ceil, Int.floor_lt]
  | @ceil a F G _ ih =>
    obtain ⟨μ, hd, hc⟩ := ih
    refine ⟨_, .un (f := .ceil) rfl hd, map_cdf (by fun_prop) (fun x => ?_) fun x => ?_⟩
    · rw [← hc.le]
      refine prob_iff fun y => ?_
      rw [Set.mem_Iic, ← Int.le_floor, Int.ceil_le]
    · rw [← hc.le]
      refine prob_iff fun y => ?_
      rw [Set.mem_Iic, ← Int.lt_ceil, ← Int.le_sub_one_iff, Int.ceil_le]
      push_cast
      rfl
  | @addConst a F G v c _ hv ih =>
    obtain ⟨μ, hd, hc⟩ := ih
    have := denotes_prob S hS hE hd
    refine ⟨_, .bin (o := .add) rfl hd (.lit hv) (.of_forall fun _ => trivial), ?_⟩
    rw [Measure.prod_dirac, Measure.map_map (by fun_prop) (by fun_prop)]
    refine map_cdf (by fun_prop) (fun x => ?_) fun x => ?_
    · rw [← hc.le]
      exact prob_iff fun y => le_sub_iff_add_le.symm
    · rw [← hc.lt]
      exact prob_iff fun y => lt_sub_iff_add_lt.symm
  | @subConst a F G v c _ hv ih =>
    obtain ⟨μ, hd, hc⟩ := ih
    have := denotes_prob S hS hE hd
    refine ⟨_, .bin (o := .sub) rfl hd (.lit hv) (.of_forall fun _ => trivial), ?_⟩
    rw [Measure.prod_dirac, Measure.map_map (by fun_prop) (by fun_prop)]
    refine map_cdf (by fun_prop) (fun x => ?_) fun x => ?_
    · rw [← hc.le]
      exact prob_iff fun y => sub_le_iff_le_add
    · rw [← hc.lt]
      exact prob_iff fun y => sub_lt_iff_lt_add
  | @constSub a F G v c _ hv ih =>
    obtain ⟨μ, hd, hc⟩ := ih
    have := denotes_prob S hS hE hd
    refine ⟨_, .bin (o := .sub) rfl (.lit hv) hd (.of_forall fun _ => trivial), ?_⟩
    rw [Measure.dirac_prod, Measure.map_map (by fun_prop) (by fun_prop)]
    refine map_cdf (by fun_prop) (fun x => ?_) fun x => ?_
    · rw [← hc.ge]
      exact prob_iff fun y => sub_le_comm
    · rw [← hc.gt]
      exact prob_iff fun y => sub_lt_comm
  | @mulConst a F G v c _ hv h0 ih =>
    obtain ⟨μ, hd, hc⟩ := ih
    have := denotes_prob S hS hE hd
    refine ⟨_, .bin (o := .mul) rfl hd (.lit hv) (.of_forall fun _ => trivial), ?_⟩
    rw [Measure.prod_dirac, Measure.map_map (by fun_prop) (by fun_prop)]
    refine map_cdf (by fun_prop) (fun x => ?_) fun x => ?_
    · rw [← hc.le]
      exact prob_iff fun y => (le_div_iff₀ h0).symm
    · rw [← hc.lt]
      exact prob_iff fun y => (lt_div_iff₀ h0).symm
  | @divConst a F G v c _ hv h0 ih =>
    obtain ⟨μ, hd, hc⟩ := ih
    have := denotes_prob S hS hE hd
    refine ⟨_, .bin (o := .truediv) rfl hd (.lit hv) ?_, ?_⟩
    · rw [Measure.prod_dirac, ae_map_iff (by fun_prop) (by
        simp only [opDefined]
        exact (measurable_snd (measurableSet_singleton (0 : ℝ))).compl)]
      exact .of_forall fun _ => h0.ne'
    · rw [Measure.prod_dirac, Measure.map_map (by fun_prop) (by fun_prop)]
      refine map_cdf (by fun_prop) (fun x => ?_) fun x => ?_
      · rw [← hc.le]
        exact prob_iff fun y => div_le_iff₀ h0
      · rw [← hc.lt]
        exact prob_iff fun y => div_lt_iff₀ h0
  | @max a b F G F' G' _ _ iha ihb =>
    obtain ⟨μ, ha, h1⟩ := iha
    obtain ⟨ν, hb, h2⟩ := ihb
    have := denotes_prob S hS hE ha
    have := denotes_prob S hS hE hb
    exact ⟨_, .bin (o := .max) rfl ha hb (.of_forall fun _ => trivial), max_cdf h1 h2⟩
  | @min a b F G F' G' _ _ iha ihb =>
    obtain ⟨μ, ha, h1⟩ := iha
    obtain ⟨ν, hb, h2⟩ := ihb
    have := denotes_prob S hS hE ha
    have := denotes_prob S hS hE hb
    exact ⟨_, .bin (o := .min) rfl ha hb (.of_forall fun _ => trivial), min_cdf h1 h2⟩

/-- The chance that one of the `n` samples meets a condition. -/
theorem sample_prob {d : Obj (St (ℕ → Ω) ℝ) ℝ} {μ : Measure ℝ} (hd : Denotes S.primLaw d μ) {n : ℕ} (i : Fin n)
    (left : ℕ → ℕ → Option (List (Scalar ℝ))) (q : ℝ → Prop) (hq : NullMeasurableSet {y | q y} μ) :
    (Measure.infinitePi fun _ : ℕ => S.law).real
      {ω | ∃ z s' xs, sampleObj E d n none none ⟨ω, left⟩ = (.ok z, s') ∧ List.Forall₂ IsReal z.toList xs ∧
        ∃ hi : i.1 < xs.length, q xs[i.1]} = μ.real {y | q y} := by
  obtain ⟨hp, X, hX, hae, hlaw, -⟩ :=
    C86_independent_samples S hE (documented_uniform S hS) hd (n := n) (by have := i.2; omega) left
  have e : μ.real {y | q y} = (Measure.infinitePi fun _ : ℕ => S.law).real (X i ⁻¹' {y | q y}) := by
    rw [← hlaw i] at hq
    rw [← hlaw i, measureReal_def, Measure.map_apply₀ (hX i).aemeasurable hq, measureReal_def]
  rw [e]
  refine measureReal_congr ?_
  filter_upwards [hae] with ω hω
  obtain ⟨z, s', hz, hR⟩ := hω
  refine propext ⟨?_, fun hqx => ⟨z, s', _, hz, hR.2, by simpa using (show q (X i ω) from hqx)⟩⟩
  rintro ⟨z', s'', xs, hz', hxs, hi, hqx⟩
  rw [hz] at hz'
  obtain rfl : z = z' := Except.ok.inj (Prod.mk.inj hz').1
  have : xs = List.ofFn fun i => X i ω := by
    have h1 := hxs.length_eq
    have h2 := hR.2.length_eq
    refine List.ext_getElem (by omega) fun j hj hj' => ?_
    exact isReal_unique ((List.forall₂_iff_get.1 hxs).2 j (by omega) (by omega))
      ((List.forall₂_iff_get.1 hR.2).2 j (by omega) (by omega))
  subst this
  show q (X i ω)
  simpa using hqx

/-- **C112**: every one of the `n` samples is at most `x` with the chance worked out by hand, and less than `x`
with the chance worked out by hand. -/
theorem C112_chance {d : Obj (St (ℕ → Ω) ℝ) ℝ} {F G : ℝ → ℝ} (h : ChancesAre d F G) {n : ℕ} (i : Fin n)
    (left : ℕ → ℕ → Option (List (Scalar ℝ))) (x : ℝ) :
    (Measure.infinitePi fun _ : ℕ => S.law).real
      {ω | ∃ z s' xs, sampleObj E d n none none ⟨ω, left⟩ = (.ok z, s') ∧ List.Forall₂ IsReal z.toList xs ∧
        ∃ hi : i.1 < xs.length, xs[i.1] ≤ x} = F x ∧
    (Measure.infinitePi fun _ : ℕ => S.law).real
      {ω | ∃ z s' xs, sampleObj E d n none none ⟨ω, left⟩ = (.ok z, s') ∧ List.Forall₂ IsReal z.toList xs ∧
        ∃ hi : i.1 < xs.length, xs[i.1] < x} = G x := by
  obtain ⟨μ, hd, hc⟩ := chancesAre_law S hS hE h
  exact ⟨(sample_prob S hS hE hd i left (fun y => y ≤ x) measurableSet_Iic.nullMeasurableSet).trans (hc.le x),
    (sample_prob S hS hE hd i left (fun y => y < x) measurableSet_Iio.nullMeasurableSet).trans (hc.lt x)⟩

/-- **C112**: the fraction of the samples that are at most `x` is within `ε` of the chance worked out by hand,
except with probability at most `2 exp(-2 n ε²)`. -/
theorem C112_frequency {d : Obj (St (ℕ → Ω) ℝ) ℝ} {F G : ℝ → ℝ} (h : ChancesAre d F G) {n : ℕ} (hn : 1 ≤ n)
    (left : ℕ → ℕ → Option (List (Scalar ℝ))) (x : ℝ) {ε : ℝ} (hε : 0 < ε) :
    (Measure.infinitePi fun _ : ℕ => S.law).real
      {ω | ¬ ∃ z s' xs, sampleObj E d n none none ⟨ω, left⟩ = (.ok z, s') ∧ List.Forall₂ IsReal z.toList xs ∧
        |((xs.countP fun y => decide (y ≤ x) : ℕ) : ℝ) / n - F x| < ε}
      ≤ 2 * Real.exp (-2 * n * ε ^ 2) := by
  obtain ⟨μ, hd, hc⟩ := chancesAre_law S hS hE h
  have e : {y : ℝ | decide (y ≤ x) = true} = Set.Iic x := by ext; simp
  have := C87_frequency S hE (documented_uniform S hS) hd (fun y => decide (y ≤ x)) (by rw [e]; exact measurableSet_Iic)
    hn left hε
  rwa [e, hc.le] at this

/-- **C112**: the percentiles of the samples tend (in probability) to the percentile read off the chances: the
value `q` such that the chances are less than `p` percent below `q` and more than `p` percent above. -/
theorem C112_percentile {d : Obj (St (ℕ → Ω) ℝ) ℝ} {F G : ℝ → ℝ} (h : ChancesAre d F G)
    (argsort : List ℝ → List ℕ) (left : ℕ → ℕ → Option (List (Scalar ℝ))) {p q : ℝ} (h0 : 0 ≤ p)
    (h1 : p ≤ 100) (hb : ∀ x < q, F x < p / 100) (ha : ∀ x > q, p / 100 < F x) {η : ℝ} (hη : 0 < η) :
    Tendsto (fun n => (Measure.infinitePi fun _ : ℕ => S.law).real
      {ω | ¬ ∃ z s' xs v, sampleObj E d n none none ⟨ω, left⟩ = (.ok z, s') ∧ List.Forall₂ IsReal z.toList xs ∧
        getPercentiles argsort xs (.one p) = .ok (.one (.flt v)) ∧ |v - q| ≤ η}) atTop (nhds 0) := by
  obtain ⟨μ, hd, hc⟩ := chancesAre_law S hS hE h
  have := denotes_prob S hS hE hd
  refine C90_percentile_limit S hE (documented_uniform S hS) hd argsort left h0 h1 ⟨fun a h => ?_, fun b h => ?_⟩ hη
  · refine lt_of_le_of_lt (measureReal_mono Set.Iio_subset_Iic_self) ?_
    rw [hc.le]
    exact hb a h
  · rw [hc.gt]
    linarith [ha b h]

end

/-- The larger of two dice is at most 5 in 25 of 36 cases, and the model with bounds and a mixture:
60% `exponential(2)` cut at 1, 40% a coin, minus 1, is at most 0 with chance `0.6 + 0.4`, less than 0 with chance
`0.6 (1 - exp(-1/2)) + 0.4 / 2`. -/
example {T : Type} :
    (∃ F G, ChancesAre (T := T)
      (.bin (.op .max) (.leaf (.die ⟨6, none⟩) none none) (.leaf (.die ⟨6, none⟩) none none)) F G ∧ F 5 = 25 / 36) ∧
    ∃ F G, ChancesAre (T := T)
      (.bin (.op .sub) (.mix 2 ![.leaf (.exponential 2) none (some (.int 1)), .leaf (.bernoulli (1 / 2)) none none]
        [3 / 5, 2 / 5] none none) (.lit (.int 1))) F G ∧ F 0 = 1 ∧
        G 0 = 3 / 5 * (1 - Real.exp (-1 / 2)) + 2 / 5 * (1 / 2) := by
  constructor
  · refine ⟨_, _, .max (.steps (lo := none) (hi := none) (.die (by norm_num)) trivial trivial)
      (.steps (lo := none) (hi := none) (.die (by norm_num)) trivial trivial), ?_⟩
    have e : ((Finset.Icc (1 : ℤ) 6).filter fun k : ℤ => (k : ℝ) ≤ 5) = Finset.Icc 1 5 := by
      ext k
      have : (k : ℝ) ≤ 5 ↔ k ≤ 5 := by exact_mod_cast Iff.rfl
      simp only [Finset.mem_filter, Finset.mem_Icc, this]
      omega
    simp only [boundedLe, reduceCtorEq, false_and, exists_false, if_false]
    rw [e]
    norm_num
    norm_num [show Int.toNat 5 = 5 from rfl]
  · refine ⟨_, _, .subConst (.mix (k := 2) (lo := none) (hi := none)
      (F := ![boundedLe none (some 1) fun x => if x ≤ 0 then 0 else 1 - Real.exp (-x / 2),
        boundedLe none none fun x => if x < 0 then 0 else if x < 1 then 1 - 1 / 2 else 1])
      (G := ![boundedLt none (some 1) fun x => if x ≤ 0 then 0 else 1 - Real.exp (-x / 2),
        boundedLt none none fun x => if x ≤ 0 then 0 else if x ≤ 1 then 1 - 1 / 2 else 1]) rfl (by
        intro i
        fin_cases i
        · exact .curve (lo := none) (hi := some 1) (.exponential (by norm_num)) trivial (Or.inr ⟨1, rfl, by norm_num⟩)
        · exact .steps (lo := none) (hi := none) (.bernoulli (by norm_num) (by norm_num)) trivial trivial)
      (by norm_num) (by norm_num) trivial trivial) (Or.inr ⟨1, rfl, rfl⟩), ?_, ?_⟩
    · simp [boundedLe, Fin.sum_univ_two]
      norm_num
    · simp [boundedLt, Fin.sum_univ_two]
      norm_num

end Verif
