import Verif.Lemmas.RankInvariance
import Mathlib.MeasureTheory.Constructions.Pi
import Mathlib.MeasureTheory.Integral.Lebesgue.Markov
import Mathlib.MeasureTheory.Measure.Typeclasses.NullSingletonClass
import Mathlib.MeasureTheory.Constructions.BorelSpace.Real
import Mathlib.Data.Fintype.Perm

/-!
# Helper lemmas: independent columns, exchanged rows

`n` independent observations of `m` independent variables, as `m` columns of length `n`.  A reordering of the
columns that respects exchanges of rows and looks at the data only through the order within the columns leaves
each (continuous) column a sample of independent values with the same law, independently of whether the
reordering succeeded.
-/

namespace Verif

open MeasureTheory Spec

section Update

variable {ι : Type} [Fintype ι] [DecidableEq ι] {α : ι → Type} [∀ i, MeasurableSpace (α i)]

/-- Drawing one coordinate anew does not change the law. -/
theorem pi_update (μ : ∀ i, Measure (α i)) [∀ i, IsProbabilityMeasure (μ i)] (i : ι) :
    ((μ i).prod (Measure.pi μ)).map (fun p => Function.update p.2 i p.1) = Measure.pi μ := by
  have hm : Measurable fun p : α i × (∀ k, α k) => Function.update p.2 i p.1 := by
    refine measurable_pi_lambda _ fun k => ?_
    by_cases h : k = i
    · subst h
      simpa using measurable_fst
    · simp only [Function.update_of_ne h]
      exact (measurable_pi_apply k).comp measurable_snd
  symm
  refine Measure.pi_eq fun s hs => ?_
  rw [Measure.map_apply hm (MeasurableSet.univ_pi hs)]
  have e : (fun p : α i × (∀ k, α k) => Function.update p.2 i p.1) ⁻¹' Set.univ.pi s
      = s i ×ˢ Set.univ.pi (Function.update s i Set.univ) := by
    ext p
    simp only [Set.mem_preimage, Set.mem_pi, Set.mem_univ, forall_true_left, Set.mem_prod]
    constructor
    · intro h
      refine ⟨by simpa using h i, fun k => ?_⟩
      by_cases hk : k = i
      · subst hk; simp
      · simpa [Function.update_of_ne hk] using h k
    · rintro ⟨h1, h2⟩ k
      by_cases hk : k = i
      · subst hk; simpa using h1
      · simpa [Function.update_of_ne hk] using h2 k
  rw [e, Measure.prod_prod, Measure.pi_pi, ← Finset.mul_prod_erase _ _ (Finset.mem_univ i),
    ← Finset.mul_prod_erase Finset.univ (fun k => μ k (s k)) (Finset.mem_univ i)]
  simp only [Function.update_self, measure_univ, one_mul]
  congr 1
  refine Finset.prod_congr rfl fun k hk => ?_
  rw [Function.update_of_ne (Finset.ne_of_mem_erase hk)]

end Update

variable {m n : ℕ}

theorem pi_perm {X : Type} [MeasurableSpace X] (μ : Measure X) [IsProbabilityMeasure μ]
    (σ : Equiv.Perm (Fin n)) :
    MeasurePreserving (fun x : Fin n → X => x ∘ σ) (Measure.pi fun _ : Fin n => μ)
      (Measure.pi fun _ : Fin n => μ) := by
  have hm : Measurable fun x : Fin n → X => x ∘ σ := measurable_pi_lambda _ fun i => measurable_pi_apply _
  refine ⟨hm, ?_⟩
  symm
  refine Measure.pi_eq fun s hs => ?_
  rw [Measure.map_apply hm (MeasurableSet.univ_pi hs)]
  have e : (fun x : Fin n → X => x ∘ σ) ⁻¹' Set.univ.pi s = Set.univ.pi fun i => s (σ.symm i) := by
    ext x
    simp only [Set.mem_preimage, Set.mem_pi, Set.mem_univ, forall_true_left, Function.comp]
    constructor
    · intro h i
      simpa using h (σ.symm i)
    · intro h i
      simpa using h (σ i)
  rw [e, Measure.pi_pi]
  exact Equiv.prod_comp σ.symm fun i => μ (s i)

/-- Values drawn independently from a continuous law are distinct. -/
theorem pi_injective (μ : Measure ℝ) [IsProbabilityMeasure μ] [NullSingletonClass μ] :
    ∀ᵐ x ∂(Measure.pi fun _ : Fin n => μ), Function.Injective x := by
  have h : ∀ a b : Fin n, a ≠ b → ∀ᵐ x ∂(Measure.pi fun _ : Fin n => μ), x a ≠ x b := by
    intro a b hab
    rw [← pi_update (fun _ : Fin n => μ) a]
    have hm : Measurable fun p : ℝ × (Fin n → ℝ) => Function.update p.2 a p.1 := by
      refine measurable_pi_lambda _ fun k => ?_
      by_cases h : k = a
      · subst h
        simpa using measurable_fst
      · simp only [Function.update_of_ne h]
        exact (measurable_pi_apply k).comp measurable_snd
    have hs : MeasurableSet {x : Fin n → ℝ | x a ≠ x b} :=
      (measurableSet_eq_fun (measurable_pi_apply a) (measurable_pi_apply b)).compl
    rw [ae_map_iff hm.aemeasurable hs]
    have hs' : MeasurableSet {p : ℝ × (Fin n → ℝ) | Function.update p.2 a p.1 a ≠ Function.update p.2 a p.1 b} :=
      hm hs
    rw [Measure.ae_prod_iff_ae_ae hs']
    refine Filter.Eventually.of_forall fun u => ?_
    have := Measure.ae_eval_ne (fun _ : Fin n => μ) b u
    filter_upwards [this] with x hx
    simp only [Function.update_self, Function.update_of_ne hab.symm]
    exact fun h => hx h.symm
  have := ae_all_iff.2 fun a => ae_all_iff.2 fun b => show ∀ᵐ x ∂(Measure.pi fun _ : Fin n => μ),
      a ≠ b → x a ≠ x b by
    by_cases hab : a = b
    · exact Filter.Eventually.of_forall fun x h => absurd hab h
    · filter_upwards [h a b hab] with x hx _ using hx
  filter_upwards [this] with x hx a b hab
  by_contra hne
  exact hx a b hne hab

/-- The law of `n` independent observations of `m` independent variables. -/
noncomputable def tableLaw (n : ℕ) {m : ℕ} (ν : Fin m → Measure ℝ) : Measure (Fin m → Fin n → ℝ) :=
  Measure.pi fun j => Measure.pi fun _ : Fin n => ν j

instance (ν : Fin m → Measure ℝ) [∀ j, IsProbabilityMeasure (ν j)] : IsProbabilityMeasure (tableLaw n ν) := by
  unfold tableLaw; infer_instance

/-- Exchange of rows. -/
def rowsOf (σ : Equiv.Perm (Fin n)) (X : Fin m → Fin n → ℝ) : Fin m → Fin n → ℝ := fun j => X j ∘ σ

theorem table_rows (ν : Fin m → Measure ℝ) [∀ j, IsProbabilityMeasure (ν j)] (σ : Equiv.Perm (Fin n)) :
    MeasurePreserving (rowsOf σ) (tableLaw n ν) (tableLaw n ν) :=
  measurePreserving_pi (fun j => Measure.pi fun _ : Fin n => ν j) _ fun j => pi_perm (ν j) σ

section Exchange

variable (ν : Fin m → Measure ℝ) [∀ j, IsProbabilityMeasure (ν j)]
  {S : Set (Fin m → Fin n → ℝ)} (hS : MeasurableSet S)
  (hrows : ∀ (σ : Equiv.Perm (Fin n)) X, X ∈ S → rowsOf σ X ∈ S)
  (horder : ∀ X Y : Fin m → Fin n → ℝ, (∀ k, SameOrder (X k) (Y k)) → X ∈ S → Y ∈ S)
  (j : Fin m)

include hS hrows horder in
/-- The probability of success does not depend on a column, if its values are distinct. -/
theorem success_const {x y : Fin n → ℝ} (hx : Function.Injective x) (hy : Function.Injective y) :
    tableLaw n ν {X | Function.update X j x ∈ S} = tableLaw n ν {X | Function.update X j y ∈ S} := by
  set σ : Equiv.Perm (Fin n) := (Tuple.sort y).symm.trans (Tuple.sort x) with hσ
  have hxs : StrictMono (x ∘ Tuple.sort x) :=
    (Tuple.monotone_sort x).strictMono_of_injective (hx.comp (Tuple.sort x).injective)
  have hys : StrictMono (y ∘ Tuple.sort y) :=
    (Tuple.monotone_sort y).strictMono_of_injective (hy.comp (Tuple.sort y).injective)
  have ho : SameOrder (x ∘ σ) y := by
    intro a b
    have h1 : x (σ a) < x (σ b) ↔ (Tuple.sort y).symm a < (Tuple.sort y).symm b := hxs.lt_iff_lt
    have h2 := hys.lt_iff_lt (a := (Tuple.sort y).symm a) (b := (Tuple.sort y).symm b)
    simp only [Function.comp, Equiv.apply_symm_apply] at h2
    exact h1.trans h2.symm
  have hmeas : ∀ z : Fin n → ℝ, MeasurableSet {X : Fin m → Fin n → ℝ | Function.update X j z ∈ S} := by
    intro z
    refine (measurable_pi_lambda _ fun k => ?_ : Measurable fun X : Fin m → Fin n → ℝ => Function.update X j z) hS
    by_cases h : k = j
    · subst h
      simp
    · simp only [Function.update_of_ne h]
      exact measurable_pi_apply k
  have hcomm : ∀ (τ : Equiv.Perm (Fin n)) (X : Fin m → Fin n → ℝ) (z : Fin n → ℝ),
      rowsOf τ (Function.update X j z) = Function.update (rowsOf τ X) j (z ∘ τ) := by
    intro τ X z
    funext k
    by_cases h : k = j
    · subst h
      simp [rowsOf]
    · simp [rowsOf, Function.update_of_ne h]
  have hback : ∀ (τ : Equiv.Perm (Fin n)) (X : Fin m → Fin n → ℝ), rowsOf τ.symm (rowsOf τ X) = X := by
    intro τ X
    funext k r
    simp [rowsOf, Function.comp]
  have h1 : {X | Function.update X j x ∈ S} = rowsOf σ ⁻¹' {X | Function.update X j (x ∘ σ) ∈ S} := by
    ext X
    simp only [Set.mem_ofPred_eq, Set.mem_preimage]
    rw [← hcomm]
    refine ⟨hrows σ _, fun h => ?_⟩
    have := hrows σ.symm _ h
    rwa [hback] at this
  have h2 : {X | Function.update X j (x ∘ σ) ∈ S} = {X : Fin m → Fin n → ℝ | Function.update X j y ∈ S} := by
    have key : ∀ (u v : Fin n → ℝ), SameOrder u v → ∀ X : Fin m → Fin n → ℝ,
        Function.update X j u ∈ S → Function.update X j v ∈ S := by
      intro u v huv X
      refine horder _ _ fun k => ?_
      by_cases h : k = j
      · subst h
        simpa using huv
      · simp only [Function.update_of_ne h]
        exact fun a b => Iff.rfl
    ext X
    exact ⟨key _ _ ho X, key _ _ ho.symm X⟩
  rw [h1, (table_rows ν σ).measure_preimage (hmeas _).nullMeasurableSet, h2]

include hS hrows horder in
/-- Success is independent of each continuous column. -/
theorem success_indep [NullSingletonClass (ν j)] {B : Set (Fin n → ℝ)} (hB : MeasurableSet B) :
    tableLaw n ν (S ∩ {X | X j ∈ B}) = tableLaw n ν S * (Measure.pi fun _ : Fin n => ν j) B := by
  set P := tableLaw n ν with hP
  set μ : Measure (Fin n → ℝ) := Measure.pi fun _ : Fin n => ν j with hμ
  have hup : (μ.prod P).map (fun p => Function.update p.2 j p.1) = P :=
    pi_update (fun j => Measure.pi fun _ : Fin n => ν j) j
  have hm : Measurable fun p : (Fin n → ℝ) × (Fin m → Fin n → ℝ) => Function.update p.2 j p.1 := by
    refine measurable_pi_lambda _ fun k => ?_
    by_cases h : k = j
    · subst h
      simpa using measurable_fst
    · simp only [Function.update_of_ne h]
      exact (measurable_pi_apply k).comp measurable_snd
  have hform : ∀ B : Set (Fin n → ℝ), MeasurableSet B →
      P (S ∩ {X | X j ∈ B}) = ∫⁻ x, B.indicator (fun x => P {X | Function.update X j x ∈ S}) x ∂μ := by
    intro B hB
    have hSB : MeasurableSet (S ∩ {X : Fin m → Fin n → ℝ | X j ∈ B}) := hS.inter (measurable_pi_apply j hB)
    conv_lhs => rw [← hup]
    rw [Measure.map_apply hm hSB, Measure.prod_apply (hm hSB)]
    refine lintegral_congr fun x => ?_
    by_cases hx : x ∈ B
    · rw [Set.indicator_of_mem hx]
      congr 1
      ext X
      simp [hx]
    · rw [Set.indicator_of_notMem hx]
      convert measure_empty (μ := P)
      ext X
      simp [hx]
  have hinj := pi_injective (n := n) (ν j)
  obtain ⟨c, hc⟩ : ∃ c, ∀ᵐ x ∂μ, P {X | Function.update X j x ∈ S} = c := by
    obtain ⟨y, hy⟩ := hinj.exists
    refine ⟨P {X | Function.update X j y ∈ S}, ?_⟩
    filter_upwards [hinj] with x hx
    exact success_const ν hS hrows horder j hx hy
  have hint : ∀ B : Set (Fin n → ℝ), MeasurableSet B → P (S ∩ {X | X j ∈ B}) = c * μ B := by
    intro B hB
    rw [hform B hB]
    have : ∫⁻ x, B.indicator (fun x => P {X | Function.update X j x ∈ S}) x ∂μ
        = ∫⁻ x, B.indicator (fun _ => c) x ∂μ := by
      refine lintegral_congr_ae ?_
      filter_upwards [hc] with x hx
      by_cases h : x ∈ B
      · rw [Set.indicator_of_mem h, Set.indicator_of_mem h, hx]
      · rw [Set.indicator_of_notMem h, Set.indicator_of_notMem h]
    rw [this, lintegral_indicator hB, setLIntegral_const]
  have huniv := hint Set.univ MeasurableSet.univ
  simp only [Set.mem_univ, Set.ofPred_true, Set.inter_univ, measure_univ, mul_one] at huniv
  rw [hint B hB, huniv]

variable {T : (Fin m → Fin n → ℝ) → Fin n → ℝ} (hT : Measurable T)
  (hTrows : ∀ (σ : Equiv.Perm (Fin n)) X, X ∈ S → T (rowsOf σ X) = T X ∘ σ)
  (hTperm : ∀ X ∈ S, ∃ π : Equiv.Perm (Fin n), T X = X j ∘ π)

include hS hrows hT hTrows hTperm in
/-- A reordering that respects exchanges of rows does not change the law of a column. -/
theorem reorder_same {B : Set (Fin n → ℝ)} (hB : MeasurableSet B) :
    tableLaw n ν (S ∩ {X | T X ∈ B}) = tableLaw n ν (S ∩ {X | X j ∈ B}) := by
  classical
  set P := tableLaw n ν with hP
  have hcomp : ∀ σ : Equiv.Perm (Fin n), Measurable fun x : Fin n → ℝ => x ∘ σ := fun σ =>
    measurable_pi_lambda _ fun i => measurable_pi_apply _
  have hback : ∀ (τ : Equiv.Perm (Fin n)) (X : Fin m → Fin n → ℝ), rowsOf τ.symm (rowsOf τ X) = X := by
    intro τ X
    funext k r
    simp [rowsOf, Function.comp]
  have hiff : ∀ σ X, rowsOf σ X ∈ S ↔ X ∈ S := fun σ X =>
    ⟨fun h => by have := hrows σ.symm _ h; rwa [hback] at this, hrows σ X⟩
  have h1 : ∀ σ : Equiv.Perm (Fin n), P (S ∩ {X | T X ∈ B}) = P (S ∩ {X | T X ∘ σ ∈ B}) := by
    intro σ
    have hms : MeasurableSet (S ∩ {X | T X ∈ B}) := hS.inter (hT hB)
    rw [hP, ← (table_rows ν σ).measure_preimage hms.nullMeasurableSet]
    congr 1
    ext X
    simp only [Set.mem_preimage, Set.mem_inter_iff, Set.mem_ofPred_eq, hiff]
    refine and_congr_right fun h => ?_
    rw [hTrows σ X h]
  have h2 : ∀ σ : Equiv.Perm (Fin n), P (S ∩ {X | X j ∈ B}) = P (S ∩ {X | X j ∘ σ ∈ B}) := by
    intro σ
    have hms : MeasurableSet (S ∩ {X : Fin m → Fin n → ℝ | X j ∈ B}) := hS.inter (measurable_pi_apply j hB)
    rw [hP, ← (table_rows ν σ).measure_preimage hms.nullMeasurableSet]
    congr 1
    ext X
    simp only [Set.mem_preimage, Set.mem_inter_iff, Set.mem_ofPred_eq, hiff]
    rfl
  have hsum : ∀ U : (Fin m → Fin n → ℝ) → Fin n → ℝ, Measurable U →
      ∑ σ : Equiv.Perm (Fin n), P (S ∩ {X | U X ∘ σ ∈ B})
        = ∫⁻ X in S, ∑ σ : Equiv.Perm (Fin n), B.indicator (fun _ => (1 : ENNReal)) (U X ∘ σ) ∂P := by
    intro U hU
    rw [lintegral_finsetSum]
    · refine Finset.sum_congr rfl fun σ _ => ?_
      have hms : MeasurableSet {X | U X ∘ σ ∈ B} := ((hcomp σ).comp hU) hB
      have e : (fun X => B.indicator (fun _ => (1 : ENNReal)) (U X ∘ σ))
          = {X | U X ∘ σ ∈ B}.indicator fun _ => 1 := by
        funext X
        by_cases h : U X ∘ σ ∈ B
        · rw [Set.indicator_of_mem h, Set.indicator_of_mem (by exact h)]
        · rw [Set.indicator_of_notMem h, Set.indicator_of_notMem (by exact h)]
      rw [e, lintegral_indicator hms, setLIntegral_const, one_mul, Measure.restrict_apply hms, Set.inter_comm]
    · intro σ _
      exact (measurable_const.indicator hB).comp ((hcomp σ).comp hU)
  have hcard : ((Fintype.card (Equiv.Perm (Fin n)) : ℕ) : ENNReal) ≠ 0 := by
    exact_mod_cast Fintype.card_ne_zero
  have key : ∑ σ : Equiv.Perm (Fin n), P (S ∩ {X | T X ∘ σ ∈ B})
      = ∑ σ : Equiv.Perm (Fin n), P (S ∩ {X | X j ∘ σ ∈ B}) := by
    rw [hsum T hT, hsum (fun X => X j) (measurable_pi_apply j)]
    refine setLIntegral_congr_fun hS fun X hX => ?_
    obtain ⟨π, hπ⟩ := hTperm X hX
    simp only [hπ]
    exact Equiv.sum_comp (Equiv.mulLeft π) fun σ => B.indicator (fun _ => (1 : ENNReal)) (X j ∘ σ)
  rw [Finset.sum_congr rfl fun σ _ => (h1 σ).symm, Finset.sum_congr rfl fun σ _ => (h2 σ).symm,
    Finset.sum_const, Finset.sum_const, Finset.card_univ, nsmul_eq_mul, nsmul_eq_mul] at key
  exact (ENNReal.mul_right_inj hcard (ENNReal.natCast_ne_top _)).1 key

include hS hrows horder hT hTrows hTperm in
/-- Given success, the reordered column consists of independent values with the law of the variable. -/
theorem reorder_law [NullSingletonClass (ν j)] {B : Set (Fin n → ℝ)} (hB : MeasurableSet B) :
    tableLaw n ν (S ∩ {X | T X ∈ B}) = tableLaw n ν S * (Measure.pi fun _ : Fin n => ν j) B := by
  rw [reorder_same ν hS hrows j hT hTrows hTperm hB]
  exact success_indep ν hS hrows horder j hB

end Exchange

/-- Every way to order the columns of a table has positive probability. -/
theorem pattern_pos (ν : Fin m → Measure ℝ) [∀ j, IsProbabilityMeasure (ν j)] [∀ j, NullSingletonClass (ν j)]
    {X₀ : Fin m → Fin n → ℝ} (hX₀ : ∀ j, Function.Injective (X₀ j)) :
    tableLaw n ν {X | ∀ j, Spec.SameOrder (X₀ j) (X j)} ≠ 0 := by
  intro h0
  -- tables whose columns are increasing along given permutations
  let A : (Fin m → Equiv.Perm (Fin n)) → Set (Fin m → Fin n → ℝ) := fun σ => {X | ∀ j, StrictMono (X j ∘ σ j)}
  let σ₀ : Fin m → Equiv.Perm (Fin n) := fun j => Tuple.sort (X₀ j)
  have hsub : A σ₀ ⊆ {X | ∀ j, Spec.SameOrder (X₀ j) (X j)} := by
    intro X hX j a b
    have h1 : StrictMono (X₀ j ∘ σ₀ j) :=
      (Tuple.monotone_sort (X₀ j)).strictMono_of_injective ((hX₀ j).comp (σ₀ j).injective)
    have h2 : StrictMono (X j ∘ σ₀ j) := hX j
    have e1 := h1.lt_iff_lt (a := (σ₀ j).symm a) (b := (σ₀ j).symm b)
    have e2 := h2.lt_iff_lt (a := (σ₀ j).symm a) (b := (σ₀ j).symm b)
    simp only [Function.comp, Equiv.apply_symm_apply] at e1 e2
    rw [e1, e2]
  have hA0 : tableLaw n ν (A σ₀) = 0 := measure_mono_null hsub h0
  have hall : ∀ σ, tableLaw n ν (A σ) = 0 := by
    intro σ
    have hmp : MeasurePreserving (fun X : Fin m → Fin n → ℝ => fun j => X j ∘ ((σ₀ j).symm.trans (σ j)))
        (tableLaw n ν) (tableLaw n ν) :=
      measurePreserving_pi (fun j => Measure.pi fun _ : Fin n => ν j) _ fun j => pi_perm (ν j) _
    have : A σ = (fun X : Fin m → Fin n → ℝ => fun j => X j ∘ ((σ₀ j).symm.trans (σ j))) ⁻¹' A σ₀ := by
      ext X
      simp only [A, Set.mem_preimage, Set.mem_ofPred_eq]
      refine forall_congr' fun j => ?_
      have : (X j ∘ ((σ₀ j).symm.trans (σ j))) ∘ σ₀ j = X j ∘ σ j := by
        funext a
        simp
      rw [this]
    rw [this]
    exact hmp.quasiMeasurePreserving.preimage_null hA0
  have hinj : ∀ᵐ X ∂(tableLaw n ν), ∀ j, Function.Injective (X j) := by
    refine ae_all_iff.2 fun j => ?_
    have hmp : MeasurePreserving (fun X : Fin m → Fin n → ℝ => X j) (tableLaw n ν)
        (Measure.pi fun _ : Fin n => ν j) :=
      measurePreserving_eval (fun j => Measure.pi fun _ : Fin n => ν j) j
    exact hmp.quasiMeasurePreserving.tendsto_ae.eventually (pi_injective (ν j))
  have hfin : ∀ᵐ X ∂(tableLaw n ν), ∀ σ, X ∉ A σ :=
    ae_all_iff.2 fun σ => measure_eq_zero_iff_ae_notMem.1 (hall σ)
  have hbad : ∀ᵐ _X ∂(tableLaw n ν), False := by
    filter_upwards [hinj, hfin] with X h1 h2
    exact h2 (fun j => Tuple.sort (X j)) fun j =>
      (Tuple.monotone_sort (X j)).strictMono_of_injective ((h1 j).comp (Tuple.sort (X j)).injective)
  exact (hbad.exists).elim fun _ h => h

end Verif
