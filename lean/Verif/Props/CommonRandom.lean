import Verif.Lemmas.Linked
import Verif.Props.Denote
import Verif.Props.Estimates
import Verif.Lemmas.DemoSource
import Verif.Props.Percentiles

/-!
# C128: the same seed with other numbers in the model

Running a model twice from the same state of the generator, with changed parameters, compares like with like: the
same standard random numbers are used in the same places.
-/

namespace Verif

open Spec MeasureTheory

theorem orderedInsert_le {a a' : ℝ} {l l' : List ℝ} (hl : l.Pairwise (· ≤ ·)) (hl' : l'.Pairwise (· ≤ ·)) (ha : a ≤ a')
    (h : List.Forall₂ (· ≤ ·) l l') :
    List.Forall₂ (· ≤ ·) (l.orderedInsert (· ≤ ·) a) (l'.orderedInsert (· ≤ ·) a') := by
  induction h generalizing a a' with
  | nil => exact .cons ha .nil
  | @cons b b' t t' hb ht ih =>
    have hl2 := List.pairwise_cons.1 hl
    have hl2' := List.pairwise_cons.1 hl'
    have front : ∀ {c : ℝ} {u : List ℝ}, (c :: u).Pairwise (· ≤ ·) → u.orderedInsert (· ≤ ·) c = c :: u := by
      intro c u hu
      cases u with
      | nil => rfl
      | cons d u => exact if_pos ((List.pairwise_cons.1 hu).1 d (by simp))
    by_cases h1 : a ≤ b <;> by_cases h2 : a' ≤ b' <;> simp only [List.orderedInsert, h1, h2, if_true, if_false]
    · exact .cons ha (.cons hb ht)
    · refine .cons (h1.trans hb) ?_
      have := ih hl2.2 hl2'.2 (a := b) (a' := a') (hb.trans (not_le.1 h2).le)
      rwa [front hl] at this
    · refine .cons ((not_le.1 h1).le.trans ha) ?_
      have := ih hl2.2 hl2'.2 (a := a) (a' := b') (ha.trans h2)
      rwa [front hl'] at this
    · exact .cons hb (ih hl2.2 hl2'.2 ha)

/-- Sorting keeps an order that holds place by place. -/
theorem insertionSort_le {l l' : List ℝ} (h : List.Forall₂ (· ≤ ·) l l') :
    List.Forall₂ (· ≤ ·) (l.insertionSort (· ≤ ·)) (l'.insertionSort (· ≤ ·)) := by
  induction h with
  | nil => exact .nil
  | cons ha _ ih =>
    exact orderedInsert_le (List.pairwise_insertionSort _ _) (List.pairwise_insertionSort _ _) ha ih

theorem percentileAt_le {l l' : List ℝ} (h : List.Forall₂ (· ≤ ·) l l') (p : ℝ) : percentileAt l p ≤ percentileAt l' p := by
  have hd : ∀ i, l.getD i 0 ≤ l'.getD i 0 := by
    intro i
    by_cases hi : i < l.length
    · rw [List.getD_eq_getElem _ _ hi, List.getD_eq_getElem _ _ (h.length_eq ▸ hi)]
      exact List.Forall₂.get h hi (h.length_eq ▸ hi)
    · rw [List.getD_eq_default _ _ (not_lt.1 hi), List.getD_eq_default _ _ (h.length_eq ▸ not_lt.1 hi)]
  unfold percentileAt
  simp only [h.length_eq]
  generalize ((l'.length : ℝ) - 1) * (p / 100) = x
  have h0 := Int.fract_nonneg x
  have h1 := (Int.fract_lt_one x).le
  rw [Int.fract] at h0 h1
  have e1 := hd ⌊x⌋.toNat
  have e2 := hd (min (⌊x⌋.toNat + 1) (l'.length - 1))
  nlinarith

section
variable {σ : Type} (E : Env σ ℝ) (hE : E.gen.Lawful) (hexp : ∀ x, 0 < E.exp x) (hg : FromStandard E.gen)
  (hpow : RealPowers E.powf)

include hE hexp hg hpow

/-- **C128**: if only numbers in a model are changed, so that its value changes as `R` says whatever the standard
random numbers are, then from the same state of the generator the changed model draws as many samples, each related
by `R` to the sample in the same place, and leaves the generator in the same state. -/
theorem C128_linked {R : ℝ → ℝ → Prop} {d d' : Obj (St σ ℝ) ℝ} (h : Linked R d d') {n : ℕ} {s s1 : St σ ℝ}
    {z : Samples ℝ} (hz : sampleObj E d n none none s = (.ok z, s1)) :
    ∃ z' xs xs', sampleObj E d' n none none s = (.ok z', s1) ∧ List.Forall₂ IsReal z.toList xs ∧
      List.Forall₂ IsReal z'.toList xs' ∧ xs.length = n ∧ List.Forall₂ R xs xs' := by
  rcases linked_rel hE hexp hg hpow h n s with ⟨a, b, s2, h1, h2, x, x', h3, h4, h5⟩ | ⟨e, s2, h1, -⟩
  · rw [hz] at h1
    cases h1
    refine ⟨b, List.ofFn x, List.ofFn x', h2, h3.2, h4.2, by simp, ?_⟩
    rw [List.forall₂_iff_get]
    refine ⟨by simp, fun i hi hi' => ?_⟩
    simpa using h5 _
  · rw [hz] at h1
    cases h1

/-- **C128**: the changed model fails exactly when the model fails, with the same exception. -/
theorem C128_fails_alike {R : ℝ → ℝ → Prop} {d d' : Obj (St σ ℝ) ℝ} (h : Linked R d d') {n : ℕ} {s s1 : St σ ℝ}
    {e : PyErr} : sampleObj E d n none none s = (.error e, s1) ↔ sampleObj E d' n none none s = (.error e, s1) := by
  rcases linked_rel hE hexp hg hpow h n s with ⟨a, b, s2, h1, h2, -⟩ | ⟨e, s2, h1, h2⟩ <;> rw [h1, h2] <;> simp

/-- **C128**, raising: if a change can only raise the value of a model, it raises every sample, the sum of the samples
(and so their mean), the number of samples above any threshold and all percentiles. -/
theorem C128_raise {d d' : Obj (St σ ℝ) ℝ} (h : Linked (· ≤ ·) d d') {n : ℕ} {s s1 : St σ ℝ}
    {z : Samples ℝ} (hz : sampleObj E d n none none s = (.ok z, s1)) :
    ∃ z' xs xs', sampleObj E d' n none none s = (.ok z', s1) ∧ List.Forall₂ IsReal z.toList xs ∧
      List.Forall₂ IsReal z'.toList xs' ∧ List.Forall₂ (· ≤ ·) xs xs' ∧ xs.sum ≤ xs'.sum ∧
      (∀ c, xs.countP (fun x => decide (c < x)) ≤ xs'.countP fun x => decide (c < x)) ∧
      ∀ argsort p v v', getPercentiles argsort xs (.one p) = .ok (.one (.flt v)) →
        getPercentiles argsort xs' (.one p) = .ok (.one (.flt v')) → v ≤ v' := by
  obtain ⟨z', xs, xs', h1, h2, h3, -, h5⟩ := C128_linked E hE hexp hg hpow h hz
  refine ⟨z', xs, xs', h1, h2, h3, h5, h5.sum_le_sum, fun c => ?_, fun argsort p v v' hv hv' => ?_⟩
  swap
  · obtain ⟨-, -, -, k1⟩ := (getPercentiles_one _ _ _ _ _).1 hv
    obtain ⟨-, -, -, k2⟩ := (getPercentiles_one _ _ _ _ _).1 hv'
    cases k1
    cases k2
    exact percentileAt_le (insertionSort_le h5) p
  clear h1 h2 h3 hz
  induction h5 with
  | nil => simp
  | @cons a b _ _ hab _ ih =>
    rw [List.countP_cons, List.countP_cons]
    by_cases k1 : c < a
    · simpa [k1, lt_of_lt_of_le k1 hab] using ih
    · simp only [k1, decide_false, Bool.false_eq_true, if_false]
      omega

/-- **C128**, shifting a normal distribution: with the same seed `norm(mean=m + c, sd=s)` gives the samples of
`norm(mean=m, sd=s)`, each plus `c`. -/
theorem C128_norm_shift {m sd c : ℝ} (hsd : 0 ≤ sd) {n : ℕ} {s s1 : St σ ℝ} {z : Samples ℝ}
    (hz : sampleObj E (.leaf (.normal m sd) none none) n none none s = (.ok z, s1)) :
    ∃ z' xs, sampleObj E (.leaf (.normal (m + c) sd) none none) n none none s = (.ok z', s1) ∧
      List.Forall₂ IsReal z.toList xs ∧ List.Forall₂ IsReal z'.toList (xs.map (· + c)) := by
  have h : Linked (fun x x' => x' = x + c) (.leaf (.normal m sd) none none : Obj (St σ ℝ) ℝ)
      (.leaf (.normal (m + c) sd) none none) :=
    .leaf (lo := none) (hi := none) (lo' := none) (hi' := none)
      (.normal (R := fun x x' => x' = x + c) hsd hsd fun z => by ring) trivial trivial trivial trivial
      fun x x' h => h
  obtain ⟨z', xs, xs', h1, h2, h3, -, h5⟩ := C128_linked E hE hexp hg hpow h hz
  refine ⟨z', xs, h1, h2, ?_⟩
  have : xs' = xs.map (· + c) := by
    clear h1 h2 h3 hz
    induction h5 with
    | nil => rfl
    | cons hab _ ih => rw [hab, ih]; rfl
  rwa [← this]

/-- **C128**, sensitivity: moving the mean of a normal distribution by at most `δ` and both ends of a uniform one by
at most `ε` moves every sample of their sum by at most `δ + ε`. -/
theorem C128_sum_sensitivity {m m' sd a b a' b' δ ε : ℝ} (hsd : 0 ≤ sd) (hm : |m - m'| ≤ δ) (hab : a < b) (hab' : a' < b')
    (ha : |a - a'| ≤ ε) (hb : |b - b'| ≤ ε) {n : ℕ} {s s1 : St σ ℝ} {z : Samples ℝ}
    (hz : sampleObj E (.bin (.op .add) (.leaf (.normal m sd) none none) (.leaf (.uniform a b) none none)) n none none s
      = (.ok z, s1)) :
    ∃ z' xs xs', sampleObj E (.bin (.op .add) (.leaf (.normal m' sd) none none) (.leaf (.uniform a' b') none none))
        n none none s = (.ok z', s1) ∧ List.Forall₂ IsReal z.toList xs ∧ List.Forall₂ IsReal z'.toList xs' ∧
      List.Forall₂ (fun x x' => |x - x'| ≤ δ + ε) xs xs' := by
  have h1 : Linked (fun x x' => |x - x'| ≤ δ) (.leaf (.normal m sd) none none : Obj (St σ ℝ) ℝ)
      (.leaf (.normal m' sd) none none) :=
    .leaf (lo := none) (hi := none) (lo' := none) (hi' := none)
      (.normal (R := fun x x' => |x - x'| ≤ δ) hsd hsd fun z => by simpa using hm) trivial trivial trivial trivial
      fun x x' h => h
  have h2 : Linked (fun x x' => |x - x'| ≤ ε) (.leaf (.uniform a b) none none : Obj (St σ ℝ) ℝ)
      (.leaf (.uniform a' b') none none) := by
    refine .leaf (lo := none) (hi := none) (lo' := none) (hi' := none)
      (.uniform (R := fun x x' => |x - x'| ≤ ε) hab hab' fun u h0 h1 => ?_) trivial trivial trivial trivial
      fun x x' h => h
    rw [abs_le] at ha hb ⊢
    constructor <;> nlinarith
  have h := Linked.bin (R' := fun x x' => |x - x'| ≤ δ + ε) (o := .add) rfl h1 h2 fun x x' y y' hx hy =>
    ⟨trivial, trivial, by
      show |x + y - (x' + y')| ≤ δ + ε
      have e : x + y - (x' + y') = (x - x') + (y - y') := by ring
      rw [e]
      exact (abs_add_le _ _).trans (add_le_add hx hy)⟩
  obtain ⟨z', xs, xs', k1, k2, k3, -, k5⟩ := C128_linked E hE hexp hg hpow h hz
  exact ⟨z', xs, xs', k1, k2, k3, k5⟩

end

/-! Rules for raising. -/

section
variable {S : Type}

theorem linked_same_bounds {R : ℝ → ℝ → Prop} {l l' : Leaf ℝ} (h : LeafLinked R l l') :
    Linked R (.leaf l none none : Obj S ℝ) (.leaf l' none none) :=
  .leaf (lo := none) (hi := none) (lo' := none) (hi' := none) h trivial trivial trivial trivial fun _ _ h => h

theorem raise_uniform {a b a' b' : ℝ} (h : a < b) (h' : a' < b') (ha : a ≤ a') (hb : b ≤ b') :
    LeafLinked (· ≤ ·) (.uniform a b) (.uniform a' b') :=
  .uniform h h' fun u h0 h1 => by nlinarith

theorem raise_normal {m m' s : ℝ} (hs : 0 ≤ s) (h : m ≤ m') : LeafLinked (· ≤ ·) (.normal m s) (.normal m' s) :=
  .normal hs hs fun z => by linarith

theorem raise_lognormal {m m' s : ℝ} (hs : 0 ≤ s) (h : m ≤ m') :
    LeafLinked (· ≤ ·) (.lognormal m s) (.lognormal m' s) :=
  .lognormal hs hs fun z => Real.exp_le_exp.2 (by linarith)

theorem raise_exponential {k k' : ℝ} (hk : 0 < k) (h : k ≤ k') : LeafLinked (· ≤ ·) (.exponential k) (.exponential k') :=
  .exponential hk (hk.trans_le h) fun e he => mul_le_mul_of_nonneg_right h he

theorem raise_gamma {t k k' : ℝ} (hk : 0 < k) (h : k ≤ k') : LeafLinked (· ≤ ·) (.gamma t k) (.gamma t k') :=
  .gamma hk (hk.trans_le h) fun e he => mul_le_mul_of_nonneg_right h he

theorem raise_bernoulli {p p' : ℝ} (h : p ≤ p') : LeafLinked (· ≤ ·) (.bernoulli p) (.bernoulli p') :=
  .bernoulli fun u _ _ => by
    split_ifs with h1 h2
    · exact le_rfl
    · exact absurd (h1.trans_le h) h2
    · exact zero_le_one
    · exact le_rfl

theorem raise_add {a a' b b' : Obj S ℝ} (h : Linked (· ≤ ·) a a') (h' : Linked (· ≤ ·) b b') :
    Linked (· ≤ ·) (.bin (.op .add) a b) (.bin (.op .add) a' b') :=
  .bin rfl h h' fun _ _ _ _ h1 h2 => ⟨trivial, trivial, add_le_add h1 h2⟩

/-- Raising the minuend and lowering the subtrahend. -/
theorem raise_sub {a a' b b' : Obj S ℝ} (h : Linked (· ≤ ·) a a') (h' : Linked (· ≥ ·) b b') :
    Linked (· ≤ ·) (.bin (.op .sub) a b) (.bin (.op .sub) a' b') :=
  .bin rfl h h' fun _ _ _ _ h1 h2 => ⟨trivial, trivial, sub_le_sub h1 h2⟩

/-- Products of factors that are not negative. -/
theorem raise_mul {a a' b b' : Obj S ℝ} (h : Linked (fun x x' => 0 ≤ x ∧ x ≤ x') a a')
    (h' : Linked (fun x x' => 0 ≤ x ∧ x ≤ x') b b') :
    Linked (fun x x' => 0 ≤ x ∧ x ≤ x') (.bin (.op .mul) a b) (.bin (.op .mul) a' b') :=
  .bin rfl h h' fun _ _ _ _ h1 h2 =>
    ⟨trivial, trivial, mul_nonneg h1.1 h2.1, mul_le_mul h1.2 h2.2 h2.1 (h1.1.trans h1.2)⟩

theorem raise_mix {k : ℕ} {ds ds' : Fin k → Obj S ℝ} {ws : List ℝ} (h : ∀ i, Linked (· ≤ ·) (ds i) (ds' i)) :
    Linked (· ≤ ·) (.mix k ds ws none none) (.mix k ds' ws none none) :=
  .mix (lo := none) (hi := none) (lo' := none) (hi' := none) h trivial trivial trivial trivial fun _ _ h => h

end

/-! The laws. -/

section
variable {Ω : Type} [MeasurableSpace Ω] (S : IdealSource Ω) {E : Env (ℕ → Ω) ℝ} (hE : S.Drives E)
  (hU : S.primLaw (.uniform 0 1) = some unitLaw) (hg : FromStandard S.gen)

include hE hU hg

/-- **C128**, laws: if a change can only raise the value of a model, then the chance to exceed any threshold rises,
and so does the mean. -/
theorem C128_dominance {d d' : Obj (St (ℕ → Ω) ℝ) ℝ} {μ μ' : Measure ℝ} (hd : Denotes S.primLaw d μ)
    (hd' : Denotes S.primLaw d' μ') (h : Linked (· ≤ ·) d d') :
    (∀ c, μ (Set.Ioi c) ≤ μ' (Set.Ioi c)) ∧
      (Integrable (fun x => x) μ → Integrable (fun x => x) μ' → ∫ x, x ∂μ ≤ ∫ x, x ∂μ') := by
  obtain ⟨-, X, hX, hXae, hXl, -⟩ := C86_independent_samples S hE hU hd (n := 1) le_rfl fun _ _ => none
  obtain ⟨-, Y, hY, hYae, hYl, -⟩ := C86_independent_samples S hE hU hd' (n := 1) le_rfl fun _ _ => none
  have hlaw : E.gen.Lawful := by rw [hE.gen]; exact S.gen_lawful
  have hle : ∀ᵐ ω ∂(Measure.infinitePi fun _ : ℕ => S.law), X 0 ω ≤ Y 0 ω := by
    filter_upwards [hXae, hYae] with ω h1 h2
    obtain ⟨z, s1, hz, hzR⟩ := h1
    obtain ⟨w, s2, hw, hwR⟩ := h2
    obtain ⟨z', xs, xs', k1, k2, k3, -, k5⟩ := C128_linked E hlaw (fun x => by rw [hE.exp]; exact Real.exp_pos x)
      (by rw [hE.gen]; exact hg) hE.powers h hz
    rw [hw] at k1
    cases k1
    have e1 := reads_unique k2 hzR.2
    have e2 := reads_unique k3 hwR.2
    rw [e1, e2] at k5
    simpa using k5
  constructor
  · intro c
    rw [← hXl 0, ← hYl 0, Measure.map_apply (hX 0) measurableSet_Ioi, Measure.map_apply (hY 0) measurableSet_Ioi]
    exact measure_mono_ae (hle.mono fun ω hω h1 => lt_of_lt_of_le h1 hω)
  · intro h1 h2
    rw [← hXl 0] at h1 ⊢
    rw [← hYl 0] at h2 ⊢
    rw [integral_map (hX 0).aemeasurable (by fun_prop), integral_map (hY 0).aemeasurable (by fun_prop)]
    exact integral_mono_ae ((integrable_map_measure (g := fun x => x) (by fun_prop) (hX 0).aemeasurable).1 h1)
      ((integrable_map_measure (g := fun x => x) (by fun_prop) (hY 0).aemeasurable).1 h2) hle

end

/-! A case: the hypotheses hold for the demonstration source. -/

theorem demoSource_standard : FromStandard demoSource.gen where
  uniform n ω := ⟨.ok ((List.range n).map fun i => Int.fract (ω i).1), fun i => ω (i + n), by
    rintro us ⟨⟩
    refine ⟨by simp, fun u hu => ?_⟩
    obtain ⟨i, -, rfl⟩ := List.mem_map.1 hu
    exact ⟨Int.fract_nonneg _, Int.fract_lt_one _⟩, fun low high h => by
      have e : demoSource.answer (.uniform low high) = some fun x => .flt (low + (high - low) * Int.fract x.1) := by
        simp [demoSource, h]
      simp [IdealSource.gen, e, Except.map]⟩
  normal n ω := ⟨.ok ((List.range n).map fun i => (ω i).2), fun i => ω (i + n), by
    rintro us ⟨⟩
    simp, fun m sd h => by
      have e : demoSource.answer (.normal m sd) = some fun x => .flt (m + sd * x.2) := by
        simp [demoSource, h]
      have e' : demoSource.answer (.lognormal m sd) = some fun x => .flt (Real.exp (m + sd * x.2)) := by
        simp [demoSource, h]
      constructor
      · simp [IdealSource.gen, e, Except.map]
      · simp [IdealSource.gen, e', Except.map]⟩
  exponential n ω := ⟨.error .valueError, ω, by rintro us ⟨⟩, fun k _ => rfl⟩
  gamma t n ω := ⟨.error .valueError, ω, by rintro us ⟨⟩, fun k _ => rfl⟩

/-- A case: in a model with a 30% chance of a project that pays a lognormal amount (otherwise nothing) minus a cost
`uniform(1, 2)`, a higher chance, a higher mean and a lower cost raise every sample. -/
example (s s1 : St (ℕ → ℝ × ℝ) ℝ) (z : Samples ℝ) (n : ℕ)
    (hz : sampleObj idealEnv (.bin (.op .sub)
      (.bin (.op .mul) (.leaf (.bernoulli 0.3) none none) (.leaf (.lognormal 5 2) none none))
      (.leaf (.uniform 1 2) none none)) n none none s = (.ok z, s1)) :
    ∃ z' xs xs', sampleObj idealEnv (.bin (.op .sub)
      (.bin (.op .mul) (.leaf (.bernoulli 0.4) none none) (.leaf (.lognormal 6 2) none none))
      (.leaf (.uniform 0.5 1.5) none none)) n none none s = (.ok z', s1) ∧ List.Forall₂ IsReal z.toList xs ∧
      List.Forall₂ IsReal z'.toList xs' ∧ List.Forall₂ (· ≤ ·) xs xs' ∧ xs.sum ≤ xs'.sum ∧
      (∀ c, xs.countP (fun x => decide (c < x)) ≤ xs'.countP fun x => decide (c < x)) ∧
      ∀ argsort p v v', getPercentiles argsort xs (.one p) = .ok (.one (.flt v)) →
        getPercentiles argsort xs' (.one p) = .ok (.one (.flt v')) → v ≤ v' := by
  refine C128_raise idealEnv ?_ (fun x => by rw [idealEnv_driven.exp]; exact Real.exp_pos x)
    (by rw [idealEnv_driven.gen]; exact demoSource_standard) idealEnv_driven.powers ?_ hz
  · rw [idealEnv_driven.gen]
    exact demoSource.gen_lawful
  · have h1 : Linked (fun x x' => 0 ≤ x ∧ x ≤ x') (.leaf (.bernoulli 0.3) none none : Obj (St (ℕ → ℝ × ℝ) ℝ) ℝ)
        (.leaf (.bernoulli 0.4) none none) := linked_same_bounds (.bernoulli fun u _ _ => by
      split_ifs with k1 k2 k2
      · simp
      · exact absurd (k1.trans (by norm_num)) k2
      · simp
      · simp)
    have h2 : Linked (fun x x' => 0 ≤ x ∧ x ≤ x') (.leaf (.lognormal 5 2) none none : Obj (St (ℕ → ℝ × ℝ) ℝ) ℝ)
        (.leaf (.lognormal 6 2) none none) := linked_same_bounds (.lognormal (by norm_num) (by norm_num) fun z =>
      ⟨(Real.exp_pos _).le, Real.exp_le_exp.2 (by linarith)⟩)
    have h3 : Linked (· ≥ ·) (.leaf (.uniform 1 2) none none : Obj (St (ℕ → ℝ × ℝ) ℝ) ℝ)
        (.leaf (.uniform 0.5 1.5) none none) := linked_same_bounds (.uniform (by norm_num) (by norm_num) fun u h0 h1 => by
      show _ ≤ _
      norm_num)
    exact .bin rfl (raise_mul h1 h2) h3 fun _ _ _ _ k1 k2 => ⟨trivial, trivial, sub_le_sub k1.2 k2⟩

/-- Sampling succeeds for the demonstration source. -/
example (ω : ℕ → ℝ × ℝ) (left : ℕ → ℕ → Option (List (Scalar ℝ))) :
    ∃ z s', sampleObj idealEnv (.leaf (.normal 5 2) none none) 2 none none ⟨ω, left⟩ = (.ok z, s') := by
  have e : demoSource.answer (.normal 5 2) = some fun x => .flt (5 + 2 * x.2) := by simp [demoSource]
  have hgen : idealEnv.gen = demoSource.gen := idealEnv_driven.gen
  have h : sampleObj idealEnv (.leaf (.normal 5 2) none none) 2 none none ⟨ω, left⟩ = (.ok (Samples.simplify (.arr
      ((List.range 2).map fun i => .flt (5 + 2 * (ω i).2)))), ⟨fun i => ω (i + 2), left⟩) := by
    simp [sampleObj, withClips, rawObj, leafSample, drawSimple, drawSM, hgen, IdealSource.gen, e, SM.bind,
      SM.lift, SM.pure, combineL, combineR, applyClips, applyL, applyR, Obj.clips, bind, Except.bind]
  exact ⟨_, _, h⟩

/-- A case of `C128_dominance`: `norm(6, 2)` exceeds every threshold more often than `norm(5, 2)`. -/
example (c : ℝ) : Spec.normalLaw 5 2 (Set.Ioi c) ≤ Spec.normalLaw 6 2 (Set.Ioi c) :=
  (C128_dominance demoSource (E := idealEnv) idealEnv_driven demoSource_uniform demoSource_standard
    (denotes_normal (demoSource_normal 5 (by norm_num))) (denotes_normal (demoSource_normal 6 (by norm_num)))
    (linked_same_bounds (raise_normal (by norm_num) (by norm_num)))).1 c

end Verif
