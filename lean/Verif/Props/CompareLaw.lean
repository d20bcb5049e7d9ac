import Verif.Props.Denote
import Verif.Props.Arith

/-!
# C100: comparing two distributions estimates a probability
-/

namespace Verif

open MeasureTheory ProbabilityTheory Spec

/-- `z` consists of `n` truth values: one for `n = 1`, an array otherwise. -/
def ReadsBools (n : ℕ) (z : Samples ℝ) (t : Fin n → Bool) : Prop :=
  Shape n z ∧ z.toList = List.ofFn fun i => Scalar.bool (t i)

/-- The comparison a method computes. -/
noncomputable def cmpBool : BinOp → Option (ℝ → ℝ → Bool)
  | .gt => some fun x y => decide (x > y)
  | .ge => some fun x y => decide (x ≥ y)
  | .lt => some fun x y => decide (x < y)
  | .le => some fun x y => decide (x ≤ y)
  | _ => none

theorem measurable_cmpBool {o : BinOp} {g : ℝ → ℝ → Bool} (ho : cmpBool o = some g) :
    Measurable fun p : ℝ × ℝ => g p.1 p.2 := by
  refine measurable_to_bool ?_
  cases o <;> simp only [cmpBool, Option.some.injEq, reduceCtorEq] at ho <;> subst ho <;>
    simp only [Set.preimage, Set.mem_singleton_iff, decide_eq_true_eq]
  · exact measurableSet_lt measurable_snd measurable_fst
  · exact measurableSet_le measurable_snd measurable_fst
  · exact measurableSet_lt measurable_fst measurable_snd
  · exact measurableSet_le measurable_fst measurable_snd

theorem cmp_real (powf : ℝ → ℝ → Option ℝ) {o : BinOp} {g : ℝ → ℝ → Bool} (ho : cmpBool o = some g)
    {a b : Scalar ℝ} {x y : ℝ} (ha : IsReal a x) (hb : IsReal b y) :
    pyBin powf o a b = .ok (.bool (g x y)) ∧ npBin powf o a b = .ok (.bool (g x y)) := by
  rcases ha with rfl | ⟨m, rfl, rfl⟩ <;> rcases hb with rfl | ⟨k, rfl, rfl⟩ <;>
    cases o <;> simp only [cmpBool, Option.some.injEq, reduceCtorEq] at ho <;> subst ho <;>
    exact ⟨rfl, rfl⟩

theorem binSamples_cmp (powf : ℝ → ℝ → Option ℝ) {o : BinOp} {g : ℝ → ℝ → Bool}
    (ho : cmpBool o = some g) {n : ℕ} {a b : Samples ℝ} {x y : Fin n → ℝ} (ha : Reads n a x)
    (hb : Reads n b y) : ∃ z, binSamples powf o a b = .ok z ∧ ReadsBools n z fun i => g (x i) (y i) := by
  by_cases hn : n = 1
  · subst hn
    obtain ⟨v, rfl, hv⟩ := reads_one ha
    obtain ⟨w, rfl, hw⟩ := reads_one hb
    exact ⟨.scalar (.bool (g (x 0) (y 0))), by simp only [binSamples, (cmp_real powf ho hv hw).1]; rfl,
      rfl, by simp [Samples.toList]⟩
  · obtain ⟨vs, rfl, hv⟩ := reads_many hn ha
    obtain ⟨ws, rfl, hw⟩ := reads_many hn hb
    obtain ⟨l1, h1⟩ := forall₂_ofFn.1 hv
    obtain ⟨l2, h2⟩ := forall₂_ofFn.1 hw
    refine ⟨.arr (List.ofFn fun i => .bool (g (x i) (y i))), ?_, ⟨hn, by simp⟩, rfl⟩
    have hm : mapExcept (fun p : Scalar ℝ × Scalar ℝ => npBin powf o p.1 p.2) (vs.zip ws)
        = .ok (List.ofFn fun i => .bool (g (x i) (y i))) := by
      refine mapExcept_ok.2 (List.forall₂_iff_get.2 ⟨by simp [l1, l2], fun i hi hi' => ?_⟩)
      have hin : i < n := by simpa using hi'
      simpa using (cmp_real powf ho (h1 ⟨i, hin⟩) (h2 ⟨i, hin⟩)).2
    simp only [binSamples, Samples.toList, broadcast, l1, l2, if_true]
    simp only [hm, bind, Except.bind]

section

variable {Ω : Type} [MeasurableSpace Ω] (S : IdealSource Ω) {E : Env (ℕ → Ω) ℝ} (hE : S.Drives E)
  (hU : S.primLaw (.uniform 0 1) = some (volume.restrict (Set.Ico 0 1)))

include hE hU in
theorem compare_samples {o : BinOp} {g : ℝ → ℝ → Bool} (ho : cmpBool o = some g)
    {a b : Obj (St (ℕ → Ω) ℝ) ℝ} {μ ν : Measure ℝ} (ha : Denotes S.primLaw a μ)
    (hb : Denotes S.primLaw b ν) {n : ℕ} (hn : 1 ≤ n) (left : ℕ → ℕ → Option (List (Scalar ℝ))) :
    IsProbabilityMeasure μ ∧ IsProbabilityMeasure ν ∧
    ∃ T : Fin n → (ℕ → Ω) → Bool, (∀ i, Measurable (T i)) ∧
      (∀ᵐ ω ∂(Measure.infinitePi fun _ : ℕ => S.law), ∃ z s',
        sampleObj E (.bin (.op o) a b) n none none ⟨ω, left⟩ = (.ok z, s') ∧ ReadsBools n z fun i => T i ω) ∧
      (∀ i, (Measure.infinitePi fun _ : ℕ => S.law).map (T i) = (μ.prod ν).map fun p => g p.1 p.2) ∧
      iIndepFun T (Measure.infinitePi fun _ : ℕ => S.law) := by
  obtain ⟨hpa, iha⟩ := denotes_draws S (left := left) hE hU ha
  obtain ⟨hpb, ihb⟩ := denotes_draws S (left := left) hE hU hb
  have hg := measurable_cmpBool ho
  set κ := (μ.prod ν).map fun p => g p.1 p.2 with hκ
  have hp' : IsProbabilityMeasure κ := Measure.isProbabilityMeasure_map hg.aemeasurable
  have hdraw : DrawsLaw S.law left (rawObj E (.bin (.op o) a b) n) (ReadsBools n)
      (Measure.pi fun _ : Fin n => κ) := by
    rw [hκ, ← map_zip_pi n μ ν _ hg]
    exact (iha n hn).bind₂ (ihb n hn) _ (measurable_pi_lambda _ fun i => hg.comp
      (((measurable_pi_apply i).comp measurable_fst).prodMk
        ((measurable_pi_apply i).comp measurable_snd)))
      (Filter.Eventually.of_forall fun p x y hx hy => binSamples_cmp E.powf ho hx hy)
  obtain ⟨F, hF, hmap, hae⟩ := hdraw
  have hX : (streamLaw S.law).map (fun ω => (F ω).1) = Measure.pi fun _ : Fin n => κ := by
    have : (fun ω => (F ω).1) = Prod.fst ∘ F := rfl
    rw [this, ← Measure.map_map measurable_fst hF, hmap, Measure.map_fst_prod]
    simp
  have hXi : ∀ i, (streamLaw S.law).map (fun ω => (F ω).1 i) = κ := by
    intro i
    have : (fun ω => (F ω).1 i) = (fun x : Fin n → Bool => x i) ∘ fun ω => (F ω).1 := rfl
    rw [this, ← Measure.map_map (measurable_pi_apply i) (by fun_prop), hX]
    exact (measurePreserving_eval (fun _ : Fin n => κ) i).map_eq
  refine ⟨hpa, hpb, fun i ω => (F ω).1 i, fun i => by fun_prop, ?_, hXi, ?_⟩
  · filter_upwards [hae] with ω hω
    obtain ⟨z, hz, hR⟩ := hω
    refine ⟨z, ⟨(F ω).2, left⟩, ?_, hR⟩
    exact withClips_ok.2 ⟨by omega, none, none, z, rfl, rfl, hz, rfl⟩
  · refine (iIndepFun_iff_map_fun_eq_pi_map fun i => by fun_prop).2 ?_
    show (streamLaw S.law).map (fun ω => (F ω).1) = Measure.pi fun i =>
      (streamLaw S.law).map fun ω => (F ω).1 i
    simp_rw [hXi]
    exact hX

theorem cmpBool_dunder {c : CmpSym} (hc : c ≠ .eq ∧ c ≠ .ne) :
    ∃ g, cmpBool c.dunder = some g ∧ ∀ x y, g x y = true ↔ c.holds x y := by
  cases c with
  | eq => exact absurd rfl hc.1
  | ne => exact absurd rfl hc.2
  | _ => exact ⟨_, rfl, fun x y => by simp [CmpSym.holds]⟩

include hE hU in
/-- **C100** (law): `sample(a > b, n)` (also `>=`, `<`, `<=`) almost surely succeeds with `n` truth values, which
are independent and each true with the probability that a value of `a` and an independent value of `b` compare
that way. Missing: `==` and `!=`, see below. -/
theorem C100_law_partial (c : CmpSym) (hc : c ≠ .eq ∧ c ≠ .ne) {a b : Obj (St (ℕ → Ω) ℝ) ℝ} {μ ν : Measure ℝ}
    (ha : Denotes S.primLaw a μ) (hb : Denotes S.primLaw b ν) {n : ℕ} (hn : 1 ≤ n)
    (left : ℕ → ℕ → Option (List (Scalar ℝ))) :
    ∃ T : Fin n → (ℕ → Ω) → Bool, (∀ i, Measurable (T i)) ∧
      (∀ᵐ ω ∂(Measure.infinitePi fun _ : ℕ => S.law), ∃ z s',
        sampleObj E (.bin (.op c.dunder) a b) n none none ⟨ω, left⟩ = (.ok z, s') ∧
          ReadsBools n z fun i => T i ω) ∧
      (∀ i, (Measure.infinitePi fun _ : ℕ => S.law) {ω | T i ω = true}
        = (μ.prod ν) {p | c.holds p.1 p.2}) ∧
      iIndepFun T (Measure.infinitePi fun _ : ℕ => S.law) := by
  obtain ⟨g, hg, hgh⟩ := cmpBool_dunder hc
  obtain ⟨-, -, T, hT, h1, h2, h3⟩ := compare_samples S hE hU hg ha hb hn left
  refine ⟨T, hT, h1, fun i => ?_, h3⟩
  have h4 := congrArg (fun m => m {true}) (h2 i)
  rw [Measure.map_apply (hT i) (measurableSet_singleton _),
    Measure.map_apply (measurable_cmpBool hg) (measurableSet_singleton _)] at h4
  refine h4.trans (congrArg _ ?_)
  ext p
  simp [← hgh]

include hE hU in
theorem compare_frequency {o : BinOp} {g : ℝ → ℝ → Bool} (ho : cmpBool o = some g)
    {a b : Obj (St (ℕ → Ω) ℝ) ℝ} {μ ν : Measure ℝ} (ha : Denotes S.primLaw a μ)
    (hb : Denotes S.primLaw b ν) {n : ℕ} (hn : 1 ≤ n) (left : ℕ → ℕ → Option (List (Scalar ℝ)))
    {ε : ℝ} (hε : 0 < ε) :
    (Measure.infinitePi fun _ : ℕ => S.law).real
      {ω | ¬ ∃ (z : Samples ℝ) (s' : St (ℕ → Ω) ℝ) (ts : List Bool), sampleObj E (.bin (.op o) a b) n none none ⟨ω, left⟩ = (.ok z, s') ∧
        z.toList = ts.map Scalar.bool ∧
        |((ts.count true : ℕ) : ℝ) / n - (μ.prod ν).real {p | g p.1 p.2 = true}| < ε}
      ≤ 2 * Real.exp (-2 * n * ε ^ 2) := by
  obtain ⟨hpa, hpb, T, hT, hae, hlaw, hind⟩ := compare_samples S hE hU ho ha hb hn left
  have hg := measurable_cmpBool ho
  have hp' : IsProbabilityMeasure ((μ.prod ν).map fun p => g p.1 p.2) :=
    Measure.isProbabilityMeasure_map hg.aemeasurable
  have hb := frequency_bound hn hT hlaw hind id (Set.toFinite _).measurableSet hε
  refine le_trans (ENNReal.toReal_mono (measure_ne_top _ _) (measure_mono_ae ?_)) hb
  filter_upwards [hae] with ω hω hbad
  obtain ⟨z, s', hz, hR⟩ := hω
  by_contra hlt
  refine hbad ⟨z, s', List.ofFn fun i => T i ω, hz, by rw [hR.2, List.map_ofFn]; rfl, ?_⟩
  have h5 : ((μ.prod ν).map fun p => g p.1 p.2).real {x | id x = true} = (μ.prod ν).real {p | g p.1 p.2 = true} := by
    rw [measureReal_def, Measure.map_apply hg (Set.toFinite _).measurableSet]
    rfl
  have h6 : (List.ofFn fun i => T i ω).countP id = (List.ofFn fun i => T i ω).count true := by
    rw [List.count]
    congr 1
    funext x
    cases x <;> rfl
  have hlt' := not_le.1 hlt
  rw [h5, h6] at hlt'
  exact hlt'

include hE hU in
/-- **C100** (estimate): the fraction of `True` among the `n` results of `sample(a > b, n)` (also `>=`, `<`, `<=`) is
within `ε` of the probability of that comparison, except with probability at most `2 exp(-2 n ε²)`. -/
theorem C100_frequency_partial (c : CmpSym) (hc : c ≠ .eq ∧ c ≠ .ne) {a b : Obj (St (ℕ → Ω) ℝ) ℝ}
    {μ ν : Measure ℝ} (ha : Denotes S.primLaw a μ) (hb : Denotes S.primLaw b ν) {n : ℕ} (hn : 1 ≤ n)
    (left : ℕ → ℕ → Option (List (Scalar ℝ))) {ε : ℝ} (hε : 0 < ε) :
    (Measure.infinitePi fun _ : ℕ => S.law).real
      {ω | ¬ ∃ (z : Samples ℝ) (s' : St (ℕ → Ω) ℝ) (ts : List Bool), sampleObj E (.bin (.op c.dunder) a b) n none none ⟨ω, left⟩ = (.ok z, s') ∧
        z.toList = ts.map Scalar.bool ∧
        |((ts.count true : ℕ) : ℝ) / n - (μ.prod ν).real {p | c.holds p.1 p.2}| < ε}
      ≤ 2 * Real.exp (-2 * n * ε ^ 2) := by
  obtain ⟨g, hg, hgh⟩ := cmpBool_dunder hc
  have h := compare_frequency S hE hU hg ha hb hn left hε
  simp only [hgh] at h
  exact h

include hE hU in
/-- **C100 fails** for `==` and `!=`: both estimate the probability of `<=`. -/
theorem C100_equality_fails (c : CmpSym) (hc : c = .eq ∨ c = .ne) {a b : Obj (St (ℕ → Ω) ℝ) ℝ}
    {μ ν : Measure ℝ} (ha : Denotes S.primLaw a μ) (hb : Denotes S.primLaw b ν) {n : ℕ} (hn : 1 ≤ n)
    (left : ℕ → ℕ → Option (List (Scalar ℝ))) {ε : ℝ} (hε : 0 < ε) :
    (Measure.infinitePi fun _ : ℕ => S.law).real
      {ω | ¬ ∃ (z : Samples ℝ) (s' : St (ℕ → Ω) ℝ) (ts : List Bool), sampleObj E (.bin (.op c.dunder) a b) n none none ⟨ω, left⟩ = (.ok z, s') ∧
        z.toList = ts.map Scalar.bool ∧
        |((ts.count true : ℕ) : ℝ) / n - (μ.prod ν).real {p | p.1 ≤ p.2}| < ε}
      ≤ 2 * Real.exp (-2 * n * ε ^ 2) := by
  have ho : cmpBool c.dunder = some fun x y => decide (x ≤ y) := by
    rcases hc with rfl | rfl <;> rfl
  have h := compare_frequency S hE hU ho ha hb hn left hε
  simp only [decide_eq_true_eq] at h
  exact h

end

/-! ### The hypotheses are met -/

/-- For `const(0)` and `const(1)`: never equal, always at most. -/
example : ((Measure.dirac (0 : ℝ)).prod (Measure.dirac (1 : ℝ))) {p | CmpSym.eq.holds p.1 p.2} = 0 ∧
    ((Measure.dirac (0 : ℝ)).prod (Measure.dirac (1 : ℝ))) {p | p.1 ≤ p.2} = 1 := by
  simp only [CmpSym.holds]
  rw [Measure.dirac_prod_dirac, Measure.dirac_apply' _ (measurableSet_eq_fun measurable_fst measurable_snd),
    Measure.dirac_apply' _ (measurableSet_le measurable_fst measurable_snd)]
  simp

/-- `sample(uniform(0, 1) > 1/2, n=1000)`. -/
example : (Measure.infinitePi fun _ : ℕ => demoSource.law).real
      {ω | ¬ ∃ (z : Samples ℝ) (s' : St (ℕ → ℝ × ℝ) ℝ) (ts : List Bool),
        sampleObj idealEnv (.bin (.op CmpSym.gt.dunder) (.leaf (.uniform 0 1) none none) (.lit (.flt (1 / 2)))) 1000
          none none ⟨ω, fun _ _ => none⟩ = (.ok z, s') ∧ z.toList = ts.map Scalar.bool ∧
        |((ts.count true : ℕ) : ℝ) / 1000 - (((volume.restrict (Set.Ico (0 : ℝ) 1)).map (clamp none none)).prod
          (Measure.dirac (1 / 2))).real {p | p.1 > p.2}| < 1 / 10}
      ≤ 2 * Real.exp (-2 * 1000 * (1 / 10) ^ 2) := by
  have h := C100_frequency_partial demoSource idealEnv_driven demoSource_uniform .gt (by decide)
    (a := .leaf (.uniform 0 1) none none) (b := .lit (.flt (1 / 2)))
    (Denotes.leaf (lo := none) (hi := none) demoSource_uniform trivial trivial) (Denotes.lit (Or.inl rfl))
    (n := 1000) (by norm_num) (fun _ _ => none) (ε := 1 / 10) (by norm_num)
  exact_mod_cast h

end Verif
