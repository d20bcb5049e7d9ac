import Verif.Model.AverageObj
import Verif.Props.Moments
import Verif.Props.Update

/-!
# C126: sampling what `average` returns

Also the variance of a mixture (C102).
-/

namespace Verif

open MeasureTheory ProbabilityTheory Spec Filter Topology

/-- The ways to tell `average` that the prior has weight `w`. -/
inductive PriorWeight : WArg ℝ → WArg ℝ → ℝ → Prop
  /-- no weights given -/
  | default : PriorWeight (.list [some (1 / 2), some (1 / 2)]) .absent (1 / 2)
  /-- `weights=w` -/
  | number {w : ℝ} : 0 ≤ w → w < 1 → PriorWeight (.num w) .absent w
  /-- `weights=[w, 1-w]` -/
  | two {w : ℝ} : 0 < w → w < 1 → PriorWeight (.list [some w, some (1 - w)]) .absent w
  /-- `weights=None, relative_weights=[r, q]` -/
  | relative {r q : ℝ} : 0 < r → 0 < q → PriorWeight .absent (.list [some r, some q]) (r / (r + q))

/-- The law that is `μ` with probability `w` and `ν` otherwise. -/
noncomputable def blend (w : ℝ) (μ ν : Measure ℝ) : Measure ℝ := ENNReal.ofReal w • μ + ENNReal.ofReal (1 - w) • ν

theorem PriorWeight.range {weights rel : WArg ℝ} {w : ℝ} (hw : PriorWeight weights rel w) : 0 ≤ w ∧ w < 1 := by
  cases hw with
  | default => norm_num
  | number h0 h1 => exact ⟨h0, h1⟩
  | two h0 h1 => exact ⟨h0.le, h1⟩
  | relative hr hq => exact ⟨by positivity, by rw [div_lt_one (by positivity)]; linarith⟩

theorem spread_identity {k : ℕ} (W m q : Fin k → ℝ) (hw : ∑ i, W i = 1) :
    ∑ i, W i * (q i - m i ^ 2) + ∑ i, W i * (m i - ∑ j, W j * m j) ^ 2 = ∑ i, W i * q i - (∑ i, W i * m i) ^ 2 := by
  set M := ∑ j, W j * m j with hM
  have : ∀ i, W i * (m i - M) ^ 2 = W i * m i ^ 2 - 2 * M * (W i * m i) + M ^ 2 * W i := fun i => by ring
  simp only [this, mul_sub, Finset.sum_add_distrib, Finset.sum_sub_distrib, ← Finset.mul_sum, hw, ← hM]
  ring

section

variable {Ω : Type} [MeasurableSpace Ω] (S : IdealSource Ω)

theorem denotes_two {a b : Obj (St (ℕ → Ω) ℝ) ℝ} {μ ν : Measure ℝ} (ha : Denotes S.primLaw a μ)
    (hb : Denotes S.primLaw b ν) {w : ℝ} (h0 : 0 < w) (h1 : w < 1) :
    Denotes S.primLaw (mixtureObj ([w, 1 - w], [.plain a, .plain b])) (blend w μ ν) := by
  have h := Denotes.mix (L := S.primLaw) (k := 2) (ds := ![a, b]) (ν := ![μ, ν]) (ws := [w, 1 - w]) rfl
    (fun i => by fin_cases i; exacts [ha, hb]) (by simpa using ⟨h0, h1⟩) (by simp) (lc := none) (rc := none)
    (lo := none) (hi := none) trivial trivial
  have e : clamp none none = id := rfl
  rw [e, Measure.map_id, Fin.sum_univ_two] at h
  have hd : (fun i : Fin 2 => [a, b][i]) = ![a, b] := by
    funext i
    fin_cases i <;> rfl
  simp only [mixtureObj, List.filterMap_cons, List.filterMap_nil, VItem.plain?]
  exact hd ▸ h

theorem denotes_average {a b : Obj (St (ℕ → Ω) ℝ) ℝ} {μ ν : Measure ℝ} (ha : Denotes S.primLaw a μ)
    (hb : Denotes S.primLaw b ν) {weights rel : WArg ℝ} {w : ℝ} (hw : PriorWeight weights rel w) :
    ∃ d, averageObj a b weights rel = .ok d ∧ Denotes S.primLaw d (blend w μ ν) := by
  obtain ⟨c1, c2, c3, c4⟩ := C80_average (K := ℝ) a b
  cases hw with
  | default =>
    have h := denotes_two S ha hb (w := 1 / 2) (by norm_num) (by norm_num)
    refine ⟨_, by rw [averageObj, c1]; rfl, ?_⟩
    convert h using 4
    norm_num
  | number h0 h1 =>
    rcases h0.eq_or_lt with rfl | h0
    · refine ⟨_, by rw [averageObj, c2 0 le_rfl h1, if_pos rfl]; rfl, ?_⟩
      have h := Denotes.mix (L := S.primLaw) (k := 1) (ds := ![b]) (ν := ![ν]) (ws := [1]) rfl
        (fun i => by fin_cases i; exact hb) (by simp) (by simp) (lc := none) (rc := none)
        (lo := none) (hi := none) trivial trivial
      have e : clamp none none = id := rfl
      rw [e, Measure.map_id] at h
      simp only [mixtureObj, List.filterMap_cons, List.filterMap_nil, VItem.plain?]
      have hd : (fun i : Fin 1 => [b][i]) = ![b] := by
        funext i
        fin_cases i
        rfl
      have hl : blend 0 μ ν = ∑ i : Fin 1, ENNReal.ofReal ([(1 : ℝ)][i.1]) • (![ν] : Fin 1 → Measure ℝ) i := by
        simp [blend]
      rw [hl]
      exact hd ▸ h
    · exact ⟨_, by rw [averageObj, c2 w h0.le h1, if_neg h0.ne']; rfl, denotes_two S ha hb h0 h1⟩
  | two h0 h1 => exact ⟨_, by rw [averageObj, c3 w (1 - w) h0 (by linarith) (by ring)]; rfl,
      denotes_two S ha hb h0 h1⟩
  | relative hr hq =>
    rename_i r q
    have hs : 0 < r + q := by linarith
    have e : q / (r + q) = 1 - r / (r + q) := by field_simp; ring
    refine ⟨_, by rw [averageObj, c4 r q hr hq, e]; rfl, denotes_two S ha hb (by positivity) ?_⟩
    rw [div_lt_one hs]
    linarith

variable {E : Env (ℕ → Ω) ℝ} (hE : S.Drives E) (hU : S.primLaw (.uniform 0 1) = some unitLaw)

include hE hU

/-- **C102**: the variance of a mixture is the weighted mean of the variances plus the variance of the means. -/
theorem C102_variance_mixture {k : ℕ} {ds : Fin k → Obj (St (ℕ → Ω) ℝ) ℝ} {ν : Fin k → Measure ℝ} {ws : List ℝ}
    (hk : ws.length = k) (hds : ∀ i, Denotes S.primLaw (ds i) (ν i)) (hpos : ∀ w ∈ ws, 0 < w)
    (hsum : ws.sum = 1) (hν : ∀ i, MemLp id 2 (ν i)) :
    StatTends S E (.mix k ds ws none none) varOf
      (∑ i : Fin k, ws[i.1]'(hk ▸ i.2) * Var[id; ν i] +
        ∑ i : Fin k, ws[i.1]'(hk ▸ i.2) *
          (∫ x, x ∂(ν i) - ∑ j : Fin k, ws[j.1]'(hk ▸ j.2) * ∫ x, x ∂(ν j)) ^ 2) := by
  have hp : ∀ i, IsProbabilityMeasure (ν i) := fun i =>
    (C86_independent_samples S hE hU (hds i) (n := 1) le_rfl fun _ _ => none).1
  have hd := Denotes.mix (lc := none) (rc := none) (lo := none) (hi := none) hk hds hpos hsum trivial trivial
  have e : clamp none none = id := rfl
  rw [e, Measure.map_id] at hd
  have hw0 : ∀ i : Fin k, 0 ≤ ws[i.1]'(hk ▸ i.2) := fun i => (hpos _ (List.getElem_mem _)).le
  have hw1 : ∑ i : Fin k, ws[i.1]'(hk ▸ i.2) = 1 := by
    subst hk
    rw [← hsum, ← List.sum_ofFn]
    simp
  set W : Fin k → ℝ := fun i => ws[i.1]'(hk ▸ i.2) with hW
  set P : Measure ℝ := ∑ i : Fin k, ENNReal.ofReal (W i) • ν i with hP
  have hPp : IsProbabilityMeasure P :=
    (C86_independent_samples S hE hU hd (n := 1) le_rfl fun _ _ => none).1
  have hint : ∀ (f : ℝ → ℝ), (∀ i, Integrable f (ν i)) → ∀ i, Integrable f (ENNReal.ofReal (W i) • ν i) :=
    fun f hf i => (hf i).smul_measure ENNReal.ofReal_ne_top
  have hval : ∀ (f : ℝ → ℝ), (∀ i, Integrable f (ν i)) → ∫ x, f x ∂P = ∑ i, W i * ∫ x, f x ∂(ν i) := by
    intro f hf
    rw [hP, integral_finsetSum_measure fun i _ => hint f hf i]
    refine Finset.sum_congr rfl fun i _ => ?_
    rw [integral_smul_measure, ENNReal.toReal_ofReal (hw0 i), smul_eq_mul]
  have h1 : ∀ i, Integrable (fun x : ℝ => x) (ν i) := fun i => (hν i).integrable (by norm_num)
  have h2 : ∀ i, Integrable (fun x : ℝ => x ^ 2) (ν i) := fun i => (hν i).integrable_sq
  have hP2 : MemLp id 2 P := by
    rw [memLp_two_iff_integrable_sq measurable_id.aestronglyMeasurable]
    exact integrable_finsetSum_measure.2 fun i _ => hint _ h2 i
  have h := C102_variance S hE hU hd hP2
  convert h using 1
  have hv : ∀ (Q : Measure ℝ) [IsProbabilityMeasure Q], MemLp id 2 Q →
      Var[id; Q] = ∫ x, x ^ 2 ∂Q - (∫ x, x ∂Q) ^ 2 := fun Q _ hQ => by
    rw [variance_eq_sub hQ]
    rfl
  rw [hv P hP2, hval _ h1, hval _ h2]
  have hv' : ∀ i, Var[id; ν i] = ∫ x, x ^ 2 ∂(ν i) - (∫ x, x ∂(ν i)) ^ 2 := fun i => hv (ν i) (hν i)
  simp only [hv']
  exact spread_identity W (fun i => ∫ x, x ∂(ν i)) (fun i => ∫ x, x ^ 2 ∂(ν i)) hw1

/-- **C126**: whatever way the weight `w` of the prior is given, `average(prior, evidence)` returns a distribution
whose samples are independent; each is a sample of the prior with probability `w` and of the evidence
otherwise. -/
theorem C126_law {a b : Obj (St (ℕ → Ω) ℝ) ℝ} {μ ν : Measure ℝ} (ha : Denotes S.primLaw a μ)
    (hb : Denotes S.primLaw b ν) {weights rel : WArg ℝ} {w : ℝ} (hw : PriorWeight weights rel w) :
    ∃ d, averageObj a b weights rel = .ok d ∧
      ∀ {n : ℕ} (_ : 1 ≤ n) (left : ℕ → ℕ → Option (List (Scalar ℝ))),
        ∃ X : Fin n → (ℕ → Ω) → ℝ, (∀ i, Measurable (X i)) ∧
          (∀ᵐ ω ∂(Measure.infinitePi fun _ : ℕ => S.law), ∃ z s',
            sampleObj E d n none none ⟨ω, left⟩ = (.ok z, s') ∧ Reads n z fun i => X i ω) ∧
          (∀ i A, MeasurableSet A → (Measure.infinitePi fun _ : ℕ => S.law) {ω | X i ω ∈ A} =
            ENNReal.ofReal w * μ A + ENNReal.ofReal (1 - w) * ν A) ∧
          iIndepFun X (Measure.infinitePi fun _ : ℕ => S.law) := by
  obtain ⟨d, h1, h2⟩ := denotes_average S ha hb hw
  refine ⟨d, h1, fun {n} hn left => ?_⟩
  obtain ⟨-, X, hX, hae, hlaw, hind⟩ := C86_independent_samples S hE hU h2 hn left
  refine ⟨X, hX, hae, fun i A hA => ?_, hind⟩
  have := congrArg (fun m => m A) (hlaw i)
  simp only [Measure.map_apply (hX i) hA] at this
  exact this

/-- **C126**: the mean of the samples tends to the weighted mean of the two means, and so lies between them; the
variance tends to the weighted mean of the variances plus `w (1 - w)` times the squared difference of the means. -/
theorem C126_moments {a b : Obj (St (ℕ → Ω) ℝ) ℝ} {μ ν : Measure ℝ} (ha : Denotes S.primLaw a μ)
    (hb : Denotes S.primLaw b ν) (hμ : MemLp id 2 μ) (hν : MemLp id 2 ν) {weights rel : WArg ℝ} {w : ℝ}
    (hw : PriorWeight weights rel w) :
    ∃ d, averageObj a b weights rel = .ok d ∧
      StatTends S E d meanOf (w * ∫ x, x ∂μ + (1 - w) * ∫ x, x ∂ν) ∧
      StatTends S E d varOf (w * Var[id; μ] + (1 - w) * Var[id; ν] +
        w * (1 - w) * (∫ x, x ∂μ - ∫ x, x ∂ν) ^ 2) := by
  obtain ⟨d, h1, h2⟩ := denotes_average S ha hb hw
  have hp : IsProbabilityMeasure μ := (C86_independent_samples S hE hU ha (n := 1) le_rfl fun _ _ => none).1
  have hq : IsProbabilityMeasure ν := (C86_independent_samples S hE hU hb (n := 1) le_rfl fun _ _ => none).1
  obtain ⟨w0, w1⟩ := hw.range
  have hbp : IsProbabilityMeasure (blend w μ ν) :=
    (C86_independent_samples S hE hU h2 (n := 1) le_rfl fun _ _ => none).1
  have hint : ∀ f : ℝ → ℝ, Integrable f μ → Integrable f ν → Integrable f (blend w μ ν) := fun f hf hg =>
    (hf.smul_measure ENNReal.ofReal_ne_top).add_measure (hg.smul_measure ENNReal.ofReal_ne_top)
  have hval : ∀ f : ℝ → ℝ, Integrable f μ → Integrable f ν →
      ∫ x, f x ∂(blend w μ ν) = w * ∫ x, f x ∂μ + (1 - w) * ∫ x, f x ∂ν := by
    intro f hf hg
    rw [blend, integral_add_measure (hf.smul_measure ENNReal.ofReal_ne_top)
      (hg.smul_measure ENNReal.ofReal_ne_top), integral_smul_measure, integral_smul_measure,
      ENNReal.toReal_ofReal w0, ENNReal.toReal_ofReal (by linarith), smul_eq_mul, smul_eq_mul]
  have i1 : Integrable (fun x : ℝ => x) μ := hμ.integrable (by norm_num)
  have i2 : Integrable (fun x : ℝ => x) ν := hν.integrable (by norm_num)
  have hB : MemLp id 2 (blend w μ ν) := by
    rw [memLp_two_iff_integrable_sq measurable_id.aestronglyMeasurable]
    exact hint _ hμ.integrable_sq hν.integrable_sq
  have hv : ∀ (Q : Measure ℝ) [IsProbabilityMeasure Q], MemLp id 2 Q →
      Var[id; Q] = ∫ x, x ^ 2 ∂Q - (∫ x, x ∂Q) ^ 2 := fun Q _ hQ => by
    rw [variance_eq_sub hQ]
    rfl
  refine ⟨d, h1, ?_, ?_⟩
  · rw [← hval _ i1 i2]
    exact C102_mean S hE hU h2 (hint _ i1 i2)
  · have h := C102_variance S hE hU h2 hB
    convert h using 1
    rw [hv _ hB, hval _ i1 i2, hval (fun x => x ^ 2) hμ.integrable_sq hν.integrable_sq, hv μ hμ, hv ν hν]
    ring

end

/-- A case: averaging `norm(mean=0, sd=1)` and `norm(mean=10, sd=2)` with relative weights 3 and 1 has mean 5/2
and variance `3/4 + 1 + 3/16 · 100 = 41/2`, far above both variances. -/
example : ∃ d, averageObj (.leaf (.normal 0 1) none none) (.leaf (.normal 10 2) none none) .absent
      (.list [some 3, some 1]) = .ok d ∧
    StatTends demoSource idealEnv d meanOf (5 / 2) ∧ StatTends demoSource idealEnv d varOf (41 / 2) := by
  have ha := denotes_normal (T := St (ℕ → ℝ × ℝ) ℝ) (demoSource_normal 0 (s := 1) (by norm_num))
  have hb := denotes_normal (T := St (ℕ → ℝ × ℝ) ℝ) (demoSource_normal 10 (s := 2) (by norm_num))
  obtain ⟨d, h1, h2, h3⟩ := C126_moments demoSource (E := idealEnv) idealEnv_driven demoSource_uniform ha hb
    (memLp_id_gaussianReal 2) (memLp_id_gaussianReal 2)
    (PriorWeight.relative (r := 3) (q := 1) (by norm_num) (by norm_num))
  refine ⟨d, h1, ?_, ?_⟩
  · rw [show ∫ x, x ∂(normalLaw 0 1) = 0 from integral_id_gaussianReal,
      show ∫ x, x ∂(normalLaw 10 2) = 10 from integral_id_gaussianReal] at h2
    norm_num at h2
    exact h2
  · rw [show ∫ x, x ∂(normalLaw 0 1) = 0 from integral_id_gaussianReal,
      show ∫ x, x ∂(normalLaw 10 2) = 10 from integral_id_gaussianReal, normalLaw, normalLaw,
      variance_id_gaussianReal, variance_id_gaussianReal] at h3
    norm_num at h3
    exact h3

end Verif
