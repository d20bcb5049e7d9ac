import Verif.Props.Chances
import Verif.Lemmas.FiniteLaw

/-!
# C113: models with finitely many outcomes
-/

namespace Verif

open MeasureTheory ProbabilityTheory Spec Filter Topology

theorem finiteLaw_nullMeasurable (t : List (ℝ × ℝ)) (q : ℝ → Prop) : NullMeasurableSet {x | q x} (finiteLaw t) := by
  have hV : MeasurableSet ({x | q x} ∩ {x | x ∈ t.map Prod.fst}) := by
    have : ({x | x ∈ t.map Prod.fst} : Set ℝ).Finite := List.finite_toSet _
    exact (this.subset Set.inter_subset_right).measurableSet
  refine hV.nullMeasurableSet.congr ?_
  filter_upwards [finiteLaw_ae t] with x hx
  obtain ⟨p, hp, e⟩ := hx
  exact propext ⟨fun h => h.1, fun h => ⟨h, List.mem_map.2 ⟨p, hp, e⟩⟩⟩

theorem finiteLaw_chance {t : List (ℝ × ℝ)} (ht : ∀ p ∈ t, 0 ≤ p.2) (q : ℝ → Prop) :
    (finiteLaw t).real {x | q x} = chanceOf t q := by
  have hV : MeasurableSet {x | q x ∧ x ∈ t.map Prod.fst} := by
    have : ({x | x ∈ t.map Prod.fst} : Set ℝ).Finite := List.finite_toSet _
    exact (this.subset fun x h => h.2).measurableSet
  have e1 : chanceOf t q = chanceOf t fun x => q x ∧ x ∈ t.map Prod.fst := by
    unfold chanceOf
    congr 2
    refine List.filter_congr fun p hp => ?_
    have : p.1 ∈ t.map Prod.fst := List.mem_map_of_mem hp
    simp [this]
  rw [e1, ← finiteLaw_real ht hV]
  refine measureReal_congr ?_
  filter_upwards [finiteLaw_ae t] with x hx
  obtain ⟨p, hp, e⟩ := hx
  exact propext ⟨fun h => ⟨h, List.mem_map.2 ⟨p, hp, e⟩⟩, fun h => h.1⟩

section

variable {Ω : Type} [MeasurableSpace Ω] (S : IdealSource Ω) {E : Env (ℕ → Ω) ℝ} (hS : Documented S)

include hS

theorem outcomesAre_law {d : Obj (St (ℕ → Ω) ℝ) ℝ} {t : List (ℝ × ℝ)} (h : OutcomesAre d t) :
    (∀ p ∈ t, 0 ≤ p.2) ∧ Denotes S.primLaw d (finiteLaw t) := by
  have clampMap : ∀ (lo hi : Option ℝ) (t : List (ℝ × ℝ)),
      (finiteLaw t).map (clamp lo hi) = finiteLaw (t.map fun p => (clamp lo hi p.1, p.2)) :=
    fun lo hi t => finiteLaw_map t (measurable_clamp lo hi)
  have one : ∀ r : ℝ, Measure.dirac r = finiteLaw [(r, 1)] := fun r => by
    rw [finiteLaw_cons, finiteLaw_nil, ENNReal.ofReal_one, one_smul, add_zero]
  induction h with
  | @lit v r hv => exact ⟨by simp, one r ▸ .lit hv⟩
  | @const v r lc rc lo hi hv h1 h2 =>
    refine ⟨by simp, ?_⟩
    have := Denotes.const (S := St (ℕ → Ω) ℝ) (L := S.primLaw) hv h1 h2
    rwa [one, clampMap] at this
  | @bernoulli p lc rc lo hi h0 h1 hl hr =>
    refine ⟨?_, ?_⟩
    · intro q hq
      simp only [List.mem_cons, List.not_mem_nil, or_false] at hq
      rcases hq with rfl | rfl
      · exact h0
      · exact sub_nonneg.2 h1
    · have := Denotes.leaf (S := St (ℕ → Ω) ℝ) (L := S.primLaw) (l := .bernoulli p)
        (by rw [leafLaw, documented_uniform S hS]; rfl) hl hr
      beta_reduce at this
      rwa [bernoulli_finite h0 h1, clampMap] at this
  | @die s lc rc lo hi hs hl hr =>
    refine ⟨?_, ?_⟩
    · intro q hq
      obtain ⟨k, -, rfl⟩ := List.mem_map.1 hq
      positivity
    · have := Denotes.leaf (S := St (ℕ → Ω) ℝ) (L := S.primLaw) (l := .die ⟨s, none⟩)
        (hS (.integers 1 (s + 1)) _ (if_pos (by omega))) hl hr
      rwa [die_finite hs, clampMap, List.map_map] at this
  | @binomial n p lc rc lo hi h0 h1 hl hr =>
    have h2 : 0 ≤ 1 - p := sub_nonneg.2 h1
    refine ⟨?_, ?_⟩
    · intro q hq
      obtain ⟨k, -, rfl⟩ := List.mem_map.1 hq
      simp only [binomialChance]
      positivity
    · have := Denotes.leaf (S := St (ℕ → Ω) ℝ) (L := S.primLaw) (l := .binomial n p)
        (hS (.binomial n p) _ (dif_pos ⟨Int.natCast_nonneg n, h0, h1⟩)) hl hr
      rw [binomial_finite, clampMap, List.map_map] at this
      exact this
  | @items vs rs lc rc lo hi hne hr h1 h2 =>
    have hne' : rs ≠ [] := fun h => hne (List.length_eq_zero_iff.1 (by rw [hr.length_eq, h]; rfl))
    refine ⟨?_, ?_⟩
    · intro q hq
      obtain ⟨k, -, rfl⟩ := List.mem_map.1 hq
      positivity
    · have := Denotes.items (S := St (ℕ → Ω) ℝ) (L := S.primLaw) hne hr h1 h2
      rwa [items_finite hne', clampMap, List.map_map] at this
  | @table vs rs ws lc rc lo hi hl hr hw hs h1 h2 =>
    refine ⟨?_, ?_⟩
    · intro q hq
      obtain ⟨p, hp, rfl⟩ := List.mem_map.1 hq
      exact (hw _ (List.of_mem_zip hp).2).le
    · have := Denotes.table (S := St (ℕ → Ω) ℝ) (L := S.primLaw) (Or.inl rfl) hl hr hw hs h1 h2
      rwa [table_finite, clampMap] at this
  | @mix k ds t ws lc rc lo hi hk _ hw hs h1 h2 ih =>
    have hw' : ∀ i : Fin k, 0 ≤ ws[i.1]'(hk ▸ i.2) := fun i => (hw _ (List.getElem_mem _)).le
    refine ⟨?_, ?_⟩
    · intro q hq
      obtain ⟨i, -, hi⟩ := List.mem_flatMap.1 hq
      obtain ⟨p, hp, rfl⟩ := List.mem_map.1 hi
      exact mul_nonneg (hw' i) ((ih i).1 p hp)
    · have := Denotes.mix (L := S.primLaw) hk (fun i => (ih i).2) hw hs h1 h2
      rw [finiteLaw_mix t hw', clampMap, List.map_flatMap] at this
      simp only [List.map_map] at this
      exact this
  | @un f g a t hf _ ih =>
    refine ⟨?_, ?_⟩
    · intro q hq
      obtain ⟨p, hp, rfl⟩ := List.mem_map.1 hq
      exact ih.1 p hp
    · have := Denotes.un hf ih.2
      rwa [finiteLaw_map _ (measurable_unMeaning hf)] at this
  | @bin o g a b t u ho _ _ hdef iha ihb =>
    refine ⟨?_, ?_⟩
    · intro r hr
      obtain ⟨p, hp, hi⟩ := List.mem_flatMap.1 hr
      obtain ⟨q, hq, rfl⟩ := List.mem_map.1 hi
      exact mul_nonneg (iha.1 p hp) (ihb.1 q hq)
    · have hae : ∀ᵐ p ∂(finiteLaw t).prod (finiteLaw u), opDefined o p.1 p.2 := by
        filter_upwards [Measure.quasiMeasurePreserving_fst.ae (finiteLaw_ae t),
          Measure.quasiMeasurePreserving_snd.ae (finiteLaw_ae u)] with p h1 h2
        obtain ⟨x, hx, e1⟩ := h1
        obtain ⟨y, hy, e2⟩ := h2
        rw [← e1, ← e2]
        exact hdef x hx y hy
      have := Denotes.bin ho iha.2 ihb.2 hae
      rwa [finiteLaw_prod t u iha.1 (measurable_opMeaning ho)] at this

variable (hE : S.Drives E)

include hE

/-- **C113**: every one of the `n` samples meets a condition with the chance found by listing the outcomes. -/
theorem C113_chance {d : Obj (St (ℕ → Ω) ℝ) ℝ} {t : List (ℝ × ℝ)} (h : OutcomesAre d t) {n : ℕ} (i : Fin n)
    (left : ℕ → ℕ → Option (List (Scalar ℝ))) (q : ℝ → Prop) :
    (Measure.infinitePi fun _ : ℕ => S.law).real
      {ω | ∃ z s' xs, sampleObj E d n none none ⟨ω, left⟩ = (.ok z, s') ∧ List.Forall₂ IsReal z.toList xs ∧
        ∃ hi : i.1 < xs.length, q xs[i.1]} = chanceOf t q := by
  obtain ⟨h0, hd⟩ := outcomesAre_law S hS h
  rw [sample_prob S hS hE hd i left q (finiteLaw_nullMeasurable t q), finiteLaw_chance h0]

/-- **C113**: the listed chances add up to 1. -/
theorem C113_total {d : Obj (St (ℕ → Ω) ℝ) ℝ} {t : List (ℝ × ℝ)} (h : OutcomesAre d t) :
    (t.map Prod.snd).sum = 1 := by
  obtain ⟨h0, hd⟩ := outcomesAre_law S hS h
  have := denotes_prob S hS hE hd
  have e := finiteLaw_chance h0 fun _ => True
  rw [show {x : ℝ | True} = Set.univ from rfl, probReal_univ] at e
  rw [e]
  simp [chanceOf]

/-- **C113**: the mean of the samples tends to the sum of the outcomes times their chances, and the variance to
the sum of the squared distances from it times their chances. -/
theorem C113_moments {d : Obj (St (ℕ → Ω) ℝ) ℝ} {t : List (ℝ × ℝ)} (h : OutcomesAre d t) :
    StatTends S E d meanOf (expectOf t fun x => x) ∧
    StatTends S E d varOf (expectOf t fun x => (x - expectOf t fun x => x) ^ 2) := by
  obtain ⟨h0, hd⟩ := outcomesAre_law S hS h
  have := denotes_prob S hS hE hd
  have hm := finiteLaw_integral h0 fun x => x
  have hv := finiteLaw_integral h0 fun x => (x - expectOf t fun x => x) ^ 2
  have hs := finiteLaw_integral h0 fun x => x ^ 2
  refine ⟨?_, ?_⟩
  · rw [← hm.2]
    exact C102_mean S hE (documented_uniform S hS) hd hm.1
  · have e := C102_variance S hE (documented_uniform S hS) hd
      ((memLp_two_iff_integrable_sq measurable_id.aestronglyMeasurable).2 hs.1)
    rw [← hv.2, ← hm.2]
    convert e using 1
    exact (variance_eq_integral measurable_id.aemeasurable).symm

/-- **C113**: the fraction of the samples that meet a condition is within `ε` of the chance found by listing the
outcomes, except with probability at most `2 exp(-2 n ε²)`. -/
theorem C113_frequency {d : Obj (St (ℕ → Ω) ℝ) ℝ} {t : List (ℝ × ℝ)} (h : OutcomesAre d t) {n : ℕ} (hn : 1 ≤ n)
    (left : ℕ → ℕ → Option (List (Scalar ℝ))) (q : ℝ → Bool) (hq : MeasurableSet {x | q x = true}) {ε : ℝ}
    (hε : 0 < ε) :
    (Measure.infinitePi fun _ : ℕ => S.law).real
      {ω | ¬ ∃ z s' xs, sampleObj E d n none none ⟨ω, left⟩ = (.ok z, s') ∧ List.Forall₂ IsReal z.toList xs ∧
        |((xs.countP q : ℕ) : ℝ) / n - chanceOf t fun x => q x = true| < ε}
      ≤ 2 * Real.exp (-2 * n * ε ^ 2) := by
  obtain ⟨h0, hd⟩ := outcomesAre_law S hS h
  have := C87_frequency S hE (documented_uniform S hS) hd q hq hn left hε
  rwa [finiteLaw_chance h0 fun x => q x = true] at this

end

/-- Two dice add up to 7 with chance 1/6. -/
example {T : Type} : ∃ t, OutcomesAre (T := T)
    (.bin (.op .add) (.leaf (.die ⟨6, none⟩) none none) (.leaf (.die ⟨6, none⟩) none none)) t ∧
    chanceOf t (fun x => x = 7) = 1 / 6 := by
  have h : OutcomesAre (T := T) (.leaf (.die ⟨6, none⟩) none none) _ :=
    .die (sides := 6) (lo := none) (hi := none) (by norm_num) trivial trivial
  refine ⟨_, .bin (o := .add) rfl h h fun _ _ _ _ => trivial, ?_⟩
  simp [chanceOf, List.range_succ, clamp_none, List.filter_cons]
  norm_num

end Verif
