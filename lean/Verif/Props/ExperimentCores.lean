import Verif.Props.Experiment
import Verif.Props.CoresEvents

/-!
# Simulating an experiment with `bayesnet` on several cores (C144)
-/

namespace Verif

open MeasureTheory ProbabilityTheory Spec

section

variable {Ω : Type} [MeasurableSpace Ω] (S : IdealSource Ω) (hS : Documented S) {E : Env (ℕ → Ω) ℝ} (hE : S.Drives E)
  {B : BEnv (St (ℕ → Ω) ℝ) (ℝ × ℕ × Bool)} {g : ℕ} (hcodec : ∀ e, B.codec e = some e) {o : BOpts} (hc : 2 ≤ o.cores)
  (hv : o.sched.Valid o.cores) (hload : truthyName o.load = none) (hdump : truthyName o.dump = none)
  (st : BSt (St (ℕ → Ω) ℝ) (ℝ × ℕ × Bool)) (hfresh : o.reload = true ∨ st.mem (some g) = none)
  (hclean : ∀ i < o.cores, st.tmp i = none) {N s : ℕ} (hs : s ≤ N)

include hS hE hcodec hc hv hload hdump hfresh hclean hs

/-- **C144** (several cores): for events that survive being written to a file and read again, the chance that
`update(beta(a, b), beta(s, N - s))` gives to a set, however the pool distributes the work. -/
theorem C144_update_chance_cores {ρ : Type} (ppf : ℝ → ℝ) (w : ℝ) {a b : ℝ} (ha : 0 < a) (hb : 0 < b)
    (hB : B.event g = (experiment (.leaf (.beta a b) none none) N).run E ())
    {q : ℝ → Bool} (hq : Measurable q) {δ : ℝ} (hδ : 0 < δ) :
    ∃ A' B', update ppf (.beta a b) (.beta s (N - s : ℕ)) w = .ok (.beta A' B') ∧ 0 < A' ∧ 0 < B' ∧
      ∃ rate > 0, ∀ n : ℕ, o.cores ≤ n → (Measure.infinitePi fun _ : ℕ => S.law).real
        {ω | ¬ ∃ x s', bayesnet B o (some g) n
            (.findReduce (fun e => .ok (.bool (q e.1))) none : Query (ℝ × ℕ × Bool) ρ ℝ)
            (some fun e => .ok (decide (e.2.1 = s))) { st with inner := ⟨ω, st.inner.left⟩ } = (.ok (.mean x), s') ∧
          |x - (betaMeasure A' B').real {p | q p = true}| < δ}
        ≤ 4 * o.cores * Real.exp (-((n / o.cores : ℕ) * rate)) := by
  obtain ⟨A', B', h1, h2, h3, h4⟩ := C143_beta ppf ha hb (s := s) (f := (N - s : ℕ)) (Nat.cast_nonneg _) (Nat.cast_nonneg _) w
  refine ⟨A', B', h1, h2, h3, ?_⟩
  obtain ⟨hm, hd⟩ := experiment_draws S (left := st.inner.left) hE (documented_uniform S hS) (denotes_beta S hS ha hb) N
  set κ := (betaMeasure a b).bind fun x => trialsLaw x (eventChance x) N 0 with hκ
  have hpκ : IsProbabilityMeasure κ := hd.2.1 ()
  have hpost := experiment_posterior (beta_ae_unit a b) hm hs
  rw [← h4, ← hκ] at hpost
  have hmass := experiment_given (beta_ae_unit a b) hm s
  rw [beta_evidence ha hb (Nat.cast_nonneg _) (Nat.cast_nonneg _), ← hκ] at hmass
  have hpos : 0 < κ.real {e | decide (e.2.1 = s) = true} := by
    rw [given_set, Measure.real, hmass]
    refine ENNReal.toReal_pos ?_ (ENNReal.mul_ne_top (ENNReal.natCast_ne_top _) ENNReal.ofReal_ne_top)
    refine mul_ne_zero (by exact_mod_cast (Nat.choose_pos hs).ne') ?_
    rw [Ne, ENNReal.ofReal_eq_zero, not_le]
    exact div_pos (beta_pos (by positivity) (by positivity)) (beta_pos ha hb)
  refine ⟨2 * (δ * κ.real {e | decide (e.2.1 = s) = true} / (2 + δ)) ^ 2, by positivity, fun n hn => ?_⟩
  have h := C130_conditional S hE (documented_uniform S hS) (ρ := ρ)
    (experiment_law (L := S.primLaw) (denotes_beta S hS ha hb) N) hB (conv := id) hcodec hc hv hload hdump measurable_id st
    hfresh hclean hn (find := fun e => q e.1) (hq.comp measurable_fst) (measurable_given s) hpos hδ
  have hmq : MeasurableSet {p | q p = true} := hq (measurableSet_singleton true)
  have hset : (κ[|{e | decide (e.2.1 = s) = true}]).real {e | q e.1 = true} = (betaMeasure A' B').real {p | q p = true} := by
    rw [given_set, ← hpost, Measure.real, Measure.real, Measure.map_apply measurable_fst hmq]
    rfl
  simp only [id] at h
  rw [hset] at h
  refine h.trans (le_of_eq ?_)
  congr 2
  ring

/-- **C144** (several cores): the relative frequency of success in one further trial is within `δ` of `laplace(s, N)`. -/
theorem C144_laplace_cores {ρ : Type} (fixed : Bool)
    (hB : B.event g = (experiment (.leaf (.uniform 0 1) none none) N).run E ()) {δ : ℝ} (hδ : 0 < δ) {n : ℕ}
    (hn : o.cores ≤ n) :
    ∃ p, laplace s (some (N : ℝ)) none none fixed = .ok p ∧
      (Measure.infinitePi fun _ : ℕ => S.law).real
        {ω | ¬ ∃ x s', bayesnet B o (some g) n
            (.findReduce (fun e => .ok (.bool e.2.2)) none : Query (ℝ × ℕ × Bool) ρ ℝ)
            (some fun e => .ok (decide (e.2.1 = s))) { st with inner := ⟨ω, st.inner.left⟩ } = (.ok (.mean x), s') ∧
          |x - p| < δ}
        ≤ 4 * o.cores * Real.exp (-2 * (n / o.cores : ℕ) * (δ / ((N + 1) * (2 + δ))) ^ 2) := by
  have hle : (s : ℝ) ≤ N := by exact_mod_cast hs
  obtain ⟨p, -, -, h1, h2, -, -⟩ := C143_laplace (Nat.cast_nonneg s) hle fixed (fun _ => 0) 1
  obtain ⟨p', hp', -, hp0, -⟩ := (C58_trials s N (Nat.cast_nonneg s) fixed).1 hle
  rw [h1] at hp'
  cases hp'
  refine ⟨p, h1, ?_⟩
  obtain ⟨hm, hd⟩ := experiment_draws S (left := st.inner.left) hE (documented_uniform S hS)
    (denotes_between S hS zero_lt_one) N
  have hae : ∀ᵐ x ∂(uniformLaw 0 1), 0 ≤ x ∧ x ≤ 1 := by rw [← beta_one_one]; exact beta_ae_unit 1 1
  set κ := (uniformLaw 0 1).bind fun x => trialsLaw x (eventChance x) N 0 with hκ
  have hpκ : IsProbabilityMeasure κ := hd.2.1 ()
  have hnext := experiment_next hae hm hs
  rw [Nat.cast_sub hs, ← h2, ← hκ] at hnext
  have hmass := experiment_given hae hm s
  rw [uniform_evidence hs, ← hκ] at hmass
  have hreal : κ.real {e | decide (e.2.1 = s) = true} = 1 / (N + 1) := by
    rw [given_set, Measure.real, hmass, ENNReal.toReal_ofReal (by positivity)]
  have h := C130_conditional S hE (documented_uniform S hS) (ρ := ρ)
    (experiment_law (L := S.primLaw) (denotes_between S hS zero_lt_one) N) hB (conv := id) hcodec hc hv hload hdump
    measurable_id st hfresh hclean hn (find := fun e => e.2.2) (by fun_prop) (measurable_given s)
    (by simp only [id]; rw [hreal]; positivity) hδ
  simp only [id] at h
  rw [given_set, Measure.real, Measure.real, hnext, ENNReal.toReal_ofReal (by linarith), ← given_set, ← Measure.real, hreal] at h
  refine h.trans (le_of_eq ?_)
  congr 3
  field_simp

end

/-- The hypotheses are met: three successes in four trials, a million simulations on four cores, events that are stored as
they are, however the tasks are distributed. -/
example {sched : Sched} (hv : sched.Valid 4) : ∃ S : IdealSource (Prim ℝ → ℝ), Documented S ∧ ∃ E, S.Drives E ∧
    ∀ B : BEnv (St (ℕ → Prim ℝ → ℝ) ℝ) (ℝ × ℕ × Bool), (∀ e, B.codec e = some e) →
      B.event 0 = (experiment (.leaf (.uniform 0 1) none none) 4).run E () → ∃ p : ℝ,
      (Measure.infinitePi fun _ : ℕ => S.law).real
        {ω | ¬ ∃ x s', bayesnet B { cores := 4, sched := sched } (some 0) (1000000 : ℕ)
            (.findReduce (fun e => .ok (.bool e.2.2)) none : Query (ℝ × ℕ × Bool) Unit ℝ)
            (some fun e => .ok (decide (e.2.1 = 3)))
            ⟨⟨ω, fun _ _ => none⟩, fun _ => [], 0, fun _ => none, fun _ => none, fun _ => none⟩ = (.ok (.mean x), s') ∧
          |x - p| < 1 / 20}
        ≤ 4 * (4 : ℕ) * Real.exp (-2 * (1000000 / 4 : ℕ) * (1 / 20 / (((4 : ℕ) + 1) * (2 + 1 / 20))) ^ 2) := by
  obtain ⟨S, hS, E, hE⟩ := C110_generator
  refine ⟨S, hS, E, hE, fun B hcodec hB => ?_⟩
  obtain ⟨p, -, h⟩ := C144_laplace_cores S hS hE (o := { cores := 4, sched := sched }) hcodec (by norm_num) hv rfl rfl
    ⟨⟨fun _ _ => 0, fun _ _ => none⟩, fun _ => [], 0, fun _ => none, fun _ => none, fun _ => none⟩ (Or.inr rfl)
    (fun _ _ => rfl) (N := 4) (s := 3) (by norm_num) (ρ := Unit) true hB (δ := 1 / 20) (by norm_num) (n := 1000000)
    (by norm_num)
  exact ⟨p, h⟩

end Verif
