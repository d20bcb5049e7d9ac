import Verif.Lemmas.CoresEvents
import Verif.Props.CoresAccuracy

/-!
# C130: conditional probabilities from `bayesnet(event_fn, n, ..., cores=c)`

With an ideal source of randomness.  The events of every core travel through a temporary file; `conv e` is what is
read back when `e` was written.
-/

namespace Verif

open MeasureTheory ProbabilityTheory Spec Filter Topology

theorem countP_flatMap_range' {α : Type} (c : ℕ) (y : ℕ → List α) (q : α → Bool) :
    ((List.range c).flatMap y).countP q = ∑ i ∈ Finset.range c, (y i).countP q := by
  induction c with
  | zero => simp
  | succ c ih => rw [List.range_succ, List.flatMap_append, List.countP_append, ih, Finset.sum_range_succ]; simp

/-- If the frequency in every batch is close to `p`, so is the frequency overall. -/
theorem batches_close {α : Type} {c n : ℕ} (hn : 1 ≤ n) {k : ℕ → ℕ} (hk : ∀ i < c, 1 ≤ k i)
    (hsum : ∑ i ∈ Finset.range c, k i = n) (y : ℕ → List α) (q : α → Bool) {p ε : ℝ} (hc : 1 ≤ c)
    (h : ∀ i < c, |(((y i).countP q : ℕ) : ℝ) / k i - p| < ε) :
    |((((List.range c).flatMap y).countP q : ℕ) : ℝ) / n - p| < ε := by
  have hn0 : (0 : ℝ) < n := by exact_mod_cast hn
  have hsumR : ∑ i ∈ Finset.range c, (k i : ℝ) = n := by exact_mod_cast hsum
  have e : ((((List.range c).flatMap y).countP q : ℕ) : ℝ) / n - p
      = (∑ i ∈ Finset.range c, (((y i).countP q : ℕ) - k i * p : ℝ)) / n := by
    rw [countP_flatMap_range', Finset.sum_sub_distrib, ← Finset.sum_mul, hsumR]
    push_cast
    field_simp
  rw [e, abs_div, abs_of_pos hn0, div_lt_iff₀ hn0]
  refine (Finset.abs_sum_le_sum_abs _ _).trans_lt ?_
  rw [← hsumR, Finset.mul_sum]
  refine Finset.sum_lt_sum_of_nonempty ⟨0, Finset.mem_range.2 hc⟩ fun i hi => ?_
  have hi' := Finset.mem_range.1 hi
  have hk0 : (0 : ℝ) < k i := by exact_mod_cast hk i hi'
  have h1 := h i hi'
  have e2 : (((y i).countP q : ℕ) : ℝ) / k i - p = (((y i).countP q : ℕ) - k i * p) / k i := by
    field_simp
  rwa [e2, abs_div, abs_of_pos hk0, div_lt_iff₀ hk0] at h1

section

variable {Ω : Type} [MeasurableSpace Ω] (S : IdealSource Ω) {E : Env (ℕ → Ω) ℝ} (hE : S.Drives E)
  (hU : S.primLaw (.uniform 0 1) = some (volume.restrict (Set.Ico 0 1)))
  {α : Type} [MeasurableSpace α] {f : EventFn (St (ℕ → Ω) ℝ) α Unit} {κ : Unit → Measure α}
  (hf : EventLaw S.primLaw f κ) {B : BEnv (St (ℕ → Ω) ℝ) α} {g : ℕ} (hB : B.event g = f.run E ()) {conv : α → α}
  (hconv : ∀ e, B.codec e = some (conv e)) {o : BOpts} (hc : 2 ≤ o.cores) (hv : o.sched.Valid o.cores)
  (hload : truthyName o.load = none) (hdump : truthyName o.dump = none)

include hE hU hf hB hconv hc hv hload hdump

/-- **C130**: without cached events and left-over temporary files, `bayesnet(event_fn, n, cores=c)` almost surely uses
`c` batches of events in a row, `n` events in all, however the pool distributes the tasks; within each batch the events
are independent and each has the law of the event function's value. -/
theorem C130_events (s : BSt (St (ℕ → Ω) ℝ) α) (hfresh : o.reload = true ∨ s.mem (some g) = none)
    (hclean : ∀ i < o.cores, s.tmp i = none) {n : ℕ} (hn : 1 ≤ n) :
    ∃ (k : ℕ → ℕ) (Y : (i : ℕ) → Fin (k i) → (ℕ → Ω) → α), (∀ i, i + 1 < o.cores → k i = n / o.cores) ∧
      k (o.cores - 1) = n / o.cores + n % o.cores ∧ ∑ i ∈ Finset.range o.cores, k i = n ∧
      (∀ i < o.cores, (∀ j, Measurable (Y i j)) ∧
        (∀ j, (Measure.infinitePi fun _ : ℕ => S.law).map (Y i j) = κ ()) ∧
        iIndepFun (Y i) (Measure.infinitePi fun _ : ℕ => S.law)) ∧
      ∀ᵐ ω ∂(Measure.infinitePi fun _ : ℕ => S.law), ∃ s',
        bayesnet B o (some g) n (.reduceEvents .ok : Query α (List α) ℝ) none { s with inner := ⟨ω, s.inner.left⟩ }
        = (.ok (.reduced ((List.range o.cores).flatMap fun i => List.ofFn fun j => conv (Y i j ω))), s') := by
  have hd := eventLaw_draws S (left := s.inner.left) hE hU hf
  have hp : IsProbabilityMeasure (κ ()) := hd.2.1 ()
  obtain ⟨k, Y, h1, h2, h3, h4, h5⟩ :=
    event_batches_of_draws S hB hconv hc hv hload hdump s (hd.at ()) hfresh hclean hn
  refine ⟨k, fun i j ω => Y i ω j, h1, h2, h3, fun i hi => ?_, ?_⟩
  · obtain ⟨e1, e2⟩ := iIndep_of_pi (P := streamLaw S.law) (h4 i hi).measurable (h4 i hi).map_eq
    exact ⟨fun j => (measurable_pi_apply j).comp (h4 i hi).measurable, e1, e2⟩
  · filter_upwards [h5] with ω hω
    simpa [List.map_ofFn, Function.comp_def] using hω

/-- **C130**: `bayesnet(event_fn, n, find=…, conditional_on=…, cores=c)` is within `δ` of the conditional probability
of `find` given the condition, except with a probability that decreases exponentially with the size `n / c` of a batch,
however the pool distributes the tasks. -/
theorem C130_conditional {ρ : Type} (hcm : Measurable conv) (s : BSt (St (ℕ → Ω) ℝ) α)
    (hfresh : o.reload = true ∨ s.mem (some g) = none) (hclean : ∀ i < o.cores, s.tmp i = none) {n : ℕ}
    (hn : o.cores ≤ n) {find given : α → Bool} (hfind : Measurable find) (hgiven : Measurable given)
    (hpos : 0 < (κ ()).real {e | given (conv e) = true}) {δ : ℝ} (hδ : 0 < δ) :
    (Measure.infinitePi fun _ : ℕ => S.law).real
      {ω | ¬ ∃ x s', bayesnet B o (some g) n
          (.findReduce (fun e => .ok (.bool (find e))) none : Query α ρ ℝ) (some fun e => .ok (given e))
          { s with inner := ⟨ω, s.inner.left⟩ } = (.ok (.mean x), s') ∧
        |x - (cond (κ ()) {e | given (conv e) = true}).real {e | find (conv e) = true}| < δ}
      ≤ 4 * o.cores * Real.exp (-2 * (n / o.cores : ℕ)
          * (δ * (κ ()).real {e | given (conv e) = true} / (2 + δ)) ^ 2) := by
  have hp : IsProbabilityMeasure (κ ()) := (eventLaw_draws S (left := s.inner.left) hE hU hf).2.1 ()
  obtain ⟨k, Y, h1, h2, hsum, h4, h5⟩ :=
    C130_events S hE hU hf hB hconv hc hv hload hdump s hfresh hclean (n := n) (by omega)
  set P := Measure.infinitePi fun _ : ℕ => S.law with hP
  have hq : 1 ≤ n / o.cores := Nat.div_pos hn (by omega)
  have hkq : ∀ i < o.cores, n / o.cores ≤ k i := fun i hi => by
    by_cases h : i = o.cores - 1
    · rw [h, h2]; omega
    · rw [h1 i (by omega)]
  have hk : ∀ i < o.cores, 1 ≤ k i := fun i hi => hq.trans (hkq i hi)
  have hg' : Measurable fun e => given (conv e) := hgiven.comp hcm
  have hf' : Measurable fun e => find (conv e) := hfind.comp hcm
  have hmg : MeasurableSet {e | given (conv e) = true} := hg' (measurableSet_singleton true)
  have hmf : MeasurableSet {e | find (conv e) = true} := hf' (measurableSet_singleton true)
  have hset : {e | (given (conv e) && find (conv e)) = true}
      = {e | given (conv e) = true} ∩ {e | find (conv e) = true} := by
    ext e; simp
  set pc := (κ ()).real {e | given (conv e) = true} with hpc
  set pb := (κ ()).real {e | (given (conv e) && find (conv e)) = true} with hpb
  have hcond : (cond (κ ()) {e | given (conv e) = true}).real {e | find (conv e) = true} = pb / pc := by
    rw [Measure.real, cond_apply hmg, ENNReal.toReal_mul, ENNReal.toReal_inv, hpb, hset, hpc, div_eq_inv_mul]
    rfl
  have hpb0 : 0 ≤ pb := measureReal_nonneg
  have hpbc : pb ≤ pc := by
    rw [hpb, hset]
    exact measureReal_mono Set.inter_subset_left
  have hε : 0 < δ * pc / (2 + δ) := by positivity
  set ε := δ * pc / (2 + δ) with hεd
  let y : (ℕ → Ω) → ℕ → List α := fun ω i => List.ofFn fun j => conv (Y i j ω)
  let bad : (α → Bool) → ℝ → ℕ → Set (ℕ → Ω) := fun q p i => {ω | ε ≤ |(((y ω i).countP q : ℕ) : ℝ) / k i - p|}
  have hbad : ∀ (q : α → Bool), MeasurableSet {e | q (conv e) = true} → ∀ i < o.cores,
      P.real (bad q ((κ ()).real {e | q (conv e) = true}) i)
        ≤ 2 * Real.exp (-2 * (n / o.cores : ℕ) * ε ^ 2) := by
    intro q hmq i hi
    obtain ⟨m1, m2, m3⟩ := h4 i hi
    have b := frequency_bound (hk i hi) m1 m2 m3 (fun e => q (conv e)) hmq hε
    have e : ∀ ω, (y ω i).countP q = (List.ofFn fun j => Y i j ω).countP fun e => q (conv e) := fun ω => by
      have : y ω i = (List.ofFn fun j => Y i j ω).map conv := by simp [y, List.map_ofFn, Function.comp_def]
      rw [this, List.countP_map]
      rfl
    simp only [bad, e]
    refine b.trans ?_
    have : ((n / o.cores : ℕ) : ℝ) ≤ k i := by exact_mod_cast hkq i hi
    have : -2 * (k i : ℝ) * ε ^ 2 ≤ -2 * ((n / o.cores : ℕ) : ℝ) * ε ^ 2 := by
      nlinarith [sq_nonneg ε]
    linarith [Real.exp_le_exp.2 this]
  have b1 := hbad given hmg
  have b2 := hbad (fun e => given e && find e) (by rw [hset]; exact hmg.inter hmf)
  have hle : P.real (⋃ i ∈ Finset.range o.cores, (bad given pc i ∪ bad (fun e => given e && find e) pb i))
      ≤ 4 * o.cores * Real.exp (-2 * (n / o.cores : ℕ) * ε ^ 2) := by
    refine (measureReal_biUnion_finset_le _ _).trans ?_
    refine (Finset.sum_le_sum (g := fun _ => 4 * Real.exp (-2 * (n / o.cores : ℕ) * ε ^ 2)) fun i hi => ?_).trans
      (le_of_eq ?_)
    · have hi' := Finset.mem_range.1 hi
      refine (measureReal_union_le _ _).trans ?_
      have := b1 i hi'
      have := b2 i hi'
      linarith
    · rw [Finset.sum_const, Finset.card_range, nsmul_eq_mul]
      ring
  refine le_trans ?_ hle
  refine ENNReal.toReal_mono (measure_ne_top _ _) (measure_mono_ae ?_)
  filter_upwards [h5] with ω hω hno
  obtain ⟨s', hs'⟩ := hω
  by_contra hlt
  have hgood : ∀ i < o.cores, ω ∉ bad given pc i ∧ ω ∉ bad (fun e => given e && find e) pb i := fun i hi => by
    refine not_or.1 fun h => hlt ?_
    exact Set.mem_biUnion (x := i) (Finset.mem_range.2 hi) h
  have hn1 : 1 ≤ n := by omega
  have g1 := batches_close hn1 hk hsum (y ω) given (by omega) fun i hi => not_le.1 (hgood i hi).1
  have g2 := batches_close hn1 hk hsum (y ω) (fun e => given e && find e) (by omega)
    fun i hi => not_le.1 (hgood i hi).2
  obtain ⟨r1, r2⟩ := ratio_close hδ hpos hpb0 hpbc g1 g2
  have hfr := C46_frequency (ρ := ρ) B o (some g) n find given _ _ _ hs'
  have hn0 : (0 : ℝ) < n := by exact_mod_cast hn1
  have hne : ¬ ((List.range o.cores).flatMap (y ω)).countP given = 0 := by
    intro h
    rw [h] at r1
    simp at r1
  rw [if_neg hne] at hfr
  refine hno ⟨_, _, Prod.ext hfr rfl, ?_⟩
  rw [hcond]
  rwa [div_div_div_cancel_right₀ hn0.ne'] at r2

omit hv in
/-- **C130**: as the number of events grows, the estimate converges in probability to the conditional probability,
for every number of cores and whatever the pool does for each `n`. -/
theorem C130_limit {ρ : Type} (hcm : Measurable conv) (s : BSt (St (ℕ → Ω) ℝ) α)
    (hfresh : o.reload = true ∨ s.mem (some g) = none) (hclean : ∀ i < o.cores, s.tmp i = none)
    {sched : ℕ → Sched} (hvs : ∀ n, (sched n).Valid o.cores)
    {find given : α → Bool} (hfind : Measurable find) (hgiven : Measurable given)
    (hpos : 0 < (κ ()).real {e | given (conv e) = true}) {δ : ℝ} (hδ : 0 < δ) :
    Tendsto (fun n : ℕ => (Measure.infinitePi fun _ : ℕ => S.law).real
      {ω | ¬ ∃ x s', bayesnet B { o with sched := sched n } (some g) n
          (.findReduce (fun e => .ok (.bool (find e))) none : Query α ρ ℝ) (some fun e => .ok (given e))
          { s with inner := ⟨ω, s.inner.left⟩ } = (.ok (.mean x), s') ∧
        |x - (cond (κ ()) {e | given (conv e) = true}).real {e | find (conv e) = true}| < δ}) atTop (𝓝 0) := by
  set ε := δ * (κ ()).real {e | given (conv e) = true} / (2 + δ) with hεd
  have hε : 0 < ε := by positivity
  have hdiv : Tendsto (fun n : ℕ => ((n / o.cores : ℕ) : ℝ)) atTop atTop :=
    tendsto_natCast_atTop_atTop.comp (Nat.tendsto_div_const_atTop (by omega))
  have hlim : Tendsto (fun n : ℕ => 4 * o.cores * Real.exp (-2 * ((n / o.cores : ℕ) : ℝ) * ε ^ 2)) atTop (𝓝 0) := by
    have h1 : Tendsto (fun n : ℕ => -2 * ((n / o.cores : ℕ) : ℝ) * ε ^ 2) atTop atBot :=
      (hdiv.const_mul_atTop_of_neg (by norm_num : (-2 : ℝ) < 0)).atBot_mul_const (by positivity)
    simpa using (Real.tendsto_exp_atBot.comp h1).const_mul (4 * (o.cores : ℝ))
  refine tendsto_of_tendsto_of_tendsto_of_le_of_le' tendsto_const_nhds hlim
    (.of_forall fun n => measureReal_nonneg) ?_
  filter_upwards [eventually_ge_atTop o.cores] with n hn
  exact C130_conditional S hE hU hf hB hconv (o := { o with sched := sched n }) hc (hvs n) hload hdump hcm s hfresh
    hclean hn hfind hgiven hpos hδ

/-- **C130 fails** (no gain): if each task runs in its own process, `c k` events on `c` cores almost surely give
exactly the answer that `k` events on one core give from the same state of the generator (if files keep events as they
are): the same number, or the same error. -/
theorem C130_no_gain_fails {ρ : Type} (hid : conv = id) (hsep : o.sched.Separate) (s : BSt (St (ℕ → Ω) ℝ) α)
    (hfresh : o.reload = true ∨ s.mem (some g) = none) (hclean : ∀ i < o.cores, s.tmp i = none) {k : ℕ} (hk : 1 ≤ k)
    (find given : α → Bool) :
    ∀ᵐ ω ∂(Measure.infinitePi fun _ : ℕ => S.law),
      (bayesnet B o (some g) (o.cores * k : ℕ)
          (.findReduce (fun e => .ok (.bool (find e))) none : Query α ρ ℝ) (some fun e => .ok (given e))
          { s with inner := ⟨ω, s.inner.left⟩ }).1
      = (bayesnet B { o with cores := 1 } (some g) k
          (.findReduce (fun e => .ok (.bool (find e))) none : Query α ρ ℝ) (some fun e => .ok (given e))
          { s with inner := ⟨ω, s.inner.left⟩ }).1 := by
  have hd := eventLaw_draws S (left := s.inner.left) hE hU hf
  have hp : IsProbabilityMeasure (κ ()) := hd.2.1 ()
  obtain ⟨F, -, -, hae⟩ := (hd.at ()).replicateL k
  filter_upwards [hae] with ω hω
  obtain ⟨l, hl, hR⟩ := hω
  have hlen : l.length = k := by
    have : l = List.ofFn (F ω).1 := by simpa using hR
    simp [this]
  set s0 : BSt (St (ℕ → Ω) ℝ) α := { s with inner := ⟨ω, s.inner.left⟩ } with hs0
  have hrep : repeatEvent (B.event g) k s0.inner = (.ok l, ⟨(F ω).2, s.inner.left⟩) := by
    rw [hB, repeatEvent_replicateL]; exact hl
  obtain ⟨s1, h1⟩ := bayesnet_new (K := ℝ) (B := B) (o := { o with cores := 1 }) (g := g) (n := k) (s := s0) hfresh rfl
    hload hdump hrep (by omega)
  obtain ⟨cuts, hcuts⟩ := coreCuts_total (n := o.cores * k) (show 1 ≤ o.cores by omega)
  obtain ⟨-, -, hcut, hlast⟩ := coreCuts_getD hcuts
  rw [Nat.mul_mod_right, Nat.add_zero] at hlast
  rw [Nat.mul_div_cancel_left k (by omega)] at hcut hlast
  have hmem : ∀ i, i ∈ o.sched.map Prod.snd ↔ i < o.cores - 1 := fun i => by
    rw [List.Perm.mem_iff hv, List.mem_range]
  have hfree := runEventWorkers_other B g cuts o.sched (fun _ => s0.inner) s0.tmp (o.cores - 1) (by rw [hmem]; omega)
  rw [show s0.tmp (o.cores - 1) = none from hclean _ (by omega)] at hfree
  obtain ⟨s2, h2⟩ := generateEvents_of_batches (B := B) (o := o) hc (g := g) (n := (o.cores * k : ℕ)) (s := s0)
    (cuts := cuts) (by rw [Int.toNat_natCast]; exact hcuts) hconv (own := l) (by rw [hlast]; exact hrep) (fun _ => l) rfl hfree
    (fun i hi => runEventWorkers_same hconv hrep o.sched _ _ hsep (hv.nodup_iff.2 List.nodup_range) (fun _ _ => rfl)
      (fun j hj => ⟨hcut j (by have := (hmem j).1 hj; omega), hclean j (by have := (hmem j).1 hj; omega)⟩) i
      ((hmem i).2 (by omega)))
  rw [hid, List.map_id] at h2
  obtain ⟨s3, h3⟩ := bayesnet_generated (K := ℝ) (s := s0) hfresh hload hdump h2 (by
    rw [List.length_flatMap, List.map_const', List.sum_replicate, List.length_range, hlen, smul_eq_mul]
    exact Nat.mul_pos (show 0 < o.cores by omega) hk)
  have f1 := C46_frequency (ρ := ρ) B { o with cores := 1 } (some g) k find given _ _ _ h1
  have f2 := C46_frequency (ρ := ρ) B o (some g) (o.cores * k : ℕ) find given _ _ _ h3
  rw [f1, f2]
  have hc0 : (o.cores : ℝ) ≠ 0 := by exact_mod_cast (by omega : o.cores ≠ 0)
  have hrepc : ∀ q : α → Bool, ((List.range o.cores).flatMap fun _ => l).countP q = o.cores * l.countP q := fun q => by
    rw [countP_flatMap_range']; simp
  rw [hrepc, hrepc]
  by_cases h0 : l.countP given = 0
  · simp [h0]
  · rw [if_neg h0, if_neg (Nat.mul_ne_zero (by omega) h0)]
    push_cast
    rw [mul_div_mul_left _ _ hc0]

end

/-! ## Example -/

/-- The breast cancer example of the README with 4 cores, however the three tasks are distributed. -/
example {sched : Sched} (hv : sched.Valid 4) :
    (Measure.infinitePi fun _ : ℕ => demoSource.law).real
      {ω | ¬ ∃ x s', bayesnet (mammography idealEnv) { cores := 4, sched := sched } (some 0) (1000000 : ℕ)
          (.findReduce (fun e => .ok (.bool e.1)) none : Query (Bool × Bool) Unit ℝ) (some fun e => .ok e.2)
          ⟨⟨ω, fun _ _ => none⟩, fun _ => [], 0, fun _ => none, fun _ => none, fun _ => none⟩
            = (.ok (.mean x), s') ∧
        |x - (cond (twoStepLaw (8 / 10) (96 / 1000) (1 / 100)) {e | e.2 = true}).real {e | e.1 = true}| < 1 / 10}
      ≤ 4 * (4 : ℕ) * Real.exp (-2 * (1000000 / 4 : ℕ)
        * (1 / 10 * (8 / 10 * (1 / 100) + 96 / 1000 * (1 - 1 / 100)) / (2 + 1 / 10)) ^ 2) := by
  have hl := (twoStepLaw_real (lh := 8 / 10) (ln := 96 / 1000) (prior := 1 / 100) (by norm_num) (by norm_num)
    (by norm_num)).1
  have h := C130_conditional demoSource idealEnv_driven demoSource_uniform (ρ := Unit)
    (twoStep_law demoSource.primLaw (lh := 8 / 10) (ln := 96 / 1000) (prior := 1 / 100) (by norm_num) (by norm_num)
      (by norm_num))
    (B := mammography idealEnv) (g := 0) rfl (conv := id) (fun _ => rfl) (o := { cores := 4, sched := sched })
    (by norm_num) hv rfl rfl measurable_id
    ⟨⟨fun _ => 0, fun _ _ => none⟩, fun _ => [], 0, fun _ => none, fun _ => none, fun _ => none⟩ (Or.inr rfl)
    (fun _ _ => rfl) (n := 1000000) (by norm_num) (find := fun e => e.1) (given := fun e => e.2) measurable_fst
    measurable_snd (by simp only [id]; rw [hl]; norm_num) (δ := 1 / 10) (by norm_num)
  simp only [id] at h
  rw [hl] at h
  exact h

end Verif
