import Verif.Lemmas.CoresLaw
import Verif.Props.EventLaw
import Verif.Props.BayesnetFiles

/-!
# Helper lemmas for C130: the events of `bayesnet(..., cores=c)`

With an ideal source of randomness.  Events travel through files; `conv` is what an event is after that.
-/

namespace Verif

open MeasureTheory ProbabilityTheory Spec Filter Topology

theorem encodeList_map {α : Type} {codec : α → Option α} {conv : α → α} (h : ∀ e, codec e = some (conv e)) (l : List α) :
    encodeList codec l = some (l.map conv) := by
  induction l with
  | nil => rfl
  | cons a l ih => simp only [encodeList, h, ih, List.map_cons]

/-- Without cached events and cache files the events used are those just generated. -/
theorem bayesnet_generated {S α K : Type} [Field K] {B : BEnv S α} {o : BOpts} {g : ℕ} {n : ℤ} {s s2 : BSt S α}
    (hfresh : o.reload = true ∨ s.mem (some g) = none)
    (hload : truthyName o.load = none) (hdump : truthyName o.dump = none) {l : List α}
    (hg : generateEvents B o g n s = (.ok l, s2)) (hne : 1 ≤ l.length) :
    ∃ s1, bayesnet (K := K) B o (some g) n (.reduceEvents .ok : Query α (List α) K) none s
      = (.ok (.reduced l), s1) := by
  have hc : cachedEvents o (some g) n s = (.ok none, s) := by
    unfold cachedEvents
    rcases hfresh with h | h
    · simp [h]
    · simp [hload, h]
  simp only [bayesnet, hc, hg, finishBayes, saveEvents, hdump, answerEvents]
  have hlists : ∀ c : Bool, (if c = true then
      { (s2.alloc l).2 with
        mem := fun k => if k = some g then some ⟨(s2.alloc l).1, n⟩ else (s2.alloc l).2.mem k }
      else (s2.alloc l).2).lists (s2.alloc l).1 = l := by
    intro c
    cases c <;> simp [BSt.alloc]
  simp only [hlists, if_neg (not_lt.2 hne), Bind.bind, Except.bind]
  exact ⟨_, rfl⟩

/-- If every core wrote its batch, the events are those of the batches in order. -/
theorem generateEvents_of_batches {S α : Type} {B : BEnv S α} {o : BOpts} (hc : 2 ≤ o.cores) {g : ℕ} {n : ℤ}
    {s : BSt S α} {cuts : List ℕ} (hcuts : coreCuts n.toNat o.cores = .ok cuts) {conv : α → α}
    (hconv : ∀ e, B.codec e = some (conv e)) {own : List α} {s' : S}
    (hown : repeatEvent (B.event g) (cuts.getD (o.cores - 1) 0) s.inner = (.ok own, s'))
    (b : ℕ → List α) (hlast : b (o.cores - 1) = own)
    (hfree : runEventWorkers B g cuts o.sched (fun _ => s.inner) s.tmp (o.cores - 1) = none)
    (hb : ∀ i, i + 1 < o.cores →
      runEventWorkers B g cuts o.sched (fun _ => s.inner) s.tmp i = some (.good ((b i).map conv))) :
    ∃ s2, generateEvents B o g n s = (.ok (((List.range o.cores).flatMap b).map conv), s2) := by
  have hwb : writeBatch B.codec (o.cores - 1) own (runEventWorkers B g cuts o.sched (fun _ => s.inner) s.tmp) =
      (true, fun i => if i = o.cores - 1 then some (.good (own.map conv))
        else runEventWorkers B g cuts o.sched (fun _ => s.inner) s.tmp i) := by
    simp [writeBatch, hfree, encodeList_map hconv]
  have hcol := collectEvents_good (fun i => (b i).map conv) (List.range o.cores) []
    (fun i => if i = o.cores - 1 then some (.good (own.map conv))
        else runEventWorkers B g cuts o.sched (fun _ => s.inner) s.tmp i) List.nodup_range (by
      intro i hi
      rw [List.mem_range] at hi
      by_cases h1 : i = o.cores - 1
      · simp only [h1, if_true, hlast]
      · simp only [h1, if_false]
        exact hb i (by omega))
  unfold generateEvents
  rw [if_neg (by omega), hcuts]
  simp only [hown, hwb, hcol]
  refine ⟨_, Prod.ext ?_ rfl⟩
  simp [List.map_flatMap]

/-- Files of cores outside the schedule are not touched. -/
theorem runEventWorkers_other {S α : Type} (B : BEnv S α) (g : ℕ) (cuts : List ℕ) :
    ∀ (sched : Sched) (procs : ℕ → S) (tmp : ℕ → Option (FileOf (List α))) (i : ℕ), i ∉ sched.map Prod.snd →
      runEventWorkers B g cuts sched procs tmp i = tmp i
  | [], _, _, _, _ => rfl
  | (p, core) :: rest, procs, tmp, i, hi => by
    simp only [List.map_cons, List.mem_cons, not_or] at hi
    simp only [runEventWorkers]
    rcases repeatEvent (B.event g) (cuts.getD core 0) (procs p) with ⟨_ | batch, s'⟩
    · exact runEventWorkers_other B g cuts rest _ _ i hi.2
    · refine (runEventWorkers_other B g cuts rest _ _ i hi.2).trans ?_
      unfold writeBatch
      split
      · rfl
      · split <;> simp [hi.1]

/-- If every task runs in a process of its own, every file holds the same batch. -/
theorem runEventWorkers_same {S α : Type} {B : BEnv S α} {g : ℕ} {cuts : List ℕ} {conv : α → α}
    (hconv : ∀ e, B.codec e = some (conv e)) {k : ℕ} {i0 t : S} {l : List α}
    (hl : repeatEvent (B.event g) k i0 = (.ok l, t)) :
    ∀ (sched : Sched) (procs : ℕ → S) (tmp : ℕ → Option (FileOf (List α))),
      (sched.map Prod.fst).Nodup → (sched.map Prod.snd).Nodup → (∀ p ∈ sched.map Prod.fst, procs p = i0) →
      (∀ i ∈ sched.map Prod.snd, cuts.getD i 0 = k ∧ tmp i = none) → ∀ i ∈ sched.map Prod.snd,
      runEventWorkers B g cuts sched procs tmp i = some (.good (l.map conv))
  | [], _, _, _, _, _, _, i, hi => by simp at hi
  | (p, core) :: rest, procs, tmp, hp, hc, hproc, hcut, i, hi => by
    simp only [List.map_cons, List.nodup_cons] at hp hc
    have hk := hcut core (by simp)
    have hw : (writeBatch B.codec core l tmp).2 = fun i => if i = core then some (.good (l.map conv)) else tmp i := by
      simp [writeBatch, hk.2, encodeList_map hconv]
    simp only [runEventWorkers, hproc p (by simp), hk.1, hl, hw]
    by_cases h : i = core
    · subst h
      rw [runEventWorkers_other B g cuts rest _ _ i hc.1]
      simp
    · simp only [List.map_cons, List.mem_cons, h, false_or] at hi
      refine runEventWorkers_same hconv hl rest _ _ hp.2 hc.2 (fun q hq => ?_) (fun j hj => ?_) i hi
      · have hqp : q ≠ p := fun h => hp.1 (h ▸ hq)
        simp only [hqp, if_false]
        exact hproc q (by simp only [List.map_cons, List.mem_cons]; exact Or.inr hq)
      · have hjc : j ≠ core := fun h => hc.1 (h ▸ hj)
        simp only [hjc, if_false]
        exact hcut j (by simp only [List.map_cons, List.mem_cons]; exact Or.inr hj)

/-- Frequencies close to the probabilities give a conditional frequency close to the conditional probability. -/
theorem ratio_close {u v pb pc δ : ℝ} (hδ : 0 < δ) (hpos : 0 < pc) (hpb0 : 0 ≤ pb) (hpbc : pb ≤ pc)
    (g1 : |u - pc| < δ * pc / (2 + δ)) (g2 : |v - pb| < δ * pc / (2 + δ)) : 0 < u ∧ |v / u - pb / pc| < δ := by
  set ε := δ * pc / (2 + δ) with hεd
  have h2δ : (0 : ℝ) < 2 + δ := by linarith
  have hε2 : ε * (2 + δ) = δ * pc := by rw [hεd]; field_simp
  have hεpc : ε < pc := by
    by_contra h
    nlinarith
  have g1' := abs_lt.1 g1
  have haN : 0 < u := by linarith [g1'.1]
  refine ⟨haN, ?_⟩
  have hq : pb / pc ≤ 1 := (div_le_one hpos).2 hpbc
  have hq0 : 0 ≤ pb / pc := by positivity
  have e : v / u - pb / pc = ((v - pb) - (u - pc) * (pb / pc)) / u := by
    field_simp
    ring
  have hbound : |(v - pb) - (u - pc) * (pb / pc)| < 2 * ε := by
    have h2 : |(u - pc) * (pb / pc)| ≤ ε := by
      rw [abs_mul, abs_of_nonneg hq0]
      nlinarith [abs_nonneg (u - pc)]
    calc _ ≤ |v - pb| + |(u - pc) * (pb / pc)| := abs_sub _ _
      _ < 2 * ε := by linarith
  rw [e, abs_div, abs_of_pos haN, div_lt_iff₀ haN]
  nlinarith [g1'.1]

section

variable {Ω : Type} [MeasurableSpace Ω] (S : IdealSource Ω) {α : Type} [MeasurableSpace α]
  {left : ℕ → ℕ → Option (List (Scalar ℝ))}

/-- However the tasks are distributed over processes, every batch of events almost surely comes about, and its events
are independent draws. -/
theorem event_workers_law {m : SM (ℕ → Ω) ℝ α} {μ : Measure α} [IsProbabilityMeasure μ]
    {B : BEnv (St (ℕ → Ω) ℝ) α} {g : ℕ} (hB : B.event g = m) (hd : DrawsLaw S.law left m Eq μ) {conv : α → α}
    (hconv : ∀ e, B.codec e = some (conv e)) (cuts : List ℕ) :
    ∀ (sched : Sched), (sched.map Prod.snd).Nodup →
    ∀ (procs : ℕ → (ℕ → Ω) → ℕ → Ω), (∀ p, MeasurePreserving (procs p) (streamLaw S.law) (streamLaw S.law)) →
    ∃ Y : (i : ℕ) → (ℕ → Ω) → Fin (cuts.getD i 0) → α,
      (∀ i ∈ sched.map Prod.snd, MeasurePreserving (Y i) (streamLaw S.law) (Measure.pi fun _ => μ)) ∧
      ∀ᵐ ω ∂(streamLaw S.law), ∀ tmp, (∀ i ∈ sched.map Prod.snd, tmp i = none) → ∀ i ∈ sched.map Prod.snd,
        runEventWorkers B g cuts sched (fun p => ⟨procs p ω, left⟩) tmp i = some (.good ((List.ofFn (Y i ω)).map conv))
  | [], _, procs, _ => by
    have : Nonempty α := by
      by_contra h
      rw [not_nonempty_iff] at h
      have h1 : μ Set.univ = 1 := measure_univ
      rw [Set.eq_empty_of_isEmpty (Set.univ : Set α), measure_empty] at h1
      exact zero_ne_one h1
    exact ⟨fun _ _ _ => Classical.arbitrary α, by simp, .of_forall fun _ _ _ i hi => by simp at hi⟩
  | (p, core) :: rest, hnd, procs, hprocs => by
    simp only [List.map_cons, List.nodup_cons] at hnd
    obtain ⟨Y₀, next, h1, h2, h3⟩ := drawsLaw_parts S (hd.replicateL (cuts.getD core 0))
    obtain ⟨Y, h4, h5⟩ := event_workers_law hB hd hconv cuts rest hnd.2
      (fun q => if q = p then next ∘ procs p else procs q) (fun q => by
        by_cases h : q = p
        · simp only [h, if_true]; exact h2.comp (hprocs p)
        · simp only [h, if_false]; exact hprocs q)
    refine ⟨fun i => if h : i = core then fun ω => h ▸ Y₀ (procs p ω) else Y i, fun i hi => ?_, ?_⟩
    · by_cases h : i = core
      · subst h
        simp only [dif_pos]
        exact h1.comp (hprocs p)
      · simp only [h, dif_neg, not_false_eq_true]
        simp only [List.map_cons, List.mem_cons, h, false_or] at hi
        exact h4 i hi
    · filter_upwards [(hprocs p).quasiMeasurePreserving.ae h3, h5] with ω hω hω' tmp hclean i hi
      obtain ⟨l, hl, hR⟩ := hω
      have hl' : l = List.ofFn (Y₀ (procs p ω)) := by simpa using hR
      subst hl'
      have hprocs' : (fun q => if q = p then (⟨next (procs p ω), left⟩ : St (ℕ → Ω) ℝ) else ⟨procs q ω, left⟩)
          = fun q => ⟨(if q = p then next ∘ procs p else procs q) ω, left⟩ := by
        funext q
        by_cases h : q = p <;> simp [h]
      have hw : (writeBatch B.codec core (List.ofFn (Y₀ (procs p ω))) tmp).2
          = fun i => if i = core then some (.good ((List.ofFn (Y₀ (procs p ω))).map conv)) else tmp i := by
        simp [writeBatch, hclean core (by simp), encodeList_map hconv]
      simp only [runEventWorkers, hB, repeatEvent_replicateL, hl, hprocs', hw]
      by_cases h : i = core
      · subst h
        rw [runEventWorkers_other B g cuts rest _ _ i hnd.1]
        simp
      · simp only [List.map_cons, List.mem_cons, h, false_or] at hi
        simp only [h, dif_neg, not_false_eq_true]
        refine hω' _ (fun j hj => ?_) i hi
        have : j ≠ core := fun e => hnd.1 (e ▸ hj)
        simp only [this, if_false]
        exact hclean j (by simp only [List.map_cons, List.mem_cons, hj, or_true])

/-- The events `bayesnet` uses with several cores. -/
theorem event_batches_of_draws {m : SM (ℕ → Ω) ℝ α} {μ : Measure α} [IsProbabilityMeasure μ]
    {B : BEnv (St (ℕ → Ω) ℝ) α} {g : ℕ} (hB : B.event g = m) {conv : α → α} (hconv : ∀ e, B.codec e = some (conv e))
    {o : BOpts} (hc : 2 ≤ o.cores) (hv : o.sched.Valid o.cores) (hload : truthyName o.load = none)
    (hdump : truthyName o.dump = none) (s : BSt (St (ℕ → Ω) ℝ) α) (hd : DrawsLaw S.law s.inner.left m Eq μ)
    (hfresh : o.reload = true ∨ s.mem (some g) = none) (hclean : ∀ i < o.cores, s.tmp i = none) {n : ℕ} (hn : 1 ≤ n) :
    ∃ (k : ℕ → ℕ) (Y : (i : ℕ) → (ℕ → Ω) → Fin (k i) → α), (∀ i, i + 1 < o.cores → k i = n / o.cores) ∧
      k (o.cores - 1) = n / o.cores + n % o.cores ∧ ∑ i ∈ Finset.range o.cores, k i = n ∧
      (∀ i < o.cores, MeasurePreserving (Y i) (streamLaw S.law) (Measure.pi fun _ => μ)) ∧
      ∀ᵐ ω ∂(streamLaw S.law), ∃ s', bayesnet B o (some g) n (.reduceEvents .ok : Query α (List α) ℝ) none
          { s with inner := ⟨ω, s.inner.left⟩ }
        = (.ok (.reduced ((List.range o.cores).flatMap fun i => (List.ofFn (Y i ω)).map conv)), s') := by
  obtain ⟨cuts, hcuts⟩ := coreCuts_total (n := n) (show 1 ≤ o.cores by omega)
  obtain ⟨-, -, hcut, hlast⟩ := coreCuts_getD hcuts
  have hnd : (o.sched.map Prod.snd).Nodup := hv.nodup_iff.2 List.nodup_range
  have hmem : ∀ i, i ∈ o.sched.map Prod.snd ↔ i < o.cores - 1 := fun i => by
    rw [List.Perm.mem_iff hv, List.mem_range]
  obtain ⟨Y, h1, h2⟩ := event_workers_law S hB hd hconv cuts o.sched hnd (fun _ => id) fun _ => MeasurePreserving.id _
  obtain ⟨Y₀, next, h3, -, h5⟩ := drawsLaw_parts S (hd.replicateL (cuts.getD (o.cores - 1) 0))
  have hsum : ∑ i ∈ Finset.range o.cores, cuts.getD i 0 = n := by
    obtain ⟨c', hc'⟩ : ∃ c', o.cores = c' + 1 := ⟨o.cores - 1, by omega⟩
    rw [hc'] at hcut hlast ⊢
    rw [Finset.sum_range_succ, Finset.sum_congr rfl fun i hi => hcut i (by have := Finset.mem_range.1 hi; omega)]
    simp only [Nat.add_sub_cancel] at hlast
    rw [hlast, Finset.sum_const, Finset.card_range, smul_eq_mul]
    have := Nat.div_add_mod n (c' + 1)
    ring_nf at this ⊢
    omega
  refine ⟨fun i => cuts.getD i 0, fun i => if h : i = o.cores - 1 then fun ω => h ▸ Y₀ ω else Y i, hcut, hlast, hsum,
    fun i hi => ?_, ?_⟩
  · by_cases h : i = o.cores - 1
    · subst h
      simp only [dif_pos]
      exact h3
    · simp only [h, dif_neg, not_false_eq_true]
      exact h1 i ((hmem i).2 (by omega))
  · filter_upwards [h2, h5] with ω hω hω'
    obtain ⟨own, ho, hR⟩ := hω'
    have hR' : own = List.ofFn (Y₀ ω) := by simpa using hR
    have hfree := runEventWorkers_other B g cuts o.sched (fun _ => (⟨ω, s.inner.left⟩ : St (ℕ → Ω) ℝ)) s.tmp
      (o.cores - 1) (by rw [hmem]; omega)
    rw [hclean _ (by omega)] at hfree
    obtain ⟨s2, hg⟩ := generateEvents_of_batches (B := B) (o := o) hc (g := g) (n := n)
      (s := { s with inner := (⟨ω, s.inner.left⟩ : St (ℕ → Ω) ℝ) }) (cuts := cuts) (by simpa using hcuts) hconv
      (own := own) (s' := ⟨next ω, s.inner.left⟩) (by rw [hB, repeatEvent_replicateL]; exact ho)
      (fun i => List.ofFn (if h : i = o.cores - 1 then (h ▸ Y₀ ω : Fin (cuts.getD i 0) → α) else Y i ω))
      (by simp [hR']) hfree (fun i hi => by
        have h : i ≠ o.cores - 1 := by omega
        simp only [h, dif_neg, not_false_eq_true]
        exact hω s.tmp (fun j hj => hclean j (by have := (hmem j).1 hj; omega)) i ((hmem i).2 (by omega)))
    have he : ((List.range o.cores).flatMap fun i =>
        List.ofFn (if h : i = o.cores - 1 then (h ▸ Y₀ ω : Fin (cuts.getD i 0) → α) else Y i ω)).map conv
        = (List.range o.cores).flatMap fun i =>
          (List.ofFn ((if h : i = o.cores - 1 then fun ω => h ▸ Y₀ ω else Y i) ω)).map conv := by
      rw [List.map_flatMap]
      congr 1
      funext i
      by_cases h : i = o.cores - 1
      · subst h; simp
      · simp [h]
    rw [he] at hg
    refine bayesnet_generated (s := { s with inner := (⟨ω, s.inner.left⟩ : St (ℕ → Ω) ℝ) }) hfresh hload hdump hg ?_
    rw [List.length_flatMap]
    simp only [List.length_map, List.length_ofFn]
    have : (List.map (fun i => cuts.getD i 0) (List.range o.cores)).sum = n := by
      rw [← hsum]
      rfl
    omega

end

end Verif
