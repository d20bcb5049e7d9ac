import Verif.Props.Multicore
import Verif.Props.Denote

/-!
# Helper lemmas: `sample(..., cores=c)` with an ideal source of randomness
-/

namespace Verif

open MeasureTheory ProbabilityTheory Spec

/-! ## Collecting -/

section
variable {K : Type} [Field K] [LinearOrder K] [FloorRing K]

theorem collectFiles_all (fmt : Scalar K → String) (b : ℕ → Samples K) : ∀ (l : List ℕ) (acc : List (Scalar K))
    (tmp : ℕ → Option (Samples K)), l.Nodup → (∀ i ∈ l, tmp i = some (b i)) →
    ∃ tmp', collectFiles fmt l acc tmp = (.ok (l.foldl (fun acc i => npConcat fmt acc (b i).toList) acc), tmp')
  | [], acc, tmp, _, _ => ⟨tmp, rfl⟩
  | core :: rest, acc, tmp, hn, h => by
    have hn' := List.nodup_cons.1 hn
    obtain ⟨tmp', ht⟩ := collectFiles_all fmt b rest (npConcat fmt acc (b core).toList)
      (fun i => if i = core then none else tmp i) hn'.2 fun i hi => by
        rw [if_neg (fun he : i = core => hn'.1 (he ▸ hi))]
        exact h i (by simp [hi])
    refine ⟨tmp', ?_⟩
    simp only [collectFiles, h core (by simp), List.foldl_cons]
    exact ht

end

theorem npConcat_real (fmt : Scalar ℝ → String) {acc b : List (Scalar ℝ)} {xs ys : List ℝ}
    (ha : acc = xs.map .flt) (hb : List.Forall₂ IsReal b ys) : npConcat fmt acc b = (xs ++ ys).map .flt := by
  subst ha
  have h1 := (npConcat_numbers fmt (xs.map .flt) b (fun v hv => by
    obtain ⟨x, -, rfl⟩ := List.mem_map.1 hv
    exact ⟨x, rfl⟩) (fun v hv => by
    have hy : ∃ y, IsReal v y := by
      clear * - hb hv
      induction hb with
      | nil => cases hv
      | cons h _ ih =>
        rcases List.mem_cons.1 hv with rfl | hv
        · exact ⟨_, h⟩
        · exact ih hv
    obtain ⟨y, hy⟩ := hy
    rcases hy with rfl | ⟨z, rfl, -⟩
    · exact Or.inr (Or.inl ⟨_, rfl⟩)
    · exact Or.inl ⟨_, rfl⟩)).1
  rw [h1, List.map_append]
  congr 1
  clear h1
  induction hb with
  | nil => rfl
  | cons h _ ih =>
    rw [List.map_cons, List.map_cons, ih]
    congr 1
    rcases h with rfl | ⟨z, rfl, rfl⟩ <;> rfl

theorem foldl_npConcat_real (fmt : Scalar ℝ → String) (b : ℕ → Samples ℝ) (y : ℕ → List ℝ) : ∀ (l : List ℕ)
    (xs : List ℝ), (∀ i ∈ l, List.Forall₂ IsReal (b i).toList (y i)) →
    l.foldl (fun acc i => npConcat fmt acc (b i).toList) (xs.map .flt) = (xs ++ l.flatMap y).map .flt
  | [], xs, _ => by simp
  | i :: l, xs, h => by
    rw [List.foldl_cons, npConcat_real fmt rfl (h i (by simp)),
      foldl_npConcat_real fmt b y l (xs ++ y i) fun j hj => h j (by simp [hj])]
    simp

theorem forall₂_isReal_flt (xs : List ℝ) : List.Forall₂ IsReal (xs.map .flt) xs := by
  induction xs with
  | nil => exact .nil
  | cons x xs ih => exact .cons (Or.inl rfl) ih

/-- If every core left its batch, the result is their numbers in order, clipped to the bounds of the call. -/
theorem sampleCores_of_batches_bounds {σ : Type} (E : Env σ ℝ) (sched : Sched) {cores : ℕ} (hc : 2 ≤ cores)
    (d : Obj (St σ ℝ) ℝ) {n : ℕ} (hn : n ≠ 0) {cuts : List ℕ} (hcuts : coreCuts n cores = .ok cuts) (m : MSt σ ℝ)
    {lc rc : Option (Scalar ℝ)}
    {own : Samples ℝ} {s' : St σ ℝ} (hown : sampleObj E d (cuts.getD (cores - 1) 0) lc rc m.inner = (.ok own, s'))
    (b : ℕ → Samples ℝ) (hlast : b (cores - 1) = own)
    (hb : ∀ i, i + 1 < cores → runWorkers E d cuts lc rc sched (fun _ => m.inner) m.tmp i = some (b i))
    (y : ℕ → List ℝ) (hy : ∀ i, i < cores → List.Forall₂ IsReal (b i).toList (y i)) {z : Samples ℝ}
    (hz : applyClips E.powf lc rc (.arr (((List.range cores).flatMap y).map .flt)) = .ok z) :
    ∃ m', sampleCores E sched cores d n lc rc m = (.ok z, m') ∧ m'.inner = s' := by
  obtain ⟨tmp', ht⟩ := collectFiles_all E.fmt b (List.range cores) []
    (fun i => if i = cores - 1 then some own
      else runWorkers E d cuts lc rc sched (fun _ => m.inner) m.tmp i) List.nodup_range (fun i hi => by
      rw [List.mem_range] at hi
      by_cases h : i = cores - 1
      · rw [if_pos h, h, hlast]
      · rw [if_neg h, hb i (by omega)])
  have hfold := foldl_npConcat_real E.fmt b y (List.range cores) [] fun i hi => hy i (List.mem_range.1 hi)
  rw [List.map_nil, List.nil_append] at hfold
  rw [hfold] at ht
  refine ⟨⟨s', tmp'⟩, ?_, rfl⟩
  simp only [sampleCores, if_neg hn, if_pos (show cores > 1 by omega), multicoreSample, hcuts, hown, ht, hz]

/-- If every core left its batch, the result is their numbers in order. -/
theorem sampleCores_of_batches {σ : Type} (E : Env σ ℝ) (sched : Sched) {cores : ℕ} (hc : 2 ≤ cores)
    (d : Obj (St σ ℝ) ℝ) {n : ℕ} (hn : n ≠ 0) {cuts : List ℕ} (hcuts : coreCuts n cores = .ok cuts) (m : MSt σ ℝ)
    {own : Samples ℝ} {s' : St σ ℝ} (hown : sampleObj E d (cuts.getD (cores - 1) 0) none none m.inner = (.ok own, s'))
    (b : ℕ → Samples ℝ) (hlast : b (cores - 1) = own)
    (hb : ∀ i, i + 1 < cores → runWorkers E d cuts none none sched (fun _ => m.inner) m.tmp i = some (b i))
    (y : ℕ → List ℝ) (hy : ∀ i, i < cores → List.Forall₂ IsReal (b i).toList (y i)) :
    ∃ z m', sampleCores E sched cores d n none none m = (.ok z, m') ∧ m'.inner = s' ∧
      List.Forall₂ IsReal z.toList ((List.range cores).flatMap y) := by
  obtain ⟨m', h1, h2⟩ := sampleCores_of_batches_bounds E sched hc d hn hcuts m hown b hlast hb y hy rfl
  exact ⟨_, m', h1, h2, forall₂_isReal_flt _⟩

/-! ## The worker processes -/

section
variable {Ω : Type} [MeasurableSpace Ω] (S : IdealSource Ω) {E : Env (ℕ → Ω) ℝ}
  {left : ℕ → ℕ → Option (List (Scalar ℝ))} {d : Obj (St (ℕ → Ω) ℝ) ℝ} {μ : Measure ℝ} [IsProbabilityMeasure μ]

theorem drawsLaw_parts {X A : Type} [MeasurableSpace X] {m : SM (ℕ → Ω) ℝ A} {R : A → X → Prop} {ν : Measure X}
    [IsProbabilityMeasure ν] (h : DrawsLaw S.law left m R ν) :
    ∃ (Y : (ℕ → Ω) → X) (next : (ℕ → Ω) → ℕ → Ω), MeasurePreserving Y (streamLaw S.law) ν ∧
      MeasurePreserving next (streamLaw S.law) (streamLaw S.law) ∧
      ∀ᵐ ω ∂(streamLaw S.law), ∃ a, m ⟨ω, left⟩ = (.ok a, ⟨next ω, left⟩) ∧ R a (Y ω) := by
  obtain ⟨F, h1, h2, h3⟩ := h
  refine ⟨fun ω => (F ω).1, fun ω => (F ω).2, ⟨by fun_prop, ?_⟩, ⟨by fun_prop, ?_⟩, h3⟩
  · have : (fun ω => (F ω).1) = Prod.fst ∘ F := rfl
    rw [this, ← Measure.map_map measurable_fst h1, h2, Measure.map_fst_prod]
    simp
  · have : (fun ω => (F ω).2) = Prod.snd ∘ F := rfl
    rw [this, ← Measure.map_map measurable_snd h1, h2, Measure.map_snd_prod]
    simp

/-- However the tasks are distributed over processes, every batch almost surely comes about, and its numbers are
independent draws. -/
theorem workers_law {lc rc : Option (Scalar ℝ)} (cuts : List ℕ)
    (hdraw : ∀ n, 1 ≤ n → DrawsLaw S.law left (sampleObj E d n lc rc) (Reads n) (Measure.pi fun _ : Fin n => μ)) :
    ∀ (sched : Sched), (sched.map Prod.snd).Nodup → (∀ i ∈ sched.map Prod.snd, 1 ≤ cuts.getD i 0) →
    ∀ (procs : ℕ → (ℕ → Ω) → ℕ → Ω), (∀ p, MeasurePreserving (procs p) (streamLaw S.law) (streamLaw S.law)) →
    ∃ Y : (i : ℕ) → (ℕ → Ω) → Fin (cuts.getD i 0) → ℝ,
      (∀ i ∈ sched.map Prod.snd, MeasurePreserving (Y i) (streamLaw S.law) (Measure.pi fun _ => μ)) ∧
      ∀ᵐ ω ∂(streamLaw S.law), ∀ tmp, ∀ i ∈ sched.map Prod.snd, ∃ z,
        runWorkers E d cuts lc rc sched (fun p => ⟨procs p ω, left⟩) tmp i = some z ∧ Reads _ z (Y i ω)
  | [], _, _, procs, _ => ⟨fun _ _ _ => 0, by simp, .of_forall fun _ _ i hi => by simp at hi⟩
  | (p, core) :: rest, hnd, hcut, procs, hprocs => by
    simp only [List.map_cons, List.nodup_cons] at hnd
    obtain ⟨Y₀, next, h1, h2, h3⟩ := drawsLaw_parts S (hdraw (cuts.getD core 0) (hcut core (by simp)))
    obtain ⟨Y, h4, h5⟩ := workers_law cuts hdraw rest hnd.2 (fun i hi => hcut i (by simp only [List.map_cons,
      List.mem_cons, hi, or_true])) (fun q => if q = p then next ∘ procs p else procs q) (fun q => by
        by_cases h : q = p
        · simp only [h, if_true]; exact h2.comp (hprocs p)
        · simp only [h, if_false]; exact hprocs q)
    refine ⟨fun i => if h : i = core then fun ω => h ▸ Y₀ (procs p ω) else Y i, fun i hi => ?_, ?_⟩
    · by_cases h : i = core
      · subst h
        simp only [dif_pos]
        exact h1.comp (hprocs p)
      · simp only [h, dif_neg, not_false_eq_true]
        simp only [List.map_cons, List.mem_cons, h, false_or] at hi
        exact h4 i hi
    · filter_upwards [(hprocs p).quasiMeasurePreserving.ae h3, h5] with ω hω hω' tmp i hi
      obtain ⟨a, ha, hR⟩ := hω
      have hstep : workerStep E d cuts lc rc (fun q => (⟨procs q ω, left⟩ : St (ℕ → Ω) ℝ)) tmp p core
          = (fun q => ⟨(if q = p then next ∘ procs p else procs q) ω, left⟩,
            fun i => if i = core then some a else tmp i) := by
        simp only [workerStep, onCopy, ha]
        congr 1
        funext q
        by_cases h : q = p <;> simp [h]
      rw [runWorkers, hstep]
      by_cases h : i = core
      · subst h
        refine ⟨a, ?_, by simpa using hR⟩
        rw [runWorkers_other E d cuts lc rc rest _ _ i hnd.1]
        simp
      · simp only [List.map_cons, List.mem_cons, h, false_or] at hi
        simp only [h, dif_neg, not_false_eq_true]
        exact hω' _ i hi

/-- The whole call: one batch for every core, each of them independent draws, in a row. -/
theorem cores_law (hdraw : ∀ n, 1 ≤ n →
      DrawsLaw S.law left (sampleObj E d n none none) (Reads n) (Measure.pi fun _ : Fin n => μ))
    {cores n : ℕ} (hc : 2 ≤ cores) (hn : cores ≤ n) {sched : Sched} (hv : sched.Valid cores)
    (tmp : ℕ → Option (Samples ℝ)) :
    ∃ (k : ℕ → ℕ) (Y : (i : ℕ) → (ℕ → Ω) → Fin (k i) → ℝ), (∀ i, i + 1 < cores → k i = n / cores) ∧
      k (cores - 1) = n / cores + n % cores ∧
      (∀ i, i < cores → MeasurePreserving (Y i) (streamLaw S.law) (Measure.pi fun _ => μ)) ∧
      ∀ᵐ ω ∂(streamLaw S.law), ∃ z m', sampleCores E sched cores d n none none ⟨⟨ω, left⟩, tmp⟩ = (.ok z, m') ∧
        List.Forall₂ IsReal z.toList ((List.range cores).flatMap fun i => List.ofFn (Y i ω)) := by
  obtain ⟨cuts, q, last, hcuts, -⟩ := C24_cuts n cores (by omega)
  obtain ⟨hl, hs, hcut, hlast⟩ := coreCuts_getD hcuts
  have hq : 1 ≤ n / cores := Nat.div_pos hn (by omega)
  have hnd : (sched.map Prod.snd).Nodup := hv.nodup_iff.2 List.nodup_range
  have hmem : ∀ i, i ∈ sched.map Prod.snd ↔ i < cores - 1 := fun i => by
    rw [List.Perm.mem_iff hv, List.mem_range]
  obtain ⟨Y, h1, h2⟩ := workers_law S cuts hdraw sched hnd
    (fun i hi => by rw [hcut i (by have := (hmem i).1 hi; omega)]; exact hq) (fun _ => id) fun _ => MeasurePreserving.id _
  obtain ⟨Y₀, next, h3, -, h5⟩ := drawsLaw_parts S (hdraw (cuts.getD (cores - 1) 0) (by omega))
  refine ⟨fun i => cuts.getD i 0, fun i => if h : i = cores - 1 then fun ω => h ▸ Y₀ ω else Y i, hcut, hlast,
    fun i hi => ?_, ?_⟩
  · by_cases h : i = cores - 1
    · subst h
      simp only [dif_pos]
      exact h3
    · simp only [h, dif_neg, not_false_eq_true]
      exact h1 i ((hmem i).2 (by omega))
  · filter_upwards [h2, h5] with ω hω hω'
    obtain ⟨own, ho, hR⟩ := hω'
    have hw : ∀ i, ∃ z, i + 1 < cores → runWorkers E d cuts none none sched (fun _ => ⟨ω, left⟩) tmp i = some z ∧
        Reads _ z (Y i ω) := fun i => by
      by_cases hi : i + 1 < cores
      · obtain ⟨z, hz⟩ := hω tmp i ((hmem i).2 (by omega))
        exact ⟨z, fun _ => hz⟩
      · exact ⟨own, fun h => absurd h hi⟩
    choose b hb using hw
    obtain ⟨z, m', hz, -, hR'⟩ := sampleCores_of_batches E sched hc d (by omega : n ≠ 0) hcuts
      ⟨⟨ω, left⟩, tmp⟩ ho (fun i => if i = cores - 1 then own else b i) (by simp)
      (fun i hi => by
        have : i ≠ cores - 1 := by omega
        simp only [this, if_false]
        exact (hb i hi).1)
      (fun i => List.ofFn (if h : i = cores - 1 then (h ▸ Y₀ ω : Fin (cuts.getD i 0) → ℝ) else Y i ω))
      (fun i hi => by
        by_cases h : i = cores - 1
        · subst h
          simpa using hR.2
        · simp only [h, if_false, dif_neg, not_false_eq_true]
          exact (hb i (by omega)).2.2)
    refine ⟨z, m', hz, ?_⟩
    convert hR' using 4 with i
    by_cases h : i = cores - 1
    · subst h; simp
    · simp [h]

end

end Verif
