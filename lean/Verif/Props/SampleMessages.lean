import Verif.Model.SampleMessages
import Verif.Lemmas.DemoGen

/-!
# What `sample(..., verbose=True)` prints about its caches (C140)
-/

namespace Verif

variable {σ K : Type} [Field K] [LinearOrder K] [FloorRing K]

/-- **C140**: `verbose` changes neither what `sample` returns nor the caches, files and generator it leaves behind. -/
theorem C140_sample_same (E : Env σ K) (key : Obj (St σ K) K → String) (verbose : Option Bool) (o : CacheOpts)
    (d : Obj (St σ K) K) (n : ℕ) (lc rc : Option (Scalar K)) (c : CSt σ K) :
    (cachedSampleV E key verbose o d n lc rc c).1 = cachedSample E key o d n lc rc c := by
  unfold cachedSampleV cachedSample
  by_cases hn : n = 0
  · rw [if_pos hn, if_pos hn]
  · rw [if_neg hn, if_neg hn]
    have ho : ∀ e, loadCached o (key d) c = .error e → obtain? E o (key d) d n lc rc c = (.error e, c) := by
      intro e he
      unfold obtain?
      rw [he]
    rcases hl : loadCached o (key d) c with e | z
    · rw [ho e hl]
    · simp only
      rcases obtain? E o (key d) d n lc rc c with ⟨e | w, c'⟩ <;> rfl

/-- **C140**: nothing is printed with `verbose=False`, nor by default for less than a million samples. -/
theorem C140_sample_silent (E : Env σ K) (key : Obj (St σ K) K → String) (verbose : Option Bool) (o : CacheOpts)
    (d : Obj (St σ K) K) (n : ℕ) (lc rc : Option (Scalar K)) (c : CSt σ K)
    (h : verbose = some false ∨ verbose = none ∧ n < 1000000) : (cachedSampleV E key verbose o d n lc rc c).2 = [] := by
  have hv : resolveVerbose verbose n = false := by
    rcases h with rfl | ⟨rfl, h⟩
    · rfl
    · simp [resolveVerbose, h]
  unfold cachedSampleV
  simp only [hv, Bool.false_eq_true, if_false, ite_self, List.append_nil]
  repeat' (first | rfl | split)

/-- Whether a line is about sampling with several cores. -/
def SMsg.part : SMsg → ℕ
  | .fileMissing _ => 0
  | .loadingFile _ => 0
  | .loadingMemory => 0
  | .cachingMemory => 2
  | .writingFile _ => 2
  | .cached => 2
  | _ => 1

theorem loadLines_part (o : CacheOpts) (key : String) (c : CSt σ K) : ∀ m ∈ loadLines o key c, m.part = 0 := by
  unfold loadLines
  intro m hm
  rcases List.mem_append.1 hm with hm | hm
  · split at hm
    · split_ifs at hm <;> simp_all [SMsg.part]
    · simp at hm
  · split at hm
    · split at hm
      · cases List.mem_singleton.1 hm
        rfl
      · split at hm
        · cases List.mem_singleton.1 hm
          rfl
        · simp at hm
    · simp at hm

theorem coreLines_part (E : Env σ K) (o : CacheOpts) (d : Obj (St σ K) K) (n : ℕ) (lc rc : Option (Scalar K))
    (m : MSt σ K) : ∀ x ∈ coreLines E o d n lc rc m, x.part = 1 := by
  unfold coreLines
  simp only
  repeat' split
  all_goals simp [SMsg.part]

theorem saveLines_part (o : CacheOpts) (had : Bool) : ∀ m ∈ saveLines o had, m.part = 2 := by
  unfold saveLines
  intro m hm
  rcases List.mem_append.1 hm with hm | hm
  · split_ifs at hm <;> simp_all [SMsg.part]
    rcases hm with rfl | rfl <;> rfl
  · split at hm <;> simp_all [SMsg.part]
    rcases hm with rfl | rfl <;> rfl

/-- The course of a call that prints: `fresh` tells whether samples are drawn. -/
theorem cachedSampleV_lines (E : Env σ K) (key : Obj (St σ K) K → String) (verbose : Option Bool) (o : CacheOpts)
    (d : Obj (St σ K) K) (n : ℕ) (lc rc : Option (Scalar K)) (c : CSt σ K) (hn : n ≠ 0)
    (hv : resolveVerbose verbose n = true) :
    ∃ t2 t3, (cachedSampleV E key verbose o d n lc rc c).2 = loadLines o (key d) c ++ t2 ++ t3 ∧
      (∀ m ∈ t2, m.part = 1) ∧
      ((cachedSample E key o d n lc rc c).1.isOk = true → t3 = saveLines o (c.mem (key d)).isSome) ∧
      ((cachedSample E key o d n lc rc c).1.isOk = false → t3 = []) := by
  unfold cachedSampleV cachedSample
  rw [if_neg hn, if_neg hn]
  simp only [hv, if_true]
  have ho : ∀ e, loadCached o (key d) c = .error e → obtain? E o (key d) d n lc rc c = (.error e, c) := by
    intro e he
    unfold obtain?
    rw [he]
  rcases hl : loadCached o (key d) c with e | z
  · rw [ho e hl]
    refine ⟨[], [], by simp, by simp, fun h => ?_, fun _ => rfl⟩
    simp [Except.isOk, Except.toBool] at h
  · simp only
    rcases obtain? E o (key d) d n lc rc c with ⟨e | w, c'⟩
    · refine ⟨_, [], by rw [List.append_nil], ?_, fun h => by simp [Except.isOk, Except.toBool] at h, fun _ => rfl⟩
      split_ifs
      · exact coreLines_part E o d n lc rc c.inner
      · simp
    · refine ⟨_, _, rfl, ?_, fun _ => rfl, fun h => by simp [Except.isOk, Except.toBool] at h⟩
      split_ifs
      · exact coreLines_part E o d n lc rc c.inner
      · simp

theorem cachedSample_saved (E : Env σ K) (key : Obj (St σ K) K → String) (o : CacheOpts)
    (d : Obj (St σ K) K) (n : ℕ) (lc rc : Option (Scalar K)) (c : CSt σ K) :
    (∀ z, (cachedSample E key o d n lc rc c).1 = .ok z →
      ∃ i, (cachedSample E key o d n lc rc c).2 = saveCaches o (key d) (c.mem (key d)).isSome z { c with inner := i }) ∧
    ((cachedSample E key o d n lc rc c).1.isOk = false → (cachedSample E key o d n lc rc c).2.mem = c.mem ∧
      (cachedSample E key o d n lc rc c).2.files = c.files) := by
  have ho : ∃ i, (obtain? E o (key d) d n lc rc c).2 = { c with inner := i } := by
    unfold obtain?
    repeat' split
    all_goals first
      | exact ⟨_, rfl⟩
      | exact ⟨c.inner, rfl⟩
  unfold cachedSample
  by_cases hn : n = 0
  · rw [if_pos hn]
    exact ⟨fun z h => (by cases h), fun _ => ⟨rfl, rfl⟩⟩
  · rw [if_neg hn]
    obtain ⟨i, hi⟩ := ho
    rcases e : obtain? E o (key d) d n lc rc c with ⟨x | w, c'⟩ <;> rw [e] at hi <;> dsimp only at hi <;> subst hi <;> dsimp only
    · exact ⟨fun z h => (by cases h), fun _ => ⟨rfl, rfl⟩⟩
    · exact ⟨fun z h => by cases h; exact ⟨i, rfl⟩, fun h => by cases h⟩

/-- **C140**: a cache in memory or a cache file changes only if this is printed, and if it is printed, the returned samples
are there. -/
theorem C140_sample_saved (E : Env σ K) (key : Obj (St σ K) K → String) (verbose : Option Bool) (o : CacheOpts)
    (d : Obj (St σ K) K) (n : ℕ) (lc rc : Option (Scalar K)) (c : CSt σ K) (hn : n ≠ 0)
    (hv : resolveVerbose verbose n = true) :
    let R := cachedSampleV E key verbose o d n lc rc c
    (∀ k, R.1.2.mem k ≠ c.mem k → k = key d ∧ .cachingMemory ∈ R.2) ∧
    (.cachingMemory ∈ R.2 → ∃ z, R.1.1 = .ok z ∧ R.1.2.mem (key d) = some z) ∧
    (∀ f, R.1.2.files f ≠ c.files f → o.dump = some f ∧ .writingFile f ∈ R.2) ∧
    (∀ f, .writingFile f ∈ R.2 → ∃ z, R.1.1 = .ok z ∧ R.1.2.files f = some z) := by
  intro R
  obtain ⟨t2, t3, e, h2, h3, h4⟩ := cachedSampleV_lines E key verbose o d n lc rc c hn hv
  obtain ⟨g1, g2⟩ := cachedSample_saved E key o d n lc rc c
  change R.2 = _ at e
  have hR : R.1 = cachedSample E key o d n lc rc c := C140_sample_same ..
  rw [← hR] at g1 g2 h3 h4
  have inj : ∀ m : SMsg, m.part = 2 → (m ∈ R.2 ↔ m ∈ t3) := by
    intro m hm
    rw [e]
    constructor
    · intro h
      rcases List.mem_append.1 h with h | h
      · rcases List.mem_append.1 h with h | h
        · have := loadLines_part _ _ _ m h
          omega
        · have := h2 m h
          omega
      · exact h
    · exact fun h => List.mem_append.2 (.inr h)
  rcases hr : R.1.1 with x | z <;> rw [hr] at g1 g2 h3 h4
  · obtain ⟨k1, k2⟩ := g2 rfl
    have := h4 rfl
    subst this
    rw [k1, k2]
    exact ⟨fun k hk => absurd rfl hk, fun h => absurd ((inj _ rfl).1 h) (by simp), fun k hk => absurd rfl hk,
      fun f h => absurd ((inj _ rfl).1 h) (by simp)⟩
  · obtain ⟨i, hi⟩ := g1 z rfl
    have := h3 rfl
    subst this
    have ht : ∀ g, truthyName o.dump = some g → o.dump = some g := by
      intro g
      unfold truthyName
      split
      · intro h; cases h
      · exact id
    rw [hi]
    refine ⟨fun k hk => ?_, fun h => ⟨z, rfl, ?_⟩, fun f hk => ?_, fun f h => ⟨z, rfl, ?_⟩⟩
    · rw [inj _ rfl]
      simp only [saveCaches] at hk
      by_cases hs : (o.memcache && (!(c.mem (key d)).isSome || o.reload)) = true
      · rw [if_pos hs] at hk
        refine ⟨by by_contra hne; simp [hne] at hk, ?_⟩
        simp only [saveLines]
        rw [if_pos hs]
        simp
      · rw [if_neg hs] at hk
        exact absurd rfl hk
    · have h := (inj _ rfl).1 h
      simp only [saveLines] at h
      rcases List.mem_append.1 h with h | h
      · split_ifs at h with hs
        · simp only [saveCaches]
          rw [if_pos hs]
          simp
        · simp at h
      · split at h <;> simp at h
    · rw [inj _ rfl]
      simp only [saveCaches] at hk
      rcases hd : truthyName o.dump with _ | g <;> rw [hd] at hk <;> simp only at hk
      · exact absurd rfl hk
      · have : f = g := by
          by_contra hne
          simp [hne] at hk
        subst this
        exact ⟨ht _ hd, by simp [saveLines, hd]⟩
    · have h := (inj _ rfl).1 h
      simp only [saveLines] at h
      rcases List.mem_append.1 h with h | h
      · split_ifs at h <;> simp at h
      · rcases hd : truthyName o.dump with _ | g <;> rw [hd] at h <;> simp at h
        subst h
        simp [saveCaches, hd]

/-- What the caches provide, read off the lines printed. -/
theorem loadLines_loaded (o : CacheOpts) (key : String) (c : CSt σ K) :
    (.loadingMemory ∈ loadLines o key c → ∃ m, c.mem key = some m ∧ loadCached o key c = .ok (some m)) ∧
    (∀ f, .loadingFile f ∈ loadLines o key c → o.load = some f ∧ ∃ z, c.files f = some z ∧
      loadCached o key c = (loadNpy z).map some) ∧
    (.loadingMemory ∉ loadLines o key c → (∀ f, .loadingFile f ∉ loadLines o key c) → loadCached o key c = .ok none) ∧
    (∀ f, .fileMissing f ∈ loadLines o key c ↔ o.load = some f ∧ f ≠ "" ∧ c.files f = none) := by
  have ht : ∀ g, truthyName o.load = some g ↔ o.load = some g ∧ g ≠ "" := by
    intro g
    unfold truthyName
    split
    · rename_i e
      rw [e]
      simp only [reduceCtorEq, Option.some.injEq, ne_eq, false_iff, not_and, not_not]
      exact fun h => h.symm
    · rename_i x h
      constructor
      · rintro e
        exact ⟨e, fun hg => h (by rw [e, hg])⟩
      · exact fun h => h.1
  unfold loadLines loadCached
  rcases hl : truthyName o.load with _ | g
  · have hno : ∀ f, ¬ (o.load = some f ∧ f ≠ "") := fun f h => by
      rw [← ht f, hl] at h
      cases h
    have hno' : ∀ f, ¬ (o.load = some f ∧ f ≠ "" ∧ c.files f = none) := fun f h => hno f ⟨h.1, h.2.1⟩
    rcases hm : c.mem key with _ | m <;> rcases hc : o.memcache with _ | _ <;> rcases hr : o.reload with _ | _ <;>
      simp [hno']
  · obtain ⟨h1, h2⟩ := (ht g).1 hl
    rcases hf : c.files g with _ | z <;> rcases hm : c.mem key with _ | m <;> rcases hc : o.memcache with _ | _ <;>
      rcases hr : o.reload with _ | _ <;> rcases hp : o.filePrimary with _ | _ <;> simp [h1, hf, hp, Option.filter]
    all_goals first
      | (intro f
         constructor
         · rintro rfl
           exact ⟨rfl, h2, hf⟩
         · exact fun h => h.1.symm)
      | (rcases loadNpy z with e | w <;> rfl)

/-- **C140**: the lines about caches being read are true.  "Loading from in-memory cache": the cached samples are returned
(with the bounds of this call) and nothing is sampled, unless the cache holds `None`.  "Loading from cache file f": f is the
file asked for, it exists, and its samples are returned (or the call raises); nothing is sampled.  Neither of them: the
samples are drawn.  The warning is printed exactly if a file was asked for and there is none. -/
theorem C140_sample_loading_partial (E : Env σ K) (key : Obj (St σ K) K → String) (verbose : Option Bool) (o : CacheOpts)
    (d : Obj (St σ K) K) (n : ℕ) (lc rc : Option (Scalar K)) (c : CSt σ K) (hn : n ≠ 0)
    (hv : resolveVerbose verbose n = true) :
    let R := cachedSampleV E key verbose o d n lc rc c
    (.loadingMemory ∈ R.2 → c.mem (key d) ≠ some (.scalar .none) →
      ∃ m, c.mem (key d) = some m ∧ R.1.1 = applyClips E.powf lc rc m ∧ R.1.2.inner = c.inner) ∧
    (∀ f, .loadingFile f ∈ R.2 → o.load = some f ∧ ∃ z, c.files f = some z ∧
      R.1.1 = (loadNpy z).bind (applyClips E.powf lc rc) ∧ R.1.2.inner = c.inner) ∧
    (.loadingMemory ∉ R.2 → (∀ f, .loadingFile f ∉ R.2) →
      R.1.1 = (sampleCores E o.sched o.cores d n lc rc c.inner).1 ∧
      R.1.2.inner = (sampleCores E o.sched o.cores d n lc rc c.inner).2) ∧
    (∀ f, .fileMissing f ∈ R.2 ↔ o.load = some f ∧ f ≠ "" ∧ c.files f = none) := by
  intro R
  obtain ⟨t2, t3, e, h2, h3, h4⟩ := cachedSampleV_lines E key verbose o d n lc rc c hn hv
  obtain ⟨g1, g2, g3, g4⟩ := loadLines_loaded o (key d) c
  change R.2 = _ at e
  have hR : R.1 = cachedSample E key o d n lc rc c := C140_sample_same ..
  have h3' : ∀ m ∈ t3, m.part = 2 := by
    rcases hk : (cachedSample E key o d n lc rc c).1.isOk with _ | _
    · rw [h4 hk]
      simp
    · rw [h3 hk]
      exact saveLines_part _ _
  have inj : ∀ m : SMsg, m.part = 0 → (m ∈ R.2 ↔ m ∈ loadLines o (key d) c) := by
    intro m hm
    rw [e]
    constructor
    · intro h
      rcases List.mem_append.1 h with h | h
      · rcases List.mem_append.1 h with h | h
        · exact h
        · have := h2 m h
          omega
      · have := h3' m h
        omega
    · exact fun h => List.mem_append.2 (.inl (List.mem_append.2 (.inl h)))
  have hsave : ∀ z c', (saveCaches o (key d) (c.mem (key d)).isSome z c' : CSt σ K).inner = c'.inner := fun _ _ => rfl
  -- cached samples
  have hcached : ∀ z, z ≠ .scalar .none → loadCached o (key d) c = .ok (some z) →
      R.1.1 = applyClips E.powf lc rc z ∧ R.1.2.inner = c.inner := by
    intro z hz hl
    rw [hR]
    have : obtain? E o (key d) d n lc rc c = (applyClips E.powf lc rc z, c) := by
      unfold obtain?
      rw [hl]
      rcases z with v | vs
      · simp only
        rw [if_neg (fun h => hz (by rw [h]))]
      · rfl
    unfold cachedSample
    rw [if_neg hn, this]
    rcases applyClips E.powf lc rc z with x | w
    · exact ⟨rfl, rfl⟩
    · exact ⟨rfl, hsave _ _⟩
  refine ⟨fun h hne => ?_, fun f h => ?_, fun h h' => ?_, fun f => ?_⟩
  · obtain ⟨m, e1, e2⟩ := g1 ((inj _ rfl).1 h)
    exact ⟨m, e1, hcached m (fun hm => hne (by rw [e1, hm])) e2⟩
  · obtain ⟨e0, z, e1, e2⟩ := g2 f ((inj _ rfl).1 h)
    refine ⟨e0, z, e1, ?_⟩
    by_cases hz : z.toList.any (fun v => decide (v.dt = .obj)) = true
    · have hz' : loadNpy z = .error .valueError := by
        unfold loadNpy
        rw [if_pos hz]
      rw [hz'] at e2 ⊢
      rw [hR]
      have : obtain? E o (key d) d n lc rc c = (.error .valueError, c) := by
        unfold obtain?
        rw [e2]
        rfl
      unfold cachedSample
      rw [if_neg hn, this]
      exact ⟨rfl, rfl⟩
    · have hz' : loadNpy z = .ok z := by
        unfold loadNpy
        rw [if_neg hz]
      rw [hz'] at e2 ⊢
      refine hcached z (fun h => ?_) e2
      subst h
      exact hz rfl
  · have hl := g3 (fun hm => h ((inj _ rfl).2 hm)) fun f hm => h' f ((inj _ rfl).2 hm)
    rw [hR]
    have : obtain? E o (key d) d n lc rc c = ((sampleCores E o.sched o.cores d n lc rc c.inner).1,
        { c with inner := (sampleCores E o.sched o.cores d n lc rc c.inner).2 }) := by
      unfold obtain?
      rw [hl]
    unfold cachedSample
    rw [if_neg hn, this]
    rcases sampleCores E o.sched o.cores d n lc rc c.inner with ⟨x | w, s'⟩
    · exact ⟨rfl, rfl⟩
    · exact ⟨rfl, hsave _ _⟩
  · rw [inj _ rfl]
    exact g4 f

/-- Are samples drawn in this call (samplers.py:1010, 1057)? -/
def DrawsNow (o : CacheOpts) (key : String) (c : CSt σ K) : Prop :=
  loadCached o key c = .ok none ∨ loadCached o key c = .ok (some (.scalar .none))

/-- The lines about several cores are those of `coreLines`, if samples are drawn. -/
theorem cachedSampleV_core (E : Env σ K) (key : Obj (St σ K) K → String) (verbose : Option Bool) (o : CacheOpts)
    (d : Obj (St σ K) K) (n : ℕ) (lc rc : Option (Scalar K)) (c : CSt σ K) (hn : n ≠ 0)
    (hv : resolveVerbose verbose n = true) :
    let R := cachedSampleV E key verbose o d n lc rc c
    (DrawsNow o (key d) c → (∃ t3, R.2 = loadLines o (key d) c ++ coreLines E o d n lc rc c.inner ++ t3 ∧
      ∀ m ∈ t3, m.part = 2) ∧ (R.1.1.isOk = true → (sampleCores E o.sched o.cores d n lc rc c.inner).1.isOk = true)) ∧
    (¬ DrawsNow o (key d) c → (∃ t3, R.2 = loadLines o (key d) c ++ t3 ∧ ∀ m ∈ t3, m.part = 2) ∧
      R.1.2.inner = c.inner) := by
  intro R
  have hR : R = cachedSampleV E key verbose o d n lc rc c := rfl
  unfold cachedSampleV at hR
  rw [if_neg hn] at hR
  simp only [hv, if_true] at hR
  constructor
  · intro hd
    have hob : obtain? E o (key d) d n lc rc c = ((sampleCores E o.sched o.cores d n lc rc c.inner).1,
        { c with inner := (sampleCores E o.sched o.cores d n lc rc c.inner).2 }) := by
      unfold obtain?
      rcases hd with h | h <;> rw [h] <;> simp
    rw [hob] at hR
    rcases hd with h | h <;> rw [h] at hR <;> simp only [if_true, decide_true] at hR <;>
      rcases hs : (sampleCores E o.sched o.cores d n lc rc c.inner).1 with e | w <;> rw [hs] at hR <;>
      simp only at hR <;> rw [hR]
    · exact ⟨⟨[], by simp, by simp⟩, fun h => by simp [Except.isOk, Except.toBool] at h⟩
    · exact ⟨⟨_, rfl, saveLines_part _ _⟩, fun _ => rfl⟩
    · exact ⟨⟨[], by simp, by simp⟩, fun h => by simp [Except.isOk, Except.toBool] at h⟩
    · exact ⟨⟨_, rfl, saveLines_part _ _⟩, fun _ => rfl⟩
  · intro hd
    rcases hl : loadCached o (key d) c with e | z
    · rw [hl] at hR
      rw [hR]
      exact ⟨⟨[], by simp, by simp⟩, rfl⟩
    · rw [hl] at hR
      rcases z with _ | z
      · exact absurd (.inl hl) hd
      · have hz : z ≠ .scalar .none := fun h => hd (.inr (by rw [hl, h]))
        have hob : obtain? E o (key d) d n lc rc c = (applyClips E.powf lc rc z, c) := by
          unfold obtain?
          rw [hl]
          rcases z with v | vs
          · simp only
            rw [if_neg (fun h => hz (by rw [h]))]
          · rfl
        rw [hob] at hR
        simp only [hz, decide_false, Bool.false_eq_true, if_false] at hR
        rcases ha : applyClips E.powf lc rc z with e | w <;> rw [ha] at hR <;> simp only at hR <;> rw [hR]
        · exact ⟨⟨[], by simp, by simp⟩, rfl⟩
        · exact ⟨⟨_, by rw [List.append_nil], saveLines_part _ _⟩, rfl⟩

/-- **C140**: the lines about several cores are true.  "Generating samples with k cores" is printed exactly if samples are
drawn and more than one core was asked for, and `k` is that number; without it nothing is drawn by several cores (nothing
at all if several were asked for).  When the call returns, "Collecting data..." was followed up by "...Collected!". -/
theorem C140_sample_cores (E : Env σ K) (key : Obj (St σ K) K → String) (verbose : Option Bool) (o : CacheOpts)
    (d : Obj (St σ K) K) (n : ℕ) (lc rc : Option (Scalar K)) (c : CSt σ K) (hn : n ≠ 0)
    (hv : resolveVerbose verbose n = true) :
    let R := cachedSampleV E key verbose o d n lc rc c
    (∀ k, .generatingCores k ∈ R.2 → k = o.cores ∧ 1 < k) ∧
    (.generatingCores o.cores ∉ R.2 → 1 < o.cores → R.1.2.inner = c.inner) ∧
    (∀ k f, .generatingCores k ∈ R.2 → .loadingFile f ∉ R.2) ∧
    (R.1.1.isOk = true → R.2.count .collecting = R.2.count .collected) := by
  intro R
  obtain ⟨hA, hB⟩ := cachedSampleV_core E key verbose o d n lc rc c hn hv
  change (DrawsNow o (key d) c → (∃ t3, R.2 = _ ∧ _) ∧ _) at hA
  change (_ → (∃ t3, R.2 = _ ∧ _) ∧ R.1.2.inner = _) at hB
  have h0 := loadLines_part o (key d) c
  have hc1 : ∀ k, SMsg.generatingCores k ∈ coreLines E o d n lc rc c.inner ↔ k = o.cores ∧ 1 < o.cores := by
    intro k
    unfold coreLines
    by_cases h : o.cores > 1
    · rw [if_pos h]
      simp only [h, gt_iff_lt, and_true]
      repeat' split
      all_goals simp
      all_goals (try split)
      all_goals simp
    · rw [if_neg h]
      simp only [List.not_mem_nil, false_iff, not_and]
      exact fun _ => h
  have hcnt : ∀ (l : List SMsg) (i : ℕ) (m : SMsg), (∀ x ∈ l, x.part = i) → m.part ≠ i → l.count m = 0 := by
    intro l i m h hm
    exact List.count_eq_zero.2 fun hx => hm (h m hx)
  by_cases hd : DrawsNow o (key d) c
  · obtain ⟨⟨t3, e, h3⟩, hok⟩ := hA hd
    have hgen : ∀ k, SMsg.generatingCores k ∈ R.2 ↔ k = o.cores ∧ 1 < o.cores := by
      intro k
      rw [e, List.mem_append, List.mem_append, hc1]
      constructor
      · rintro ((h | h) | h)
        · exact absurd (h0 _ h) (by simp [SMsg.part])
        · exact h
        · exact absurd (h3 _ h) (by simp [SMsg.part])
      · exact fun h => .inl (.inr h)
    refine ⟨fun k h => ?_, fun h h' => absurd ((hgen _).2 ⟨rfl, h'⟩) h, fun k f _ h => ?_, fun h => ?_⟩
    · obtain ⟨e1, e2⟩ := (hgen k).1 h
      exact ⟨e1, e1 ▸ e2⟩
    · rw [e, List.mem_append, List.mem_append] at h
      rcases h with (h | h) | h
      · obtain ⟨-, z, -, hz⟩ := (loadLines_loaded o (key d) c).2.1 f h
        unfold loadNpy at hz
        by_cases hb : z.toList.any (fun v => decide (v.dt = .obj)) = true
        · rw [if_pos hb] at hz
          rcases hd with h | h <;> rw [h] at hz <;> cases hz
        · rw [if_neg hb] at hz
          rcases hd with h | h <;> rw [h] at hz <;> cases hz
          exact hb rfl
      · exact absurd (coreLines_part E o d n lc rc c.inner _ h) (by simp [SMsg.part])
      · exact absurd (h3 _ h) (by simp [SMsg.part])
    · have hs := hok h
      rw [e]
      simp only [List.count_append]
      rw [hcnt _ 0 _ h0 (by simp [SMsg.part]), hcnt _ 0 _ h0 (by simp [SMsg.part]), hcnt _ 2 _ h3 (by simp [SMsg.part]),
        hcnt _ 2 _ h3 (by simp [SMsg.part])]
      unfold sampleCores multicoreSample at hs
      rw [if_neg hn] at hs
      unfold coreLines
      by_cases hcores : o.cores > 1
      · rw [if_pos hcores] at hs ⊢
        revert hs
        rcases coreCuts n o.cores with er | cuts
        · exact fun _ => rfl
        · simp only
          rcases sampleObj E d (cuts.getD (o.cores - 1) 0) lc rc c.inner.inner with ⟨er | z, s'⟩
          · exact fun _ => rfl
          · simp only
            generalize collectFiles E.fmt (List.range o.cores) [] _ = q
            rcases q with ⟨er | z, s'⟩
            · intro hs
              simp [Except.isOk, Except.toBool] at hs
            · exact fun _ => rfl
      · rw [if_neg hcores]
        rfl
  · obtain ⟨⟨t3, e, h3⟩, hin⟩ := hB hd
    have hno : ∀ m : SMsg, m.part = 1 → m ∉ R.2 := by
      intro m hm h
      rw [e, List.mem_append] at h
      rcases h with h | h
      · have := h0 _ h
        omega
      · have := h3 _ h
        omega
    refine ⟨fun k h => absurd h (hno _ rfl), fun _ _ => hin, fun k f h => absurd h (hno _ rfl), fun _ => ?_⟩
    rw [List.count_eq_zero.2 (hno _ rfl), List.count_eq_zero.2 (hno _ rfl)]

/-- **C140** fails for a cached `None` (the value of a model function that returns `None`): it is announced that the cache is
used, but the function is called again. -/
theorem C140_sample_loading_fails :
    let d : Obj (St ℕ ℚ) ℚ := .call (fun _ => none) (fun _ => .lit .none) (fun s => { s with rng := s.rng + 1 })
    let c : CSt ℕ ℚ := ⟨⟨demoSt 0, fun _ => none⟩, fun _ => none, fun _ => none⟩
    let first := cachedSampleV demoEnv (fun _ => "f") (some true) { memcache := true } d 1 none none c
    let second := cachedSampleV demoEnv (fun _ => "f") (some true) { memcache := true } d 1 none none first.1.2
    first.2 = [.cachingMemory, .cached] ∧ second.2 = [.loadingMemory] ∧
      first.1.2.inner.inner.rng = 1 ∧ second.1.2.inner.inner.rng = 2 := by
  refine ⟨?_, ?_, ?_, ?_⟩ <;> decide +kernel

/-- A case of `C140_sample_saved` and `C140_sample_loading_partial`: a call that writes a file and fills the cache, one that
uses the cache, one that reads the file, and one that looks for a file that is not there. -/
example :
    let d : Obj (St ℕ ℚ) ℚ := .lit (.int 7)
    let c : CSt ℕ ℚ := ⟨⟨demoSt 0, fun _ => none⟩, fun _ => none, fun _ => none⟩
    let first := cachedSampleV demoEnv (fun _ => "7") (some true) { memcache := true, dump := some "a.npy" } d 1 none none c
    let second := cachedSampleV demoEnv (fun _ => "7") (some true) { memcache := true } d 1 none none first.1.2
    let third := cachedSampleV demoEnv (fun _ => "7") (some true) { load := some "a.npy", filePrimary := true } d 1 none none first.1.2
    let fourth := cachedSampleV demoEnv (fun _ => "7") (some true) { load := some "b.npy" } d 1 none none c
    first.2 = [.cachingMemory, .cached, .writingFile "a.npy", .cached] ∧
      second.2 = [.loadingMemory] ∧ third.2 = [.loadingFile "a.npy"] ∧ fourth.2 = [.fileMissing "b.npy"] := by
  refine ⟨?_, ?_, ?_, ?_⟩ <;> decide +kernel

end Verif
