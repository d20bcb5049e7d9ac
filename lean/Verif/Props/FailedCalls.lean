import Verif.Props.Multicore
import Verif.Props.BayesnetFiles

/-! # C156: when a call fails -/

namespace Verif

set_option linter.unusedSectionVars false

section
variable {σ K : Type} [Field K] [LinearOrder K] [FloorRing K]

/-! ## Helper lemmas -/

/-- If every task succeeds, what was in the directory before does not matter for the files of the pool. -/
theorem runWorkers_overwrite (E : Env σ K) (d : Obj (St σ K) K) (cuts : List ℕ)
    (lc rc : Option (Scalar K)) (sched : Sched)
    (hok : ∀ i ∈ sched.map Prod.snd, ∀ s, ∃ z s', sampleObj E d (cuts.getD i 0) lc rc s = (.ok z, s')) :
    ∀ (procs : ℕ → St σ K) (tmp tmp' : ℕ → Option (Samples K)), ∀ i ∈ sched.map Prod.snd,
      runWorkers E d cuts lc rc sched procs tmp i = runWorkers E d cuts lc rc sched procs tmp' i := by
  induction sched with
  | nil => intro procs tmp tmp' i hi; cases hi
  | cons a rest ih =>
    obtain ⟨p, core⟩ := a
    intro procs tmp tmp' i hi
    obtain ⟨z, s', hz⟩ := hok core (by simp) (procs p)
    have ho : ∃ s2, onCopy (sampleObj E d (cuts.getD core 0) lc rc) (procs p) = (.ok z, s2) :=
      ⟨_, by unfold onCopy; rw [hz]⟩
    obtain ⟨s2, ho⟩ := ho
    have hrest : ∀ j ∈ rest.map Prod.snd, ∀ s, ∃ z s', sampleObj E d (cuts.getD j 0) lc rc s = (.ok z, s') :=
      fun j hj => hok j (by simp only [List.map_cons, List.mem_cons]; exact Or.inr hj)
    simp only [runWorkers, workerStep, ho]
    by_cases hir : i ∈ rest.map Prod.snd
    · exact ih hrest _ _ _ i hir
    · rw [runWorkers_other E d cuts lc rc rest _ _ i hir, runWorkers_other E d cuts lc rc rest _ _ i hir]
      have : i = core := by
        simp only [List.map_cons, List.mem_cons] at hi
        exact hi.resolve_right hir
      simp [this]

/-- If every task succeeds, every core of the pool leaves a file. -/
theorem runWorkers_some (E : Env σ K) (d : Obj (St σ K) K) (cuts : List ℕ)
    (lc rc : Option (Scalar K)) (sched : Sched)
    (hok : ∀ i ∈ sched.map Prod.snd, ∀ s, ∃ z s', sampleObj E d (cuts.getD i 0) lc rc s = (.ok z, s')) :
    ∀ (procs : ℕ → St σ K) (tmp : ℕ → Option (Samples K)), ∀ i,
      (i ∈ sched.map Prod.snd ∨ (tmp i).isSome) →
      (runWorkers E d cuts lc rc sched procs tmp i).isSome := by
  induction sched with
  | nil =>
    intro procs tmp i hi
    rcases hi with hi | hi
    · cases hi
    · exact hi
  | cons a rest ih =>
    obtain ⟨p, core⟩ := a
    intro procs tmp i hi
    obtain ⟨z, s', hz⟩ := hok core (by simp) (procs p)
    have ho : ∃ s2, onCopy (sampleObj E d (cuts.getD core 0) lc rc) (procs p) = (.ok z, s2) :=
      ⟨_, by unfold onCopy; rw [hz]⟩
    obtain ⟨s2, ho⟩ := ho
    simp only [runWorkers, workerStep, ho]
    refine ih (fun j hj => hok j (by simp only [List.map_cons, List.mem_cons]; exact Or.inr hj)) _ _ i ?_
    by_cases hic : i = core
    · right; simp [hic]
    · simp only [List.map_cons, List.mem_cons, hic, false_or] at hi
      simpa [hic] using hi

/-- Collecting looks only at the files it collects. -/
theorem collectFiles_congr (fmt : Scalar K → String) : ∀ (l : List ℕ) (acc : List (Scalar K))
    (tmp tmp' : ℕ → Option (Samples K)), (∀ i ∈ l, tmp i = tmp' i) →
    (collectFiles fmt l acc tmp).1 = (collectFiles fmt l acc tmp').1
  | [], _, _, _, _ => rfl
  | core :: rest, acc, tmp, tmp', h => by
    simp only [collectFiles]
    rw [← h core (by simp)]
    cases tmp core with
    | none => rfl
    | some z =>
      refine collectFiles_congr fmt rest _ _ _ fun i hi => ?_
      split_ifs
      · rfl
      · exact h i (by simp [hi])

/-- If all files are there, collecting succeeds and removes them. -/
theorem collectFiles_total (fmt : Scalar K → String) : ∀ (l : List ℕ) (acc : List (Scalar K))
    (tmp : ℕ → Option (Samples K)), l.Nodup → (∀ i ∈ l, (tmp i).isSome) →
    ∃ xs, collectFiles fmt l acc tmp = (.ok xs, fun i => if i ∈ l then none else tmp i)
  | [], acc, tmp, _, _ => ⟨acc, by simp [collectFiles]⟩
  | core :: rest, acc, tmp, hnd, h => by
    obtain ⟨hn1, hn2⟩ := List.nodup_cons.1 hnd
    obtain ⟨z, hz⟩ := Option.isSome_iff_exists.1 (h core (by simp))
    obtain ⟨xs, hxs⟩ := collectFiles_total fmt rest (npConcat fmt acc z.toList)
      (fun i => if i = core then none else tmp i) hn2 (fun i hi => by
        have : i ≠ core := fun h => hn1 (h ▸ hi)
        simpa [this] using h i (by simp [hi]))
    refine ⟨xs, ?_⟩
    simp only [collectFiles, hz, hxs, Prod.mk.injEq, true_and]
    funext i
    by_cases hi : i = core
    · simp [hi]
    · simp [hi]

theorem collectFiles_error (fmt : Scalar K → String) : ∀ (l : List ℕ) (acc : List (Scalar K))
    (tmp tmp' : ℕ → Option (Samples K)) (e : PyErr), collectFiles fmt l acc tmp = (.error e, tmp') →
    e = .fileNotFoundError
  | [], _, _, _, _, h => by cases h
  | core :: rest, acc, tmp, tmp', e, h => by
    simp only [collectFiles] at h
    cases hc : tmp core with
    | none =>
      rw [hc] at h
      simp only [Prod.mk.injEq, Except.error.injEq] at h
      exact h.1.symm
    | some z =>
      rw [hc] at h
      exact collectFiles_error fmt rest _ _ _ e h

/-! ## The caches -/

/-- **C156.** A call of `sample` that raises – whatever it raises, with any options and any number of cores – leaves the
memory cache and the cache files as they were. -/
theorem C156_caches (E : Env σ K) (key : Obj (St σ K) K → String) (o : CacheOpts) (d : Obj (St σ K) K)
    (n : ℕ) (lc rc : Option (Scalar K)) (c c' : CSt σ K) (e : PyErr)
    (h : cachedSample E key o d n lc rc c = (.error e, c')) : c'.mem = c.mem ∧ c'.files = c.files := by
  have hob : (obtain? E o (key d) d n lc rc c).2.mem = c.mem ∧
      (obtain? E o (key d) d n lc rc c).2.files = c.files := by
    unfold obtain?
    split
    · exact ⟨rfl, rfl⟩
    · split
      · exact ⟨rfl, rfl⟩
      · split_ifs <;> exact ⟨rfl, rfl⟩
      · exact ⟨rfl, rfl⟩
  unfold cachedSample at h
  split_ifs at h
  · cases h; exact ⟨rfl, rfl⟩
  · split at h
    · rename_i e' c1 hc1
      cases h
      rw [hc1] at hob
      exact hob
    · cases h

/-- **C156.** Hence any number of failed calls in a row changes nothing in the caches. -/
theorem C156_history (E : Env σ K) (key : Obj (St σ K) K → String) :
    ∀ (ops : List (CacheOp σ K)) (c : CSt σ K),
      (∀ op ∈ ops, ∀ c0, ∃ e c1, op.run E key c0 = (.error e, c1)) →
      (runCache E key ops c).mem = c.mem ∧ (runCache E key ops c).files = c.files
  | [], _, _ => ⟨rfl, rfl⟩
  | op :: ops, c, h => by
    obtain ⟨e, c1, h1⟩ := h op (by simp) c
    have h2 := C156_caches E key op.opts op.d op.n op.lc op.rc c c1 e h1
    have h3 := C156_history E key ops c1 (fun op' hop => h op' (by simp [hop]))
    simp only [runCache, h1]
    exact ⟨h3.1.trans h2.1, h3.2.trans h2.2⟩

/-! ## Several cores -/

/-- **C156.** Left-over files of failed calls do not matter to a call with several cores whose own draws all work
(and that draws at least one sample per core): it returns what it would return in a clean directory, leaves the
generator in the same state, and removes the left-over files of its cores.  It touches no other files. -/
theorem C156_retry (E : Env σ K) (sched : Sched) (cores : ℕ) (hc : 2 ≤ cores) (hv : sched.Valid cores)
    (d : Obj (St σ K) K) (n : ℕ) (hn : cores ≤ n) (lc rc : Option (Scalar K))
    (hok : ∀ k, 1 ≤ k → ∀ s, ∃ z s', sampleObj E d k lc rc s = (.ok z, s'))
    (s : St σ K) (tmp : ℕ → Option (Samples K)) :
    (sampleCores E sched cores d n lc rc ⟨s, tmp⟩).1
      = (sampleCores E sched cores d n lc rc ⟨s, fun _ => none⟩).1 ∧
    (sampleCores E sched cores d n lc rc ⟨s, tmp⟩).2.inner
      = (sampleCores E sched cores d n lc rc ⟨s, fun _ => none⟩).2.inner ∧
    (sampleCores E sched cores d n lc rc ⟨s, tmp⟩).2.tmp = fun i => if i < cores then none else tmp i := by
  obtain ⟨cuts, q, last, hcuts, -⟩ := C24_cuts n cores (by omega)
  obtain ⟨-, -, hcut, hlast⟩ := coreCuts_getD hcuts
  have hpos : 1 ≤ n / cores := Nat.div_pos hn (by omega)
  have hm : ∀ i, i ∈ sched.map Prod.snd ↔ i < cores - 1 := fun i => by
    rw [List.Perm.mem_iff hv, List.mem_range]
  have hw : ∀ i ∈ sched.map Prod.snd, ∀ s, ∃ z s', sampleObj E d (cuts.getD i 0) lc rc s = (.ok z, s') := by
    intro i hi
    have := (hm i).1 hi
    rw [hcut i (by omega)]
    exact hok _ hpos
  obtain ⟨own, s', hown⟩ := hok (cuts.getD (cores - 1) 0) (by rw [hlast]; omega) s
  have hall : ∀ tmp : ℕ → Option (Samples K), ∀ i ∈ List.range cores,
      ((fun i => if i = cores - 1 then some own
        else runWorkers E d cuts lc rc sched (fun _ => s) tmp i) i).isSome := by
    intro tmp i hi
    rw [List.mem_range] at hi
    dsimp only
    split_ifs with h
    · rfl
    · exact runWorkers_some E d cuts lc rc sched hw _ _ i (Or.inl ((hm i).2 (by omega)))
  have hsame : ∀ i ∈ List.range cores,
      (fun i => if i = cores - 1 then some own
        else runWorkers E d cuts lc rc sched (fun _ => s) tmp i) i =
      (fun i => if i = cores - 1 then some own
        else runWorkers E d cuts lc rc sched (fun _ => s) (fun _ => none) i) i := by
    intro i hi
    rw [List.mem_range] at hi
    dsimp only
    split_ifs with h
    · rfl
    · exact runWorkers_overwrite E d cuts lc rc sched hw _ _ _ i ((hm i).2 (by omega))
  obtain ⟨xs, hx⟩ := collectFiles_total E.fmt (List.range cores) [] _ List.nodup_range (hall tmp)
  obtain ⟨ys, hy⟩ := collectFiles_total E.fmt (List.range cores) [] _ List.nodup_range (hall fun _ => none)
  have hxy : xs = ys := by
    have := collectFiles_congr E.fmt (List.range cores) [] _ _ hsame
    rw [hx, hy] at this
    exact Except.ok.inj this
  unfold sampleCores
  have hn0 : ¬ n = 0 := by omega
  have hc1 : cores > 1 := by omega
  simp only [hn0, hc1, if_false, if_true]
  unfold multicoreSample
  simp only [hcuts, hown, hx, hy]
  refine ⟨by rw [hxy], trivial, ?_⟩
  funext i
  simp only [List.mem_range]
  split_ifs with h1 h2
  · rfl
  · omega
  · exact runWorkers_other E d cuts lc rc sched _ _ i (fun h => by have := (hm i).1 h; omega)

/-- **C156 is false with several cores: an exception in a worker never reaches the caller.** Without bounds, whatever a
multi-core call raises is the exception of the parent's own draw, or `FileNotFoundError` because the file of some core
is missing. -/
theorem C156_swallowed_fails (E : Env σ K) (sched : Sched) (cores : ℕ) (hc : 2 ≤ cores)
    (d : Obj (St σ K) K) (n : ℕ) (hn : n ≠ 0) (m m' : MSt σ K) (e : PyErr)
    (h : sampleCores E sched cores d n none none m = (.error e, m')) :
    (∃ s', sampleObj E d (n / cores + n % cores) none none m.inner = (.error e, s')) ∨
      e = .fileNotFoundError := by
  obtain ⟨cuts, q, last, hcuts, -⟩ := C24_cuts n cores (by omega)
  obtain ⟨-, -, hcut, hlast⟩ := coreCuts_getD hcuts
  unfold sampleCores at h
  rw [if_neg hn, if_pos (by omega)] at h
  unfold multicoreSample at h
  rw [hcuts] at h
  dsimp only at h
  rw [hlast] at h
  split at h
  · rename_i e' s' hs
    simp only [Prod.mk.injEq, Except.error.injEq] at h
    exact Or.inl ⟨s', by rw [hs, h.1]⟩
  · split at h
    · rename_i hcol
      simp only [Prod.mk.injEq, Except.error.injEq] at h
      right
      rw [← h.1]
      exact collectFiles_error _ _ _ _ _ _ hcol
    · rw [applyClips_none] at h
      cases h

end

/-- A function that raises `ZeroDivisionError` at its second call and else returns the number of the call. -/
def demoFlaky : Obj (St ℕ ℚ) ℚ :=
  .call (fun s => if s.rng = 1 then some .zeroDivisionError else none) (fun s => .lit (.flt (s.rng : ℚ)))
    (fun s => { s with rng := s.rng + 1 })

/-- **C156 is false with several cores.** `sample(f, n=3)` raises what `f` raises; `sample(f, n=3, cores=3)` with one
worker process raises `FileNotFoundError` instead and leaves a file behind (and nothing in the caches). -/
theorem C156_worker_error_fails :
    (sampleCores demoEnv [(0, 0), (0, 1)] 1 demoFlaky 3 none none ⟨demoSt 0, fun _ => none⟩).1
      = .error .zeroDivisionError ∧
    (sampleCores demoEnv [(0, 0), (0, 1)] 3 demoFlaky 3 none none ⟨demoSt 0, fun _ => none⟩).1
      = .error .fileNotFoundError ∧
    (sampleCores demoEnv [(0, 0), (0, 1)] 3 demoFlaky 3 none none ⟨demoSt 0, fun _ => none⟩).2.tmp 2
      = some (.scalar (.flt 0)) := by
  refine ⟨?_, ?_, ?_⟩ <;> decide +kernel

/-- A second function: it fails in its third call and else returns 100. -/
def demoFlaky2 : Obj (St ℕ ℚ) ℚ :=
  .call (fun s => if s.rng = 3 then some .valueError else none) (fun _ => .lit (.flt 100))
    (fun s => { s with rng := s.rng + 1 })

/-- **C156 is false with several cores: a failed call can spoil a later one.** After the failed call of
`C156_worker_error_fails`, `sample(g, n=4, cores=4)` for another function `g`, one of whose calls raises, does not raise:
it returns a sample of the first function in the place of the missing one. -/
theorem C156_spoiled_fails :
    let m1 := (sampleCores demoEnv [(0, 0), (0, 1)] 3 demoFlaky 3 none none ⟨demoSt 0, fun _ => none⟩).2
    (sampleCores demoEnv [(0, 0), (0, 1), (0, 2)] 4 demoFlaky2 4 none none m1).1
      = .ok (.arr [.flt 100, .flt 100, .flt 0, .flt 100]) ∧
    (sampleCores demoEnv [(0, 0), (0, 1), (0, 2)] 4 demoFlaky2 4 none none ⟨m1.inner, fun _ => none⟩).1
      = .error .fileNotFoundError := by
  constructor <;> decide +kernel

/-! ## `bayesnet` -/

section
variable {S α ρ ρ' K : Type} [Field K]

/-- **C156.** If the events cannot be generated, `bayesnet` raises that exception and leaves the memory cache, the cache
files and all lists of events as they were – with any options and any number of cores. -/
theorem C156_bayes_events (E : BEnv S α) (o : BOpts) (g : ℕ) (n : ℤ) (q : Query α ρ K)
    (cond : Option (α → Except PyErr Bool)) (s s1 : BSt S α) (e : PyErr)
    (hnew : cachedEvents o (some g) n s = (.ok none, s))
    (h : generateEvents E o g n s = (.error e, s1)) :
    (bayesnet E o (some g) n q cond s).1 = .error e ∧
    (bayesnet E o (some g) n q cond s).2.mem = s.mem ∧
    (bayesnet E o (some g) n q cond s).2.files = s.files ∧
    (bayesnet E o (some g) n q cond s).2.lists = s.lists := by
  have hf : s1.mem = s.mem ∧ s1.files = s.files ∧ s1.lists = s.lists := by
    have : s1 = (generateEvents E o g n s).2 := by rw [h]
    rw [this]
    unfold generateEvents
    split_ifs
    · exact ⟨rfl, rfl, rfl⟩
    · split
      · exact ⟨rfl, rfl, rfl⟩
      · dsimp only
        split
        · exact ⟨rfl, rfl, rfl⟩
        · split
          · exact ⟨rfl, rfl, rfl⟩
          · exact ⟨rfl, rfl, rfl⟩
  unfold bayesnet
  rw [hnew]
  dsimp only
  rw [h]
  exact ⟨rfl, hf⟩

/-- **C156.** What a call of `bayesnet` leaves behind does not depend on the question: whether `conditional_on`, `find`
or `reduce_fn` raise or not, and whatever they compute, the memory cache, the cache files, the temporary files and the
state of the event function are the same after the call, and so is the list of events of every cached run. -/
theorem C156_bayes_question (E : BEnv S α) (o : BOpts) (fn : Option ℕ) (n : ℤ) (q : Query α ρ K)
    (q' : Query α ρ' K) (cond cond' : Option (α → Except PyErr Bool)) (s : BSt S α) (hwf : s.WF) :
    let r := (bayesnet E o fn n q cond s).2
    let r' := (bayesnet E o fn n q' cond' s).2
    r.mem = r'.mem ∧ r.files = r'.files ∧ r.tmp = r'.tmp ∧ r.inner = r'.inner ∧
      ∀ k e, r.mem k = some e → r.lists e.ref = r'.lists e.ref := by
  dsimp only
  rw [bayesnet_eq, bayesnet_eq]
  have hw := prepare_wf (E := E) (o := o) (fn := fn) (n := n) hwf
  rcases hp : prepareEvents E o fn n s with ⟨e | _ | ref, s1⟩
  · exact ⟨rfl, rfl, rfl, rfl, fun _ _ _ => rfl⟩
  · exact ⟨rfl, rfl, rfl, rfl, fun _ _ _ => rfl⟩
  · dsimp only
    have key : ∀ (ρ : Type) (q : Query α ρ K) (cond : Option (α → Except PyErr Bool)),
        (answerEvents q cond ref s1).2.mem = s1.mem ∧ (answerEvents q cond ref s1).2.files = s1.files ∧
        (answerEvents q cond ref s1).2.tmp = s1.tmp ∧ (answerEvents q cond ref s1).2.inner = s1.inner ∧
        ∀ i, i < s1.next → (answerEvents q cond ref s1).2.lists i = s1.lists i := by
      intro ρ q cond
      rcases answerEvents_frame q cond ref s1 with h | ⟨l, h⟩
      · rw [h]; exact ⟨rfl, rfl, rfl, rfl, fun _ _ => rfl⟩
      · rw [h]
        refine ⟨rfl, rfl, rfl, rfl, fun i hi => ?_⟩
        have : i ≠ s1.next := by omega
        simp [BSt.alloc, this]
    obtain ⟨a1, a2, a3, a4, a5⟩ := key ρ q cond
    obtain ⟨b1, b2, b3, b4, b5⟩ := key ρ' q' cond'
    refine ⟨a1.trans b1.symm, a2.trans b2.symm, a3.trans b3.symm, a4.trans b4.symm, fun k e hk => ?_⟩
    rw [a1] at hk
    have hlt : e.ref < s1.next := by
      rw [hp] at hw
      exact hw k e hk
    rw [a5 _ hlt, b5 _ hlt]

end

/-- Event function 0 raises in its second call; event function 1 always works. -/
def demoFlakyB : BEnv ℕ ℕ :=
  ⟨fun g k => if g = 0 ∧ k = 1 then (.error .zeroDivisionError, k + 1) else (.ok (k + 100 * g), k + 1), some⟩

/-- **C156 is false with several cores: a failed `bayesnet` call spoils the next one, even if nothing fails in it.**
`bayesnet(f, n=3, cores=3)` raises `FileNotFoundError` instead of the `ZeroDivisionError` of `f`; the following
`bayesnet(g, n=3, cores=3)` uses an event made by `f`. -/
theorem C156_bayes_spoiled_fails :
    let o : BOpts := { cores := 3, sched := [(0, 0), (0, 1)] }
    let r1 := bayesnet demoFlakyB o (some 0) 3 (.reduceEvents .ok : Query ℕ (List ℕ) ℚ) none (.fresh 0)
    let r2 := bayesnet demoFlakyB o (some 1) 3 (.reduceEvents .ok : Query ℕ (List ℕ) ℚ) none r1.2
    let r3 := bayesnet demoFlakyB o (some 1) 3 (.reduceEvents .ok : Query ℕ (List ℕ) ℚ) none
      { r1.2 with tmp := fun _ => none }
    (match r1.1 with | .error e => some e | .ok _ => none) = some .fileNotFoundError ∧
    (r2.1.toOption.bind fun r => match r with | .reduced l => some l | _ => none) = some [101, 102, 0] ∧
    (r3.1.toOption.bind fun r => match r with | .reduced l => some l | _ => none) = some [101, 102, 101] := by
  refine ⟨?_, ?_, ?_⟩ <;> decide +kernel

/-! ## Examples -/

/-- A failing call: ten samples of a function that raises in its second call; nothing is cached. -/
example : (cachedSample demoEnv (fun _ => "f") { memcache := true, dump := some "a" } demoFlaky 10 none none
    (demoC 0)).1 = .error .zeroDivisionError := by decide +kernel

/-- A distribution all of whose draws work, for `C156_retry`. -/
example : ∀ k, 1 ≤ k → ∀ s, ∃ z s', sampleObj demoEnv (demoConst 3) k none none s = (.ok z, s') := by
  intro k hk s
  have : k ≠ 0 := by omega
  refine ⟨constSamples (.int 3) k, s, ?_⟩
  simp [demoConst, sampleObj, withClips, rawObj, leafSample, SM.bind, SM.lift, SM.pure, this]
  rfl

/-- Events that cannot be made, for `C156_bayes_events`. -/
example : cachedEvents {} (some 0) 5 (.fresh 0 : BSt ℕ ℕ) = (.ok none, .fresh 0) ∧
    ∃ s1, generateEvents demoFlakyB {} 0 5 (.fresh 0) = (.error .zeroDivisionError, s1) :=
  ⟨rfl, _, rfl⟩

end Verif
