import Verif.Props.BayesnetFiles

/-!
# C27: a failed multi-core `bayesnet` run blocks all later ones

A batch that cannot be encoded leaves an empty temporary file.  Nothing ever removes it, and every later run
with at least as many cores stumbles over it.
-/

namespace Verif

set_option linter.unusedSectionVars false

variable {S α ρ K : Type} [Field K]

theorem writeBatch_trunc {codec : α → Option α} {core i : ℕ} {batch : List α}
    {tmp : ℕ → Option (FileOf (List α))} (h : tmp i = some .truncated) :
    (writeBatch codec core batch tmp).2 i = some .truncated := by
  by_cases hi : i = core
  · subst hi; simp [writeBatch, h]
  · rw [writeBatch_other hi, h]

theorem runEventWorkers_trunc {E : BEnv S α} {g i : ℕ} {cuts : List ℕ} :
    ∀ (sched : Sched) (procs : ℕ → S) (tmp : ℕ → Option (FileOf (List α))), tmp i = some .truncated →
      runEventWorkers E g cuts sched procs tmp i = some .truncated
  | [], _, _, h => h
  | (p, core) :: rest, procs, tmp, h => by
    simp only [runEventWorkers]
    rcases repeatEvent (E.event g) (cuts.getD core 0) (procs p) with ⟨e | batch, s'⟩
    · exact runEventWorkers_trunc rest _ _ h
    · exact runEventWorkers_trunc rest _ _ (writeBatch_trunc h)

theorem collectEvents_trunc {i : ℕ} : ∀ (l : List ℕ) (acc : List α) (tmp : ℕ → Option (FileOf (List α))),
    tmp i = some .truncated → (collectEvents l acc tmp).2 i = some .truncated ∧
      (i ∈ l → ∃ e, (collectEvents l acc tmp).1 = .error e)
  | [], _, _, h => ⟨h, fun hi => by simp at hi⟩
  | c :: l, acc, tmp, h => by
    simp only [collectEvents]
    cases hc : tmp c with
    | none => exact ⟨h, fun _ => ⟨_, rfl⟩⟩
    | some x =>
      cases x with
      | truncated => exact ⟨h, fun _ => ⟨_, rfl⟩⟩
      | good b =>
        have hic : i ≠ c := by rintro rfl; rw [h] at hc; cases hc
        obtain ⟨h1, h2⟩ := collectEvents_trunc (i := i) l (acc ++ b)
          (fun j => if j = c then none else tmp j) (by simp [hic, h])
        exact ⟨h1, fun hi => h2 ((List.mem_cons.1 hi).resolve_left hic)⟩

theorem generateEvents_trunc {E : BEnv S α} {o : BOpts} {g i : ℕ} {n : ℤ} {s : BSt S α}
    (h : s.tmp i = some .truncated) : (generateEvents E o g n s).2.tmp i = some .truncated ∧
      (2 ≤ o.cores → i < o.cores → ∃ e, (generateEvents E o g n s).1 = .error e) := by
  unfold generateEvents
  split_ifs with h1
  · exact ⟨h, fun h2 => by omega⟩
  cases hcuts : coreCuts n.toNat o.cores with
  | error e => exact ⟨h, fun _ _ => ⟨_, rfl⟩⟩
  | ok cuts =>
    have hw := runEventWorkers_trunc (E := E) (g := g) (cuts := cuts) o.sched (fun _ => s.inner) s.tmp h
    revert hw
    simp only
    generalize runEventWorkers E g cuts o.sched (fun _ => s.inner) s.tmp = tmp1
    intro hw
    rcases hr : repeatEvent (E.event g) (cuts.getD (o.cores - 1) 0) s.inner with ⟨e | batch, s'⟩
    · exact ⟨hw, fun _ _ => ⟨_, rfl⟩⟩
    · have hb := writeBatch_trunc (codec := E.codec) (core := o.cores - 1) (batch := batch) hw
      simp only
      rcases hwb : writeBatch E.codec (o.cores - 1) batch tmp1 with ⟨_ | _, tmp2⟩ <;> rw [hwb] at hb
      · exact ⟨hb, fun _ _ => ⟨_, rfl⟩⟩
      · obtain ⟨h2, h3⟩ := collectEvents_trunc (List.range o.cores) [] tmp2 hb
        exact ⟨h2, fun _ hi => h3 (List.mem_range.2 hi)⟩

theorem cachedEvents_tmp {o : BOpts} {fn : Option ℕ} {n : ℤ} {s : BSt S α} :
    (cachedEvents o fn n s).2.tmp = s.tmp := by
  unfold cachedEvents
  repeat' split
  all_goals rfl

theorem prepareEvents_trunc {E : BEnv S α} {o : BOpts} {fn : Option ℕ} {i : ℕ} {n : ℤ} {s : BSt S α}
    (h : s.tmp i = some .truncated) : (prepareEvents E o fn n s).2.tmp i = some .truncated := by
  have hs : ∀ had ref (s0 : BSt S α), s0.tmp i = some .truncated →
      (saveRef E o fn n had ref s0).2.tmp i = some .truncated := fun had ref s0 h0 => by
    rw [saveRef_snd, (saveEvents_frame E o fn n had ref s0).2.2.2.1, h0]
  have hc := cachedEvents_tmp (o := o) (fn := fn) (n := n) (s := s)
  unfold prepareEvents
  rcases hce : cachedEvents o fn n s with ⟨e | _ | ref, s1⟩ <;> rw [hce] at hc <;> simp only at hc ⊢
  · rw [hc, h]
  · cases fn with
    | none => simp only; rw [hc, h]
    | some f =>
      simp only
      have hg := (generateEvents_trunc (E := E) (o := o) (g := f) (n := n) (s := s1) (i := i)
        (by rw [hc, h])).1
      rcases hge : generateEvents E o f n s1 with ⟨e | l, s2⟩ <;> rw [hge] at hg
      · exact hg
      · exact hs _ _ _ hg
  · exact hs _ _ _ (by rw [hc, h])

/-- No call and no other event of a session removes an unreadable temporary file. -/
theorem runBayes_trunc {E : BEnv S α} {i : ℕ} : ∀ (ops : List (BOp α ρ K)) (s : BSt S α),
    s.tmp i = some .truncated → (runBayes E ops s).tmp i = some .truncated
  | [], _, h => h
  | op :: ops, s, h => by
    rw [runBayes]
    refine runBayes_trunc ops _ ?_
    cases op with
    | call o fn n q cond =>
      simp only [BOp.step]
      rcases bayesnet_frame E o fn n q cond s with h2 | ⟨l, h2⟩ <;> rw [h2] <;>
        exact prepareEvents_trunc h
    | mutate r l => exact h
    | restart => exact h
    | truncate f => exact h

/-- **C27 fails**: when a multi-core `bayesnet` call in a clean directory generates events that cannot be
encoded (in the batch of the last core), it raises TypeError, and from then on, whatever happens in between,
*every* `bayesnet` call with at least as many cores that generates events raises, also for event functions
whose events are harmless. -/
theorem C27_blocked_fails (E : BEnv S α) (o : BOpts) (hc : 2 ≤ o.cores)
    (hv : o.sched.Valid o.cores) (g : ℕ) (n : ℤ) (s : BSt S α) (hclean : ∀ i, s.tmp i = none)
    (hm : o.memcache = some false) (hl : truthyName o.load = none) {cuts : List ℕ}
    (hcuts : coreCuts n.toNat o.cores = .ok cuts) {batch : List α} {s' : S}
    (hb : repeatEvent (E.event g) (cuts.getD (o.cores - 1) 0) s.inner = (.ok batch, s'))
    (henc : encodeList E.codec batch = none) (q : Query α ρ K) (cond : Option (α → Except PyErr Bool)) :
    (bayesnet E o (some g) n q cond s).1 = .error .typeError ∧
    ∀ (between : List (BOp α ρ K)) (o' : BOpts) (g' : ℕ) (n' : ℤ) (q' : Query α ρ K)
      (cond' : Option (α → Except PyErr Bool)), o.cores ≤ o'.cores → o'.memcache = some false →
      truthyName o'.load = none →
      ∃ e, (bayesnet E o' (some g') n' q' cond'
        (runBayes E between (bayesnet E o (some g) n q cond s).2)).1 = .error e := by
  have hgen : ∃ s2, generateEvents E o g n s = (.error .typeError, s2) ∧
      s2.tmp (o.cores - 1) = some .truncated := by
    unfold generateEvents
    rw [if_neg (by omega), hcuts]
    have hw : runEventWorkers E g cuts o.sched (fun _ => s.inner) s.tmp (o.cores - 1) = none := by
      rw [(runEventWorkers_good (E := E) (g := g) (cuts := cuts) o.sched (fun _ => s.inner) s.tmp
        (fun i b hi => by rw [hclean i] at hi; cases hi)).2 _ (by
          rw [List.Perm.mem_iff hv, List.mem_range]; omega), hclean]
    simp only [hb]
    rw [show writeBatch E.codec (o.cores - 1) batch
        (runEventWorkers E g cuts o.sched (fun _ => s.inner) s.tmp)
        = (false, fun i => if i = o.cores - 1 then some .truncated
            else runEventWorkers E g cuts o.sched (fun _ => s.inner) s.tmp i) by
      simp [writeBatch, hw, henc]]
    exact ⟨_, rfl, by simp⟩
  obtain ⟨s2, hg, ht⟩ := hgen
  have hlo : o.loads = false := by simp [BOpts.loads, hm]
  have hfirst : bayesnet E o (some g) n q cond s = (.error .typeError, s2) := by
    unfold bayesnet
    rw [cachedEvents_none hlo hl]
    simp only [hg]
  rw [hfirst]
  refine ⟨rfl, fun between o' g' n' q' cond' hco hm' hl' => ?_⟩
  have hlast := runBayes_trunc (E := E) between s2 ht
  have hlo' : o'.loads = false := by simp [BOpts.loads, hm']
  obtain ⟨e, he⟩ := (generateEvents_trunc (E := E) (o := o') (g := g') (n := n') hlast).2 (by omega)
    (by omega)
  refine ⟨e, ?_⟩
  unfold bayesnet
  rw [cachedEvents_none hlo' hl']
  rcases hg' : generateEvents E o' g' n' (runBayes E between s2) with ⟨e' | l, s3⟩
  · rw [hg'] at he
    simp only [hg', Except.error.injEq] at he ⊢
    exact he
  · rw [hg'] at he; cases he

/-- The premises are met: two cores, four events, the last of which cannot be encoded. -/
example : let E : BEnv ℕ ℕ := ⟨demoB.event, fun a => if a = 5 then none else some a⟩
    (2 : ℕ) ≤ 2 ∧ Sched.Valid [(0, 0)] 2 ∧ coreCuts 4 2 = .ok [2, 2] ∧
      repeatEvent (E.event 0) 2 4 = (.ok [4, 5], 6) ∧ encodeList E.codec [4, 5] = none := by
  refine ⟨le_rfl, ?_, ?_, ?_, ?_⟩
  · exact List.Perm.refl _
  · decide +kernel
  · decide +kernel
  · decide +kernel

end Verif
