import Verif.Props.Bayesnet

/-!
# C26 (for `bayesnet`), C49, C50, C51, C77, C78: cache files, aliasing, several cores, provenance
-/

namespace Verif

set_option linter.unusedSectionVars false

variable {S α ρ K : Type} [Field K]

/-! ## C49 -/

theorem prepare_files {E : BEnv S α} {o : BOpts} {fn : Option ℕ} {n : ℤ} {s : BSt S α} {f : String}
    (hd : truthyName o.dump ≠ some f) : (prepareEvents E o fn n s).2.files f = s.files f := by
  have hsave : ∀ had ref (s0 : BSt S α), (saveRef E o fn n had ref s0).2.files f = s0.files f := by
    intro had ref s0
    rw [saveRef_snd]
    obtain ⟨-, -, -, -, -, f6⟩ := saveEvents_frame E o fn n had ref s0
    rw [f6]
    cases hdd : truthyName o.dump with
    | none => rfl
    | some g =>
      simp only
      rw [if_neg (fun h => hd (by rw [hdd, h]))]
  have hgen : ∀ g r s2, generateEvents E o g n s = (r, s2) → s2.files = s.files := by
    intro g r s2 hg
    have := generateEvents_frame E o g n s
    rw [hg] at this
    simp only at this
    rw [this]
  rcases prepare_cases E o fn n s with ⟨e, hp⟩ | ⟨g, e, s2, -, hg, hp⟩ | ⟨-, hp⟩ |
    ⟨e, -, -, -, -, hp⟩ | ⟨g, l, k, -, -, -, -, hp⟩ | ⟨g, l, s2, -, -, hg, hp⟩ <;> rw [hp]
  · rw [hgen g _ s2 hg]
  · exact hsave _ _ _
  · rw [hsave]; rfl
  · rw [hsave]
    show s2.files f = s.files f
    rw [hgen g _ s2 hg]

theorem run_files {E : BEnv S α} {f : String} :
    ∀ (ops : List (BOp α ρ K)), (∀ op ∈ ops, ¬ op.Writes f) → ∀ s : BSt S α,
      (runBayes E ops s).files f = s.files f
  | [], _, s => rfl
  | op :: ops, h, s => by
    rw [runBayes, run_files ops (fun o ho => h o (by simp [ho]))]
    have h1 := h op (by simp)
    cases op with
    | call o fn n q cond =>
      simp only [BOp.step]
      rcases bayesnet_frame E o fn n q cond s with h2 | ⟨l, h2⟩ <;> rw [h2]
      · exact prepare_files h1
      · exact prepare_files (E := E) (fn := fn) (n := n) (s := s) h1
    | mutate r l => rfl
    | restart => rfl
    | truncate g =>
      simp only [BOp.step]
      rw [if_neg (fun hfg => h1 hfg.symm)]

/-- What a successful dump leaves in the file. -/
theorem dump_writes {E : BEnv S α} {o : BOpts} {fn : Option ℕ} {n : ℤ} {s s1 : BSt S α} {l : List α}
    {f : String} (hd : truthyName o.dump = some f)
    (h : bayesnet E o fn n (.reduceEvents .ok : Query α (List α) K) none s
      = (.ok (.reduced l), s1)) :
    ∃ l', encodeList E.codec l = some l' ∧ s1.files f = some (.good (l', n)) := by
  obtain ⟨ref, hp, hlist, hne⟩ := used_iff.1 h
  have hsave : ∀ had r (s0 : BSt S α), saveRef E o fn n had r s0 = (.ok (some ref), s1) →
      ∃ l', encodeList E.codec l = some l' ∧ s1.files f = some (.good (l', n)) := by
    intro had r s0 hs
    have e1 := saveRef_fst E o fn n had r s0
    rw [hs, hd] at e1
    obtain ⟨rfl, rfl⟩ := saveRef_ok hs
    obtain ⟨f1, f2, f3, f4, f5, f6⟩ := saveEvents_frame E o fn n had ref s0
    rw [f1] at hlist
    rw [hlist] at e1
    rw [f6, hd]
    simp only [if_true, hlist]
    cases he : encodeList E.codec l with
    | none => rw [he] at e1; cases e1
    | some l' => exact ⟨l', rfl, rfl⟩
  rcases prepare_cases E o fn n s with ⟨e, hq⟩ | ⟨g, e, s2, -, hg, hq⟩ | ⟨-, hq⟩ |
    ⟨e, -, -, -, -, hq⟩ | ⟨g, l', k, -, -, -, -, hq⟩ | ⟨g, l', s2, -, -, hg, hq⟩ <;>
    rw [hq] at hp
  · cases hp
  · cases hp
  · cases hp
  · exact hsave _ _ _ hp
  · exact hsave _ _ _ hp
  · exact hsave _ _ _ hp

/-- **C49**: a call used the events `l` and dumped them to the file `f`.  Whatever happens afterwards –
calls, changes of lists, restarts – as long as nothing writes to `f` again, a call that loads `f` (no
memory entry for its event function, or `cache_file_primary=True`) and asks for at most `n` events uses
exactly these events as they come back from the file (`l` itself if encoding loses nothing), for any
event function and even for `event_fn=None`, without running an event function; and a call asking for
more than `n` raises ValueError. -/
theorem C49_roundtrip (E : BEnv S α) (o o' : BOpts) (fn fn' : Option ℕ) (n n' : ℤ) (s s1 : BSt S α)
    (l : List α) (f : String) (hd : truthyName o.dump = some f)
    (h : bayesnet E o fn n (.reduceEvents .ok : Query α (List α) K) none s
      = (.ok (.reduced l), s1))
    (ops : List (BOp α ρ K)) (hops : ∀ op ∈ ops, ¬ op.Writes f)
    (hl : truthyName o'.load = some f) (hr : o'.reload = false) (hd' : truthyName o'.dump = none)
    (hm : (runBayes E ops s1).mem fn' = none ∨ o'.filePrimary = true) :
    (n' ≤ n → ∃ l' s2, encodeList E.codec l = some l' ∧
      bayesnet E o' fn' n' (.reduceEvents .ok : Query α (List α) K) none (runBayes E ops s1)
        = (.ok (.reduced l'), s2) ∧ s2.inner = (runBayes E ops s1).inner) ∧
    (n < n' → bayesnet E o' fn' n' (.reduceEvents .ok : Query α (List α) K) none (runBayes E ops s1)
        = (.error .valueError, runBayes E ops s1)) := by
  obtain ⟨l', he, hf1⟩ := dump_writes hd h
  obtain ⟨-, -, -, hne⟩ := used_iff.1 h
  have hf2 : (runBayes E ops s1).files f = some (.good (l', n)) := by
    rw [run_files ops hops, hf1]
  obtain ⟨t, ht⟩ : ∃ t, t = runBayes E ops s1 := ⟨_, rfl⟩
  rw [← ht] at hf2 hm ⊢
  have hc : ((t.mem fn').isNone || o'.filePrimary) = true := by
    rcases hm with h | h <;> simp [h]
  constructor
  · intro hn
    have hce : cachedEvents o' fn' n' t = (.ok (some t.next), (t.alloc l').2) := by
      simp [cachedEvents, hr, hl, hf2, hc, not_lt.2 hn, BSt.alloc]
    obtain ⟨f1, f2, f3, -⟩ := saveEvents_frame E o' fn' n' (t.mem fn').isSome t.next (t.alloc l').2
    refine ⟨l', (saveEvents E o' fn' n' (t.mem fn').isSome t.next (t.alloc l').2).2, he,
      used_iff.2 ⟨t.next, ?_, by rw [f1]; simp [BSt.alloc], ?_⟩, f3⟩
    · unfold prepareEvents
      rw [hce]
      simp only
      refine Prod.ext ?_ (saveRef_snd _ _ _ _ _ _ _)
      rw [saveRef_fst, hd']
    · intro h0
      rw [h0] at he
      have := encodeList_length he
      exact hne (List.length_eq_zero_iff.1 this.symm)
  · intro hn
    exact C47_file_refused E o' fn' n' _ none t f l' n hl hf2 hn hr hm

/-- The hypotheses of `C49_roundtrip` are met, with a restart in between. -/
example : (runBayes demoB [.call { dump := some "a" } (some 0) 3 (.events : Query ℕ Unit ℚ) none,
    .restart] (.fresh 1)).mem (some 0) = none ∧
  ((bayesnet demoB { load := some "a" } (some 1) 2 (.reduceEvents .ok : Query ℕ (List ℕ) ℚ) none
    (runBayes demoB [.call { dump := some "a" } (some 0) 3 (.events : Query ℕ Unit ℚ) none, .restart]
      (.fresh 1))).1.toOption.bind fun r => match r with | .reduced l => some l | _ => none)
    = some [1, 2, 3] := by
  constructor
  · rfl
  · decide +kernel

/-- **C49 fails** for the number of *stored* events: a file with three events, loaded for one and dumped
again, still has three events but refuses a request for three. -/
theorem C49_recorded_fails :
    let s := runBayes demoB [.call { dump := some "a" } (some 0) 3 (.events : Query ℕ Unit ℚ) none,
      .restart,
      .call { load := some "a", dump := some "a" } (some 0) 1 (.events : Query ℕ Unit ℚ) none,
      .restart] (.fresh 1)
    (s.files "a").bind (fun f => match f with | .good x => some x | _ => none) = some ([1, 2, 3], 1) ∧
    (bayesnet demoB { load := some "a" } (some 0) 3 (.reduceEvents .ok : Query ℕ (List ℕ) ℚ) none s).1
      matches .error .valueError := by
  constructor
  · decide +kernel
  · decide +kernel

/-! ## C77 -/

/-- **C77** as far as it goes: after a call, a cache file is what it was before, or a complete new cache
for the requested `n`, or – then the call raised TypeError because an event cannot be encoded –
truncated.  (Missing: in the last case, and after a crash while writing, the old contents are lost.) -/
theorem C77_dump_partial (E : BEnv S α) (o : BOpts) (fn : Option ℕ) (n : ℤ) (q : Query α ρ K)
    (cond : Option (α → Except PyErr Bool)) (s : BSt S α) (f : String) :
    (bayesnet E o fn n q cond s).2.files f = s.files f ∨
    (∃ l, (bayesnet E o fn n q cond s).2.files f = some (.good (l, n))) ∨
    ((bayesnet E o fn n q cond s).2.files f = some .truncated ∧
      (bayesnet E o fn n q cond s).1 = .error .typeError) := by
  by_cases hd : truthyName o.dump = some f
  · have hfin : ∀ had ref (s0 : BSt S α), s0.files = s.files →
        prepareEvents E o fn n s = saveRef E o fn n had ref s0 →
        (prepareEvents E o fn n s).2.files f = s.files f ∨
        (∃ l, (prepareEvents E o fn n s).2.files f = some (.good (l, n))) ∨
        ((prepareEvents E o fn n s).2.files f = some .truncated ∧
          (prepareEvents E o fn n s).1 = .error .typeError) := by
      intro had ref s0 h0 hp
      rw [hp, saveRef_snd, saveRef_fst]
      obtain ⟨f1, f2, f3, f4, f5, f6⟩ := saveEvents_frame E o fn n had ref s0
      rw [f6, hd]
      simp only [if_true]
      cases encodeList E.codec (s0.lists ref) with
      | none => exact Or.inr (Or.inr ⟨rfl, rfl⟩)
      | some l => exact Or.inr (Or.inl ⟨l, rfl⟩)
    have hgen : ∀ g r s2, generateEvents E o g n s = (r, s2) → s2.files = s.files := by
      intro g r s2 hg
      have := generateEvents_frame E o g n s
      rw [hg] at this
      simp only at this
      rw [this]
    have hprep : (prepareEvents E o fn n s).2.files f = s.files f ∨
        (∃ l, (prepareEvents E o fn n s).2.files f = some (.good (l, n))) ∨
        ((prepareEvents E o fn n s).2.files f = some .truncated ∧
          (prepareEvents E o fn n s).1 = .error .typeError) := by
      rcases prepare_cases E o fn n s with ⟨e, hp⟩ | ⟨g, e, s2, -, hg, hp⟩ | ⟨-, hp⟩ |
        ⟨e, -, -, -, -, hp⟩ | ⟨g, l, k, -, -, -, -, hp⟩ | ⟨g, l, s2, -, -, hg, hp⟩
      · left; rw [hp]
      · left; rw [hp, hgen g _ s2 hg]
      · left; rw [hp]
      · exact hfin _ _ s rfl hp
      · exact hfin _ _ (s.alloc l).2 rfl hp
      · exact hfin _ _ (s2.alloc l).2 (hgen g _ s2 hg) hp
    have hfst : (prepareEvents E o fn n s).1 = .error .typeError →
        (bayesnet E o fn n q cond s).1 = .error .typeError := by
      intro h
      rw [bayesnet_eq]
      rcases hq : prepareEvents E o fn n s with ⟨e | _ | ref, s1⟩ <;> rw [hq] at h
      · cases h; rfl
      · cases h
      · cases h
    have hfiles : (bayesnet E o fn n q cond s).2.files = (prepareEvents E o fn n s).2.files := by
      rcases bayesnet_frame E o fn n q cond s with h2 | ⟨l, h2⟩ <;> rw [h2]
      rfl
    rw [hfiles]
    rcases hprep with h | h | h
    · exact Or.inl h
    · exact Or.inr (Or.inl h)
    · exact Or.inr (Or.inr ⟨h.1, hfst h.2⟩)
  · left
    rcases bayesnet_frame E o fn n q cond s with h2 | ⟨l, h2⟩ <;> rw [h2]
    · exact prepare_files hd
    · exact prepare_files (E := E) (fn := fn) (n := n) (s := s) hd

/-- **C77 fails**: whatever valid cache the file held, a call that generates an event which cannot be
encoded and dumps to the same file raises TypeError and destroys it; loading it afterwards raises. -/
theorem C77_dump_fails (E : BEnv S α) (g : ℕ) (n : ℤ) (f : String) (hf : f ≠ "") (s s2 : BSt S α)
    (l : List α) (hg : generateEvents E { dump := some f } g n s = (.ok l, s2))
    (hm : s.mem (some g) = none) (henc : encodeList E.codec l = none) (q : Query α ρ K)
    (cond : Option (α → Except PyErr Bool)) :
    (bayesnet E { dump := some f } (some g) n q cond s).1 = .error .typeError ∧
    (bayesnet E { load := some f, filePrimary := true } (some g) n q cond
      (bayesnet E { dump := some f } (some g) n q cond s).2).1 = .error .decodeError := by
  have ht : truthyName (some f) = some f := by
    unfold truthyName
    split
    · rename_i h; exact absurd (Option.some.inj h) hf
    · rfl
  have hce : cachedEvents { dump := some f } (some g) n s = (.ok none, s) := by
    simp [cachedEvents, truthyName, hm]
  have hp : prepareEvents E { dump := some f } (some g) n s =
      saveRef E { dump := some f } (some g) n (s.mem (some g)).isSome s2.next (s2.alloc l).2 := by
    unfold prepareEvents
    rw [hce]
    simp only [hg]
    rfl
  have h1 : (prepareEvents E { dump := some f } (some g) n s).1 = .error .typeError := by
    rw [hp, saveRef_fst]
    simp only [ht, BSt.alloc, if_true, henc]
  have h2 : (prepareEvents E { dump := some f } (some g) n s).2.files f = some .truncated := by
    rw [hp, saveRef_snd]
    obtain ⟨-, -, -, -, -, f6⟩ := saveEvents_frame E { dump := some f } (some g) n
      (s.mem (some g)).isSome s2.next (s2.alloc l).2
    rw [f6]
    simp [ht, BSt.alloc, henc]
  have hb : bayesnet E { dump := some f } (some g) n q cond s =
      (.error .typeError, (prepareEvents E { dump := some f } (some g) n s).2) := by
    rw [bayesnet_eq]
    rcases hq : prepareEvents E { dump := some f } (some g) n s with ⟨e | _ | ref, s1⟩ <;>
      rw [hq] at h1
    · cases h1; rfl
    · cases h1
    · cases h1
  obtain ⟨t, htt⟩ : ∃ t, t = (prepareEvents E { dump := some f } (some g) n s).2 := ⟨_, rfl⟩
  rw [← htt] at h2 hb
  rw [hb]
  refine ⟨rfl, ?_⟩
  rw [bayesnet_eq]
  simp [prepareEvents, cachedEvents, ht, h2]

/-- An event that msgpack cannot encode, in a run of three: the hypotheses of `C77_dump_fails` can be
met. -/
example : let E : BEnv ℕ ℕ := ⟨demoB.event, fun a => if a = 5 then none else some a⟩
    (generateEvents E { dump := some "a" } 0 3 (BSt.fresh 4)).1 = .ok [4, 5, 6] ∧
    encodeList E.codec [4, 5, 6] = none := by
  constructor <;> decide +kernel

/-! ## C50 -/

/-- The list object `r` gets new contents. -/
def setList (r : ℕ) (l : List α) (s : BSt S α) : BSt S α :=
  { s with lists := fun i => if i = r then l else s.lists i }

/-- The list object `r` exists and the memory cache does not refer to it. -/
def Unref (r : ℕ) (s : BSt S α) : Prop :=
  r < s.next ∧ ∀ k e, s.mem k = some e → e.ref ≠ r ∧ e.ref < s.next

theorem setList_alloc {r : ℕ} {l l' : List α} {s : BSt S α} (h : r < s.next) :
    (setList r l s).alloc l' = ((s.alloc l').1, setList r l (s.alloc l').2) := by
  refine Prod.ext rfl ?_
  simp only [BSt.alloc, setList]
  congr 1
  funext i
  by_cases h1 : i = s.next
  · simp only [h1, if_true]
    rw [if_neg (by omega)]
  · simp [h1]

/-- The outcomes `x` and `y` agree up to the contents of `r`, and do not refer to `r`. -/
def Sync (r : ℕ) (l : List α) (x y : Except PyErr (Option ℕ) × BSt S α) : Prop :=
  x = (y.1, setList r l y.2) ∧ Unref r y.2 ∧
    ∀ ref, y.1 = .ok (some ref) → ref ≠ r ∧ ref < y.2.next

theorem cachedEvents_setList {r : ℕ} {l : List α} {s : BSt S α} (h : Unref r s) (o : BOpts)
    (fn : Option ℕ) (n : ℤ) :
    Sync r l (cachedEvents o fn n (setList r l s)) (cachedEvents o fn n s) := by
  have hfiles : (setList r l s).files = s.files := rfl
  have hmem : (setList r l s).mem = s.mem := rfl
  have hnone : Sync r l (.ok none, setList r l s) (.ok none, s) :=
    ⟨rfl, h, fun ref hh => by cases hh⟩
  have herr : ∀ e, Sync r l (.error e, setList r l s) (.error e, s) := fun e =>
    ⟨rfl, h, fun ref hh => by cases hh⟩
  have hmm : ∀ e, s.mem fn = some e →
      Sync r l (if o.loads = true then
        (if e.n < n then (.error .valueError, setList r l s) else (.ok (some e.ref), setList r l s))
        else (.ok none, setList r l s))
      (if o.loads = true then (if e.n < n then (.error .valueError, s) else (.ok (some e.ref), s))
        else (.ok none, s)) := by
    intro e he
    by_cases h1 : o.loads = true
    · rw [if_pos h1, if_pos h1]
      by_cases h2 : e.n < n
      · rw [if_pos h2, if_pos h2]; exact herr _
      · rw [if_neg h2, if_neg h2]
        exact ⟨rfl, h, fun ref hh => by cases hh; exact h.2 fn e he⟩
    · rw [if_neg h1, if_neg h1]; exact hnone
  unfold cachedEvents
  rw [hfiles, hmem]
  by_cases hr : o.reload = true
  · rw [if_pos hr, if_pos hr]; exact hnone
  · rw [if_neg hr, if_neg hr]
    rcases hf : (truthyName o.load).bind s.files with _ | f
    · rcases hm : s.mem fn with _ | e
      · exact hnone
      · exact hmm e hm
    · simp only
      by_cases h1 : ((s.mem fn).isNone || o.filePrimary) = true
      · rw [if_pos h1, if_pos h1]
        rcases f with ⟨l', k⟩ | _
        · simp only
          by_cases h2 : k < n
          · rw [if_pos h2, if_pos h2]; exact herr _
          · rw [if_neg h2, if_neg h2, setList_alloc h.1]
            refine ⟨rfl, ⟨Nat.lt_succ_of_lt h.1, fun k e he =>
              ⟨(h.2 k e he).1, Nat.lt_succ_of_lt (h.2 k e he).2⟩⟩, fun ref hh => ?_⟩
            cases hh
            have := h.1
            simp only [BSt.alloc]
            omega
        · exact herr _
      · rw [if_neg h1, if_neg h1]
        rcases hm : s.mem fn with _ | e
        · exact hnone
        · exact hmm e hm

theorem generateEvents_setList (E : BEnv S α) (o : BOpts) (g : ℕ) (n : ℤ) (r : ℕ) (l : List α)
    (s : BSt S α) : generateEvents E o g n (setList r l s) =
      ((generateEvents E o g n s).1, setList r l (generateEvents E o g n s).2) := by
  unfold generateEvents
  split_ifs with hc
  · rfl
  · rcases coreCuts n.toNat o.cores with e | cuts
    · rfl
    · simp only [setList]
      rcases repeatEvent (E.event g) (cuts.getD (o.cores - 1) 0) s.inner with ⟨_ | batch, s'⟩
      · rfl
      · simp only
        rcases writeBatch E.codec (o.cores - 1) batch
          (runEventWorkers E g cuts o.sched (fun _ => s.inner) s.tmp) with ⟨_ | _, tmp2⟩
        · rfl
        · rfl

theorem saveRef_setList (E : BEnv S α) (o : BOpts) (fn : Option ℕ) (n : ℤ) (had : Bool)
    (ref r : ℕ) (l : List α) (s : BSt S α) (h : Unref r s) (hr : ref ≠ r) (hlt : ref < s.next) :
    saveRef E o fn n had ref (setList r l s) =
      ((saveRef E o fn n had ref s).1, setList r l (saveRef E o fn n had ref s).2) ∧
    Unref r (saveRef E o fn n had ref s).2 := by
  constructor
  · have hl : (setList r l s).lists ref = s.lists ref := by simp [setList, hr]
    unfold saveRef saveEvents
    rw [hl]
    by_cases hb : (o.saves && (!had || o.reload)) = true
    · simp only [hb, if_true]
      cases truthyName o.dump with
      | none => rfl
      | some f => cases encodeList E.codec (s.lists ref) <;> rfl
    · simp only [hb]
      cases truthyName o.dump with
      | none => rfl
      | some f => cases encodeList E.codec (s.lists ref) <;> rfl
  · rw [saveRef_snd]
    obtain ⟨f1, f2, f3, f4, f5, f6⟩ := saveEvents_frame E o fn n had ref s
    refine ⟨by rw [f2]; exact h.1, fun k e he => ?_⟩
    rw [f2]
    rw [f5] at he
    split_ifs at he with hc
    · simp only at he
      split_ifs at he with hk
      · cases he; exact ⟨hr, hlt⟩
      · exact h.2 k e he
    · exact h.2 k e he

theorem prepare_setList (E : BEnv S α) (o : BOpts) (fn : Option ℕ) (n : ℤ) (r : ℕ) (l : List α)
    (s : BSt S α) (h : Unref r s) :
    prepareEvents E o fn n (setList r l s) =
      ((prepareEvents E o fn n s).1, setList r l (prepareEvents E o fn n s).2) ∧
    Unref r (prepareEvents E o fn n s).2 ∧
    ∀ ref, (prepareEvents E o fn n s).1 = .ok (some ref) → ref ≠ r := by
  obtain ⟨h1, h2, h3⟩ := cachedEvents_setList (l := l) h o fn n
  have hmem : (setList r l s).mem = s.mem := rfl
  unfold prepareEvents
  rw [hmem, h1]
  clear h1
  revert h2 h3
  generalize (s.mem fn).isSome = had
  generalize cachedEvents o fn n s = c
  intro h2 h3
  rcases c with ⟨e | _ | ref, s1⟩ <;> simp only at h2 h3 ⊢
  · exact ⟨trivial, h2, fun ref hh => by cases hh⟩
  · cases fn with
    | none => exact ⟨rfl, h2, fun ref hh => by cases hh⟩
    | some g =>
      simp only
      rw [generateEvents_setList]
      have hfr := generateEvents_frame E o g n s1
      rcases hg : generateEvents E o g n s1 with ⟨e | l', s2⟩ <;> rw [hg] at hfr <;>
        simp only at hfr ⊢
      · refine ⟨trivial, ?_, fun ref hh => by cases hh⟩
        rw [hfr]
        exact h2
      · have hu : Unref r s2 := by
          rw [hfr]
          exact h2
        have hua : Unref r (s2.alloc l').2 :=
          ⟨Nat.lt_succ_of_lt hu.1, fun k e he =>
            ⟨(hu.2 k e he).1, Nat.lt_succ_of_lt (hu.2 k e he).2⟩⟩
        have hne : s2.next ≠ r := by have := hu.1; omega
        rw [setList_alloc hu.1]
        obtain ⟨k1, k2⟩ := saveRef_setList E o (some g) n had s2.next r l
          (s2.alloc l').2 hua hne (by simp [BSt.alloc])
        refine ⟨k1, k2, fun ref hh => ?_⟩
        have := saveRef_ok (Prod.ext hh rfl)
        rw [this.1]
        exact hne
  · obtain ⟨hne, hlt⟩ := h3 ref rfl
    obtain ⟨k1, k2⟩ := saveRef_setList E o fn n had ref r l s1 h2 hne hlt
    refine ⟨k1, k2, fun ref' hh => ?_⟩
    have := saveRef_ok (Prod.ext hh rfl)
    rw [this.1]
    exact hne

/-- The visible outcome of a call. -/
def outcome (E : BEnv S α) (o : BOpts) (fn : Option ℕ) (n : ℤ) (q : Query α ρ K)
    (cond : Option (α → Except PyErr Bool)) (s : BSt S α) : Except PyErr (Answer α ρ K) := do
  let r ← (bayesnet E o fn n q cond s).1
  .ok (r.seen (bayesnet E o fn n q cond s).2)

theorem answerEvents_state (q : Query α ρ K) (cond : Option (α → Except PyErr Bool))
    (ref : ℕ) (s : BSt S α) : (answerEvents q cond ref s).2 =
      match cond with
      | none => s
      | some c => match filterExcept c (s.lists ref) with
        | .error _ => s
        | .ok l => (s.alloc l).2 := by
  have aux : ∀ (r' : ℕ) (s1 : BSt S α),
      ((if (s1.lists r').length < 1 then (.error .valueError, s1)
        else match q with
        | .events => (.ok (.listRef r'), s1)
        | .reduceEvents g => ((do .ok (.reduced (← g (s1.lists r')))), s1)
        | .findRaw f => ((do .ok (.values (← mapExcept f (s1.lists r')))), s1)
        | .findReduce f none => ((do .ok (.mean (← npMean (← mapExcept f (s1.lists r'))))), s1)
        | .findReduce f (some g) =>
          ((do .ok (.reduced (← g (← mapExcept f (s1.lists r'))))), s1)) :
        Except PyErr (BResult ρ K) × BSt S α).2 = s1 := by
    intro r' s1
    split_ifs
    · rfl
    · rcases q with _ | g | f | ⟨f, _ | g⟩ <;> rfl
  unfold answerEvents
  cases cond with
  | none => exact aux ref s
  | some c =>
    simp only
    cases filterExcept c (s.lists ref) with
    | error e => rfl
    | ok l => exact aux _ _

theorem answerEvents_setList (q : Query α ρ K) (cond : Option (α → Except PyErr Bool))
    (ref r : ℕ) (l : List α) (s : BSt S α) (h : Unref r s) (hr : ref ≠ r) :
    (answerEvents q cond ref (setList r l s)).2 = setList r l (answerEvents q cond ref s).2 ∧
    Unref r (answerEvents q cond ref s).2 := by
  have hl : (setList r l s).lists ref = s.lists ref := by simp [setList, hr]
  rw [answerEvents_state, answerEvents_state, hl]
  cases cond with
  | none => exact ⟨rfl, h⟩
  | some c =>
    simp only
    cases filterExcept c (s.lists ref) with
    | error e => exact ⟨rfl, h⟩
    | ok l' =>
      simp only
      rw [setList_alloc h.1]
      exact ⟨rfl, Nat.lt_succ_of_lt h.1, fun k e he =>
        ⟨(h.2 k e he).1, Nat.lt_succ_of_lt (h.2 k e he).2⟩⟩

theorem bayesnet_setList (E : BEnv S α) (o : BOpts) (fn : Option ℕ) (n : ℤ) (q : Query α ρ K)
    (cond : Option (α → Except PyErr Bool)) (r : ℕ) (l : List α) (s : BSt S α) (h : Unref r s) :
    (bayesnet E o fn n q cond (setList r l s)).2 = setList r l (bayesnet E o fn n q cond s).2 ∧
    Unref r (bayesnet E o fn n q cond s).2 ∧
    outcome E o fn n q cond (setList r l s) = outcome E o fn n q cond s := by
  obtain ⟨h1, h2, h3⟩ := prepare_setList E o fn n r l s h
  unfold outcome
  simp only [bayesnet_eq]
  rw [h1]
  clear h1
  revert h2 h3
  generalize prepareEvents E o fn n s = c
  intro h2 h3
  rcases c with ⟨e | _ | ref, s1⟩ <;> simp only at h2 h3 ⊢
  · exact ⟨trivial, h2, rfl⟩
  · exact ⟨trivial, h2, rfl⟩
  · have hne := h3 ref rfl
    obtain ⟨k1, k2⟩ := answerEvents_setList q cond ref r l s1 h2 hne
    refine ⟨k1, k2, ?_⟩
    have e1 := answerEvents_seen q cond ref (setList r l s1)
    have e2 := answerEvents_seen q cond ref s1
    rw [show (setList r l s1).lists ref = s1.lists ref by simp [setList, hne]] at e1
    rw [e1, e2]

theorem run_setList (E : BEnv S α) (r : ℕ) :
    ∀ (ops : List (BOp α ρ K)) (l : List α) (s : BSt S α), Unref r s →
      ∃ l', runBayes E ops (setList r l s) = setList r l' (runBayes E ops s) ∧
        Unref r (runBayes E ops s)
  | [], l, s, h => ⟨l, rfl, h⟩
  | op :: ops, l, s, h => by
    have key : ∃ l1, op.step E (setList r l s) = setList r l1 (op.step E s) ∧
        Unref r (op.step E s) := by
      cases op with
      | call o fn n q cond =>
        obtain ⟨k1, k2, -⟩ := bayesnet_setList E o fn n q cond r l s h
        exact ⟨l, k1, k2⟩
      | mutate r' l' =>
        by_cases hrr : r' = r
        · refine ⟨l', ?_, h⟩
          subst hrr
          simp only [BOp.step, setList]
          congr 1
          funext i
          by_cases hi : i = r' <;> simp [hi]
        · refine ⟨l, ?_, h⟩
          simp only [BOp.step, setList]
          congr 1
          funext i
          by_cases hi : i = r
          · subst hi
            simp only [if_true]
            rw [if_neg (Ne.symm hrr)]
          · simp [hi]
      | restart => exact ⟨l, rfl, h.1, fun k e he => by simp [BOp.step] at he⟩
      | truncate f => exact ⟨l, rfl, h⟩
    obtain ⟨l1, k1, k2⟩ := key
    simp only [runBayes]
    rw [k1]
    exact run_setList E r ops l1 _ k2

/-- **C50** for calls with `conditional_on`: the list that is returned belongs to the caller.  Whatever
the caller turns it into, and whatever happens afterwards, every later call has the same outcome as if
the list had been left alone.  (Missing: calls without `conditional_on`, for which it is false.) -/
theorem C50_independent_partial (E : BEnv S α) (o : BOpts) (fn : Option ℕ) (n : ℤ)
    (c : α → Except PyErr Bool) (s s1 : BSt S α) (hwf : s.WF) (r : ℕ)
    (h : bayesnet E o fn n (.events : Query α ρ K) (some c) s = (.ok (.listRef r), s1))
    (l : List α) (ops : List (BOp α ρ K)) (o' : BOpts) (fn' : Option ℕ) (n' : ℤ)
    (q : Query α ρ K) (cond : Option (α → Except PyErr Bool)) :
    outcome E o' fn' n' q cond (runBayes E (.mutate r l :: ops) s1)
      = outcome E o' fn' n' q cond (runBayes E ops s1) := by
  have hu : Unref r s1 := by
    have hw := prepare_wf (E := E) (o := o) (fn := fn) (n := n) hwf
    rw [bayesnet_eq] at h
    revert hw h
    generalize prepareEvents E o fn n s = cc
    intro h hw
    rcases cc with ⟨e | _ | ref, s2⟩
    · exact absurd (congrArg Prod.fst h) (by simp)
    · exact absurd (congrArg Prod.fst h) (by simp)
    · simp only [answerEvents] at h
      cases hf : filterExcept c (s2.lists ref) with
      | error e => rw [hf] at h; cases h
      | ok l' =>
        rw [hf] at h
        simp only at h
        by_cases h0 : ((s2.alloc l').2.lists (s2.alloc l').1).length < 1
        · rw [if_pos h0] at h
          exact absurd (congrArg Prod.fst h) (by simp)
        rw [if_neg h0] at h
        simp only [Prod.mk.injEq, Except.ok.injEq, BResult.listRef.injEq] at h
        obtain ⟨rfl, rfl⟩ := h
        refine ⟨by simp [BSt.alloc], fun k e he => ?_⟩
        have := hw k e he
        simp only at this
        simp only [BSt.alloc]
        omega
  obtain ⟨l', h1, h2⟩ := run_setList E r ops l s1 hu
  show outcome E o' fn' n' q cond (runBayes E ops (setList r l s1)) = _
  rw [h1]
  exact (bayesnet_setList E o' fn' n' q cond r l' _ h2).2.2

/-- **C50 fails** without `conditional_on`, `find` and `reduce_fn`: the list that is returned is the one
in the cache.  Whatever (non-empty) list the caller turns it into, the next call for the same event
function uses it as its events. -/
theorem C50_independent_fails (E : BEnv S α) (fn : Option ℕ) (n : ℤ) (s s1 : BSt S α)
    (r : ℕ) (h : bayesnet E {} fn n (.events : Query α ρ K) none s = (.ok (.listRef r), s1))
    (l : List α) (hl : l ≠ []) :
    (bayesnet E {} fn n (.reduceEvents .ok : Query α (List α) K) none
      (runBayes E [(.mutate r l : BOp α ρ K)] s1)).1 = .ok (.reduced l) := by
  have hp : prepareEvents E {} fn n s = (.ok (some r), s1) := by
    rw [bayesnet_eq] at h
    revert h
    generalize prepareEvents E {} fn n s = cc
    intro h
    rcases cc with ⟨e | _ | ref, s2⟩
    · exact absurd (congrArg Prod.fst h) (by simp)
    · exact absurd (congrArg Prod.fst h) (by simp)
    · simp only [answerEvents] at h
      by_cases h0 : (s2.lists ref).length < 1
      · rw [if_pos h0] at h
        exact absurd (congrArg Prod.fst h) (by simp)
      · rw [if_neg h0] at h
        simp only [Prod.mk.injEq, Except.ok.injEq, BResult.listRef.injEq] at h
        obtain ⟨rfl, rfl⟩ := h
        rfl
  have hk : ∃ e, s1.mem fn = some e ∧ e.ref = r ∧ n ≤ e.n := by
    rcases prepare_cases E {} fn n s with ⟨e, hq⟩ | ⟨g, e, s2, -, -, hq⟩ | ⟨-, hq⟩ |
      ⟨e, hme, hle, -, hr, hq⟩ | ⟨f, l', k, hf, -⟩ | ⟨g, l', s2, -, hce, hg, hq⟩
    · rw [hq] at hp; cases hp
    · rw [hq] at hp; cases hp
    · rw [hq] at hp; cases hp
    · rw [hq] at hp
      obtain ⟨hr1, hs1⟩ := saveRef_ok hp
      subst hr1 hs1
      exact ⟨e, hme, rfl, hle⟩
    · simp [truthyName] at hf
    · have hnone : s.mem fn = none := by
        cases hme : s.mem fn with
        | none => rfl
        | some e =>
          simp only [cachedEvents, truthyName, hme, BOpts.loads] at hce
          simp at hce
          split_ifs at hce <;> simp at hce
      rw [hq] at hp
      obtain ⟨rfl, rfl⟩ := saveRef_ok hp
      obtain ⟨f1, f2, f3, f4, f5, f6⟩ := saveEvents_frame E {} fn n (s.mem fn).isSome s2.next
        (s2.alloc l').2
      refine ⟨⟨s2.next, n⟩, ?_, rfl, le_refl _⟩
      rw [f5, if_pos (by simp [BOpts.saves, hnone])]
      simp
  obtain ⟨e, h1, rfl, h3⟩ := hk
  obtain ⟨t, ht⟩ : ∃ t, t = runBayes E [(.mutate e.ref l : BOp α ρ K)] s1 := ⟨_, rfl⟩
  have hm : t.mem fn = some e := by rw [ht]; exact h1
  have hlist : t.lists e.ref = l := by rw [ht]; simp [runBayes, BOp.step]
  rw [← ht]
  have : bayesnet E {} fn n (.reduceEvents .ok : Query α (List α) K) none t
      = (.ok (.reduced l), t) := by
    refine used_iff.2 ⟨e.ref, ?_, hlist, hl⟩
    have hce : cachedEvents {} fn n t = (.ok (some e.ref), t) := by
      simp [cachedEvents, truthyName, hm, BOpts.loads, not_lt.2 h3]
    unfold prepareEvents
    rw [hce]
    simp [saveRef, saveEvents, hm, truthyName]
  rw [this]

/-- The hypothesis of `C50_independent_partial` is met. -/
example : ((bayesnet demoB {} (some 0) 4 (.events : Query ℕ Unit ℚ) (some fun k => .ok (k % 2 == 0))
    (.fresh 3)).1.toOption.bind fun r => match r with | .listRef r => some r | _ => none) = some 1 := by
  decide +kernel

/-! ## C51 -/

theorem cachedEvents_none {o : BOpts} {fn : Option ℕ} {n : ℤ} {s : BSt S α} (h : o.loads = false)
    (hl : truthyName o.load = none) : cachedEvents o fn n s = (.ok none, s) := by
  unfold cachedEvents
  rw [hl]
  cases s.mem fn <;> simp [h]

/-- Every temporary file that can be read holds a batch of the right size, generated by consecutive runs
of the event function. -/
def GoodBatches (E : BEnv S α) (g : ℕ) (cuts : List ℕ) (tmp : ℕ → Option (FileOf (List α))) : Prop :=
  ∀ i b, tmp i = some (.good b) → ∃ t t' l,
    repeatEvent (E.event g) (cuts.getD i 0) t = (.ok l, t') ∧ encodeList E.codec l = some b

theorem writeBatch_good {E : BEnv S α} {g : ℕ} {cuts : List ℕ} {tmp : ℕ → Option (FileOf (List α))}
    (h : GoodBatches E g cuts tmp) {core : ℕ} {batch : List α} {t t' : S}
    (hb : repeatEvent (E.event g) (cuts.getD core 0) t = (.ok batch, t')) :
    GoodBatches E g cuts (writeBatch E.codec core batch tmp).2 := by
  unfold writeBatch
  cases tmp core with
  | some x => exact h
  | none =>
    simp only
    cases he : encodeList E.codec batch with
    | some b =>
      intro i b' hi
      simp only at hi
      split_ifs at hi with hic
      · cases hi; subst hic; exact ⟨t, t', batch, hb, he⟩
      · exact h i b' hi
    | none =>
      intro i b' hi
      simp only at hi
      split_ifs at hi with hic
      · cases hi
      · exact h i b' hi

theorem writeBatch_other {codec : α → Option α} {core : ℕ} {batch : List α}
    {tmp : ℕ → Option (FileOf (List α))} {i : ℕ} (h : i ≠ core) :
    (writeBatch codec core batch tmp).2 i = tmp i := by
  unfold writeBatch
  cases tmp core with
  | some x => rfl
  | none => cases encodeList codec batch <;> simp [h]

theorem runEventWorkers_good {E : BEnv S α} {g : ℕ} {cuts : List ℕ} :
    ∀ (sched : Sched) (procs : ℕ → S) (tmp : ℕ → Option (FileOf (List α))),
      GoodBatches E g cuts tmp →
      GoodBatches E g cuts (runEventWorkers E g cuts sched procs tmp) ∧
      ∀ i, i ∉ sched.map Prod.snd → runEventWorkers E g cuts sched procs tmp i = tmp i
  | [], _, tmp, h => ⟨h, fun _ _ => rfl⟩
  | (p, core) :: rest, procs, tmp, h => by
    simp only [runEventWorkers, List.map_cons, List.mem_cons, not_or]
    rcases hb : repeatEvent (E.event g) (cuts.getD core 0) (procs p) with ⟨e | batch, s'⟩
    · obtain ⟨h1, h2⟩ := runEventWorkers_good rest (fun q => if q = p then s' else procs q) tmp h
      exact ⟨h1, fun i hi => h2 i hi.2⟩
    · obtain ⟨h1, h2⟩ := runEventWorkers_good rest (fun q => if q = p then s' else procs q) _
        (writeBatch_good h hb)
      exact ⟨h1, fun i hi => by simp only; rw [h2 i hi.2, writeBatch_other hi.1]⟩

theorem collectEvents_ok :
    ∀ (cores : List ℕ) (acc : List α) (tmp tmp' : ℕ → Option (FileOf (List α))) (l : List α),
      cores.Nodup → collectEvents cores acc tmp = (.ok l, tmp') →
      (∃ b : ℕ → List α, (∀ i ∈ cores, tmp i = some (.good (b i))) ∧ l = acc ++ cores.flatMap b) ∧
      ∀ i, tmp' i = if i ∈ cores then none else tmp i
  | [], acc, tmp, tmp', l, _, h => by
    simp only [collectEvents, Prod.mk.injEq, Except.ok.injEq] at h
    obtain ⟨rfl, rfl⟩ := h
    exact ⟨⟨fun _ => [], by simp, by simp⟩, by simp⟩
  | c :: cs, acc, tmp, tmp', l, hnd, h => by
    obtain ⟨hc, hnd'⟩ := List.nodup_cons.1 hnd
    simp only [collectEvents] at h
    rcases htc : tmp c with _ | (b0 | _)
    · rw [htc] at h; cases h
    · rw [htc] at h
      simp only at h
      obtain ⟨⟨b, hb, hl⟩, ht⟩ := collectEvents_ok cs _ _ tmp' l hnd' h
      refine ⟨⟨fun i => if i = c then b0 else b i, ?_, ?_⟩, ?_⟩
      · intro i hi
        by_cases hic : i = c
        · subst hic; simp [htc]
        · have hics : i ∈ cs := by simpa [hic] using hi
          have := hb i hics
          simp only [hic, if_false] at this ⊢
          exact this
      · rw [hl, List.flatMap_cons, List.append_assoc]
        simp only [if_true]
        congr 2
        apply List.flatMap_congr
        intro i hi
        rw [if_neg (by rintro rfl; exact hc hi)]
      · intro i
        rw [ht i]
        by_cases hic : i = c
        · subst hic; simp
        · simp [hic]
    · rw [htc] at h; cases h

/-- **C51**: in a directory without left-over files, however the pool distributes the tasks and whichever
of them fail: if a call with `c ≥ 2` cores that generates (no caches) returns, then it uses exactly `n`
events: the batches of the cores in order, each generated by consecutive runs of the event function; and
no temporary file remains. -/
theorem C51_cores (E : BEnv S α) (o : BOpts) (hc : 2 ≤ o.cores)
    (hv : o.sched.Valid o.cores) (g : ℕ) (n : ℤ) (hn : 0 ≤ n) (s s1 : BSt S α) (used : List α)
    (hclean : ∀ i, s.tmp i = none)
    (hm : o.memcache = some false) (hl : truthyName o.load = none)
    (h : bayesnet E o (some g) n (.reduceEvents .ok : Query α (List α) K) none s
      = (.ok (.reduced used), s1)) :
    ∃ cuts b, coreCuts n.toNat o.cores = .ok cuts ∧ used = (List.range o.cores).flatMap b ∧
      used.length = n ∧
      (∀ i, i < o.cores → ∃ t t' l, repeatEvent (E.event g) (cuts.getD i 0) t = (.ok l, t') ∧
        encodeList E.codec l = some (b i)) ∧
      ∀ i, s1.tmp i = none := by
  obtain ⟨ref, hp, hlist, -⟩ := used_iff.1 h
  have hlo : o.loads = false := by simp [BOpts.loads, hm]
  unfold prepareEvents at hp
  rw [cachedEvents_none hlo hl] at hp
  simp only at hp
  rcases hg : generateEvents E o g n s with ⟨e | l, s2⟩
  · rw [hg] at hp; cases hp
  rw [hg] at hp
  simp only at hp
  obtain ⟨rfl, rfl⟩ := saveRef_ok hp
  obtain ⟨f1, f2, f3, f4, -⟩ := saveEvents_frame E o (some g) n (s.mem (some g)).isSome
    (s2.alloc l).1 (s2.alloc l).2
  rw [f1] at hlist
  rw [f4]
  have hul : used = l := by rw [← hlist]; simp [BSt.alloc]
  subst hul
  obtain ⟨cuts, hcuts⟩ := coreCuts_total (n := n.toNat) (show 1 ≤ o.cores by omega)
  unfold generateEvents at hg
  rw [if_neg (by omega), hcuts] at hg
  simp only at hg
  obtain ⟨h1, h2⟩ := runEventWorkers_good (E := E) (g := g) (cuts := cuts) o.sched
    (fun _ => s.inner) s.tmp (fun i b hi => by rw [hclean i] at hi; cases hi)
  revert hg h1 h2
  generalize runEventWorkers E g cuts o.sched (fun _ => s.inner) s.tmp = tmp1
  intro hg h1 h2
  rcases hb : repeatEvent (E.event g) (cuts.getD (o.cores - 1) 0) s.inner with ⟨e | batch, s'⟩
  · rw [hb] at hg; cases hg
  rw [hb] at hg
  simp only at hg
  have h3 := writeBatch_good h1 hb
  have h4 : ∀ i, i ≠ o.cores - 1 → (writeBatch E.codec (o.cores - 1) batch tmp1).2 i = tmp1 i :=
    fun i hi => writeBatch_other hi
  revert hg h3 h4
  generalize writeBatch E.codec (o.cores - 1) batch tmp1 = w
  intro hg h3 h4
  rcases w with ⟨_ | _, tmp2⟩
  · cases hg
  simp only at hg h3 h4
  rcases hcol : collectEvents (List.range o.cores) [] tmp2 with ⟨r, tmp3⟩
  rw [hcol] at hg
  simp only [Prod.mk.injEq] at hg
  obtain ⟨rfl, rfl⟩ := hg
  obtain ⟨⟨b, hb1, hb2⟩, hb3⟩ := collectEvents_ok _ _ _ _ _ List.nodup_range hcol
  rw [List.nil_append] at hb2
  have hbatch : ∀ i, i < o.cores → ∃ t t' l,
      repeatEvent (E.event g) (cuts.getD i 0) t = (.ok l, t') ∧ encodeList E.codec l = some (b i) :=
    fun i hi => h3 i (b i) (hb1 i (List.mem_range.2 hi))
  refine ⟨cuts, b, hcuts, hb2, ?_, hbatch, ?_⟩
  · rw [hb2, flatMap_range_length (k := fun i => cuts.getD i 0), cuts_eq_map hcuts,
      (coreCuts_getD hcuts).2.1]
    · omega
    · intro i hi
      obtain ⟨t, t', l, h5, h6⟩ := hbatch i hi
      rw [encodeList_length h6, repeatEvent_length h5]
  · intro i
    show tmp3 i = none
    rw [hb3 i]
    by_cases hi : i < o.cores
    · rw [if_pos (List.mem_range.2 hi)]
    · rw [if_neg (fun h => hi (List.mem_range.1 h)), h4 i (by omega), h2 i, hclean i]
      rw [List.Perm.mem_iff hv, List.mem_range]
      omega

/-- **C51**, the call does return when the event functions and the encoder do not raise. -/
theorem C51_succeeds (E : BEnv S α) (hE : E.Total) (o : BOpts) (hc : 2 ≤ o.cores)
    (hv : o.sched.Valid o.cores) (g : ℕ) (n : ℤ) (hn : 1 ≤ n) (s : BSt S α)
    (hclean : ∀ i, i < o.cores → s.tmp i = none)
    (hm : o.memcache = some false) (hl : truthyName o.load = none) (hd : truthyName o.dump = none) :
    ∃ cuts b s1, coreCuts n.toNat o.cores = .ok cuts ∧
      bayesnet E o (some g) n (.reduceEvents .ok : Query α (List α) K) none s
        = (.ok (.reduced ((List.range o.cores).flatMap b)), s1) ∧
      ((List.range o.cores).flatMap b).length = n ∧
      (∀ i, i < o.cores → ∃ t t' l, repeatEvent (E.event g) (cuts.getD i 0) t = (.ok l, t') ∧
        encodeList E.codec l = some (b i)) ∧
      s1.tmp = s.tmp := by
  obtain ⟨cuts, b, s2, h1, h2, h3, h4⟩ := generate_multi hE hc hv g n s hclean
  have hlen : (((List.range o.cores).flatMap b).length : ℤ) = n := by
    rw [flatMap_range_length (k := fun i => cuts.getD i 0), cuts_eq_map h1, (coreCuts_getD h1).2.1]
    · omega
    · intro i hi
      obtain ⟨t, t', l, h5, h6⟩ := h3 i hi
      rw [encodeList_length h6, repeatEvent_length h5]
  have hlo : o.loads = false := by simp [BOpts.loads, hm]
  have hce : cachedEvents o (some g) n s = (.ok none, s) := cachedEvents_none hlo hl
  obtain ⟨f1, f2, f3, f4, -⟩ := saveEvents_frame E o (some g) n (s.mem (some g)).isSome
    s2.next (s2.alloc ((List.range o.cores).flatMap b)).2
  refine ⟨cuts, b, (saveEvents E o (some g) n (s.mem (some g)).isSome
      s2.next (s2.alloc ((List.range o.cores).flatMap b)).2).2, h1,
      used_iff.2 ⟨s2.next, ?_, ?_, ?_⟩, hlen, h3, ?_⟩
  · unfold prepareEvents
    rw [hce]
    simp only [h2]
    refine Prod.ext ?_ (saveRef_snd _ _ _ _ _ _ _)
    rw [saveRef_fst, hd]
    rfl
  · rw [f1]; simp [BSt.alloc]
  · intro h0; rw [h0] at hlen; simp at hlen; omega
  · rw [f4]; exact h4

/-- **C51 fails** with a left-over file: a file `test-core-0.sqcache` of an earlier, crashed run is used
instead of the batch of that core, whatever it contains.  So `n` is not even the number of events. -/
theorem C51_stale_fails (E : BEnv S α) (hE : E.Total) (g p : ℕ) (n : ℤ) (hn : 1 ≤ n)
    (s : BSt S α) (stale : List α) (h0 : s.tmp 0 = some (.good stale)) (h1 : s.tmp 1 = none) :
    ∃ b s1, bayesnet E { memcache := some false, cores := 2, sched := [(p, 0)] } (some g) n
        (.reduceEvents .ok : Query α (List α) K) none s = (.ok (.reduced (stale ++ b)), s1) ∧
      b.length = n.toNat - n.toNat / 2 := by
  obtain ⟨o, ho⟩ : ∃ o : BOpts, o = { memcache := some false, cores := 2, sched := [(p, 0)] } :=
    ⟨_, rfl⟩
  have ho1 : o.cores = 2 := by rw [ho]
  have ho2 : o.sched = [(p, 0)] := by rw [ho]
  have ho3 : o.memcache = some false := by rw [ho]
  have ho4 : truthyName o.load = none := by rw [ho]; rfl
  have ho5 : truthyName o.dump = none := by rw [ho]; rfl
  rw [← ho]
  obtain ⟨cuts, hcuts⟩ := coreCuts_total (n := n.toNat) (show 1 ≤ 2 by omega)
  obtain ⟨-, hsum, hc0, hc1⟩ := coreCuts_getD hcuts
  obtain ⟨batch, i', hb⟩ := repeatEvent_total (hE.1 g) (cuts.getD 1 0) s.inner
  obtain ⟨batch', hb'⟩ := encodeList_total hE.2 batch
  have hw := runEventWorkers_total hE g cuts [(p, 0)] (fun _ => s.inner) s.tmp
  have hw0 : runEventWorkers E g cuts [(p, 0)] (fun _ => s.inner) s.tmp 0 = some (.good stale) := by
    rcases (hw 0).2 (by simp) with ⟨x, hx, h2⟩ | ⟨h2, -⟩
    · rw [h0] at hx; rw [h2, ← hx]
    · rw [h0] at h2; cases h2
  have hw1 : runEventWorkers E g cuts [(p, 0)] (fun _ => s.inner) s.tmp 1 = none := by
    rw [(hw 1).1 (by simp), h1]
  obtain ⟨tmp1, htmp1⟩ : ∃ t, t = runEventWorkers E g cuts [(p, 0)] (fun _ => s.inner) s.tmp :=
    ⟨_, rfl⟩
  rw [← htmp1] at hw0 hw1
  have hwb : writeBatch E.codec 1 batch tmp1 =
      (true, fun i => if i = 1 then some (.good batch') else tmp1 i) := by
    simp [writeBatch, hw1, hb']
  have hgen : ∃ s2, generateEvents E o g n s = (.ok (stale ++ batch'), s2) := by
    unfold generateEvents
    rw [ho1, ho2, if_neg (by omega), hcuts]
    simp only [← htmp1, show 2 - 1 = 1 from rfl, hb, hwb]
    rw [show List.range 2 = [0, 1] from rfl]
    simp [collectEvents, hw0]
  obtain ⟨s2, hg⟩ := hgen
  have hlo : o.loads = false := by simp [BOpts.loads, ho3]
  have hce : cachedEvents o (some g) n s = (.ok none, s) := cachedEvents_none hlo ho4
  obtain ⟨f1, -⟩ := saveEvents_frame E o (some g) n (s.mem (some g)).isSome
    s2.next (s2.alloc (stale ++ batch')).2
  have hlen : batch'.length = n.toNat - n.toNat / 2 := by
    rw [encodeList_length hb', repeatEvent_length hb]
    simp only [show 2 - 1 = 1 from rfl] at hc1
    rw [hc1]
    omega
  refine ⟨batch', (saveEvents E o (some g) n (s.mem (some g)).isSome
      s2.next (s2.alloc (stale ++ batch')).2).2, used_iff.2 ⟨s2.next, ?_, ?_, ?_⟩, hlen⟩
  · unfold prepareEvents
    rw [hce]
    simp only [hg]
    refine Prod.ext ?_ (saveRef_snd _ _ _ _ _ _ _)
    rw [saveRef_fst, ho5]
    rfl
  · rw [f1]; simp [BSt.alloc]
  · intro h
    have h2 : batch' = [] := (List.append_eq_nil_iff.1 h).2
    rw [h2] at hlen
    simp at hlen
    omega

/-- A leftover *empty* batch: ten events are asked for, five are used. -/
example : ((bayesnet demoB { memcache := some false, cores := 2, sched := [(0, 0)] } (some 0) 10
    (.reduceEvents .ok : Query ℕ (List ℕ) ℚ) none
    { (BSt.fresh 1 : BSt ℕ ℕ) with tmp := fun i => if i = 0 then some (.good []) else none }
    ).1.toOption.bind fun r => match r with | .reduced l => some l | _ => none)
    = some [1, 2, 3, 4, 5] := by decide +kernel

/-- Three cores, two tasks in one process: seven events from a clean directory. -/
example : ((bayesnet demoB { memcache := some false, cores := 3, sched := [(0, 1), (0, 0)] } (some 0) 7
    (.reduceEvents .ok : Query ℕ (List ℕ) ℚ) none (.fresh 1)).1.toOption.bind
      fun r => match r with | .reduced l => some l | _ => none)
    = some [3, 4, 1, 2, 1, 2, 3] := by decide +kernel

/-! ## C26 for `bayesnet` -/

theorem runEventWorkers_separate {E : BEnv S α} (hE : E.Total) (fn : ℕ) (cuts : List ℕ) (i0 : S) :
    ∀ (sched : Sched) (procs : ℕ → S) (tmp : ℕ → Option (FileOf (List α))),
      (sched.map Prod.fst).Nodup → (sched.map Prod.snd).Nodup →
      (∀ p ∈ sched.map Prod.fst, procs p = i0) →
      ∀ i ∈ sched.map Prod.snd, tmp i = none → ∀ l t l',
        repeatEvent (E.event fn) (cuts.getD i 0) i0 = (.ok l, t) → encodeList E.codec l = some l' →
        runEventWorkers E fn cuts sched procs tmp i = some (.good l')
  | [], _, _, _, _, _, i, hi, _, _, _, _, _, _ => by simp at hi
  | (p, core) :: rest, procs, tmp, hp, hc, hproc, i, hi, ht, l, t, l', hl, hl' => by
    simp only [List.map_cons, List.nodup_cons] at hp hc
    obtain ⟨b, s', hb⟩ := repeatEvent_total (hE.1 fn) (cuts.getD core 0) (procs p)
    obtain ⟨b', hb'⟩ := encodeList_total hE.2 b
    have hstep : runEventWorkers E fn cuts ((p, core) :: rest) procs tmp =
        runEventWorkers E fn cuts rest (fun q => if q = p then s' else procs q)
          (writeBatch E.codec core b tmp).2 := by
      simp only [runEventWorkers, hb]
    rw [hstep]
    by_cases hic : i = core
    · subst hic
      rw [(runEventWorkers_total hE fn cuts rest _ _ i).1 hc.1]
      rw [hproc p (by simp)] at hb
      rw [hb] at hl
      cases hl
      simp [writeBatch, ht, hl']
    · refine runEventWorkers_separate hE fn cuts i0 rest _ _ hp.2 hc.2 ?_ i ?_ ?_ l t l' hl hl'
      · intro q hq
        have hqp : q ≠ p := fun h => hp.1 (h ▸ hq)
        simp only [hqp, if_false]
        exact hproc q (by simp only [List.map_cons, List.mem_cons]; exact Or.inr hq)
      · simpa [hic] using hi
      · unfold writeBatch
        cases hcc : tmp core with
        | some x => exact ht
        | none => simp [hb', hic, ht]

/-- **C26 fails** for `bayesnet`: the processes start with a copy of the generator.  If every task runs
in its own process and `n` is a multiple of the number of cores, the "n events" are one batch of
`n / cores` events, repeated. -/
theorem C26_bayesnet_repeated_fails (E : BEnv S α) (hE : E.Total) (o : BOpts) (hc : 2 ≤ o.cores)
    (hv : o.sched.Valid o.cores) (hsep : o.sched.Separate) (g : ℕ) (n : ℤ) (hn : 1 ≤ n)
    (hdiv : o.cores ∣ n.toNat) (s : BSt S α) (hclean : ∀ i, i < o.cores → s.tmp i = none)
    (hm : o.memcache = some false) (hl : truthyName o.load = none) (hd : truthyName o.dump = none) :
    ∃ b s1, b.length = n.toNat / o.cores ∧
      bayesnet E o (some g) n (.reduceEvents .ok : Query α (List α) K) none s
        = (.ok (.reduced (List.replicate o.cores b).flatten), s1) := by
  obtain ⟨cuts, hcuts⟩ := coreCuts_total (n := n.toNat) (show 1 ≤ o.cores by omega)
  obtain ⟨-, hsum, hc0, hc1⟩ := coreCuts_getD hcuts
  rw [Nat.mod_eq_zero_of_dvd hdiv, Nat.add_zero] at hc1
  have hcut : ∀ i, i < o.cores → cuts.getD i 0 = n.toNat / o.cores := by
    intro i hi
    by_cases h : i + 1 < o.cores
    · exact hc0 i h
    · rw [show i = o.cores - 1 by omega]; exact hc1
  obtain ⟨l, t, hlt⟩ := repeatEvent_total (hE.1 g) (n.toNat / o.cores) s.inner
  obtain ⟨l', hl'⟩ := encodeList_total hE.2 l
  have hlen : l'.length = n.toNat / o.cores := by
    rw [encodeList_length hl', repeatEvent_length hlt]
  have hmem : ∀ i, i ∈ o.sched.map Prod.snd ↔ i < o.cores - 1 := by
    intro i
    rw [List.Perm.mem_iff hv, List.mem_range]
  have hnd : (o.sched.map Prod.snd).Nodup := (List.Perm.nodup_iff hv).2 List.nodup_range
  obtain ⟨tmp1, htmp1⟩ : ∃ t, t = runEventWorkers E g cuts o.sched (fun _ => s.inner) s.tmp :=
    ⟨_, rfl⟩
  have hw : ∀ i, i < o.cores - 1 → tmp1 i = some (.good l') := by
    intro i hi
    rw [htmp1]
    exact runEventWorkers_separate hE g cuts s.inner o.sched _ _ hsep hnd (fun _ _ => rfl) i
      ((hmem i).2 hi) (hclean i (by omega)) l t l' (by rw [hcut i (by omega)]; exact hlt) hl'
  have hwl : tmp1 (o.cores - 1) = none := by
    rw [htmp1, (runEventWorkers_total hE g cuts o.sched _ _ _).1 (by rw [hmem]; omega)]
    exact hclean _ (by omega)
  have hwb : writeBatch E.codec (o.cores - 1) l tmp1 =
      (true, fun i => if i = o.cores - 1 then some (.good l') else tmp1 i) := by
    simp [writeBatch, hwl, hl']
  have hcol := collectEvents_good (fun _ => l') (List.range o.cores) []
    (fun i => if i = o.cores - 1 then some (.good l') else tmp1 i) List.nodup_range (by
      intro i hi
      rw [List.mem_range] at hi
      by_cases h1 : i = o.cores - 1
      · simp only [h1, if_true]
      · simp only [h1, if_false]
        exact hw i (by omega))
  have hgen : ∃ s2, generateEvents E o g n s =
      (.ok (List.replicate o.cores l').flatten, s2) := by
    unfold generateEvents
    rw [if_neg (by omega), hcuts]
    simp only [← htmp1, hcut (o.cores - 1) (by omega), hlt, hwb, hcol]
    refine ⟨_, Prod.ext ?_ rfl⟩
    simp [List.flatMap_def, List.map_const']
  obtain ⟨s2, hg⟩ := hgen
  have hlo : o.loads = false := by simp [BOpts.loads, hm]
  have hce : cachedEvents o (some g) n s = (.ok none, s) := cachedEvents_none hlo hl
  obtain ⟨f1, -⟩ := saveEvents_frame E o (some g) n (s.mem (some g)).isSome
    s2.next (s2.alloc (List.replicate o.cores l').flatten).2
  refine ⟨l', (saveEvents E o (some g) n (s.mem (some g)).isSome
      s2.next (s2.alloc (List.replicate o.cores l').flatten).2).2, hlen,
      used_iff.2 ⟨s2.next, ?_, ?_, ?_⟩⟩
  · unfold prepareEvents
    rw [hce]
    simp only [hg]
    refine Prod.ext ?_ (saveRef_snd _ _ _ _ _ _ _)
    rw [saveRef_fst, hd]
    rfl
  · rw [f1]; simp [BSt.alloc]
  · intro h
    have h2 := congrArg List.length h
    rw [List.length_flatten] at h2
    simp only [List.map_replicate, List.sum_replicate_nat, List.length_nil, hlen] at h2
    rw [Nat.mul_div_cancel' hdiv] at h2
    omega

/-! ## C78 -/

/-- An event produced by the event function `g`, possibly after a round trip through a file. -/
def ProducedBy (E : BEnv S α) (g : ℕ) (a : α) : Prop :=
  ∃ t t' b, E.event g t = (.ok b, t') ∧ (a = b ∨ E.codec b = some a)

theorem repeatEvent_mem {f : S → Except PyErr α × S} :
    ∀ {k : ℕ} {s s' : S} {l : List α}, repeatEvent f k s = (.ok l, s') →
      ∀ a ∈ l, ∃ t t', f t = (.ok a, t')
  | 0, _, _, _, h, a, ha => by cases h; simp at ha
  | k + 1, s, s', l, h, a, ha => by
    simp only [repeatEvent] at h
    rcases hf : f s with ⟨e | b, s1⟩
    · rw [hf] at h; cases h
    · rw [hf] at h
      simp only at h
      rcases hr : repeatEvent f k s1 with ⟨e | as, s2⟩
      · rw [hr] at h; cases h
      · rw [hr] at h
        cases h
        rcases List.mem_cons.1 ha with rfl | ha
        · exact ⟨s, s1, hf⟩
        · exact repeatEvent_mem hr a ha

theorem encodeList_mem {codec : α → Option α} :
    ∀ {l l' : List α}, encodeList codec l = some l' → ∀ a ∈ l', ∃ b ∈ l, codec b = some a
  | [], _, h, a, ha => by cases h; simp at ha
  | b :: l, l', h, a, ha => by
    simp only [encodeList] at h
    split at h
    · rename_i a' t h1 h2
      cases h
      rcases List.mem_cons.1 ha with rfl | ha
      · exact ⟨b, by simp, h1⟩
      · obtain ⟨c, hc, h3⟩ := encodeList_mem h2 a ha
        exact ⟨c, by simp [hc], h3⟩
    · cases h

/-- What a tame call generates was produced by the event function. -/
theorem generate_produced {E : BEnv S α} {o : BOpts}
    (ht : o.cores ≤ 1 ∨ o.sched.Valid o.cores ∧ E.Total) {g : ℕ} {n : ℤ} {s s' : BSt S α}
    (hclean : ∀ i, s.tmp i = none) {l : List α} (h : generateEvents E o g n s = (.ok l, s')) :
    ∀ a ∈ l, ProducedBy E g a := by
  intro a ha
  by_cases h1 : o.cores = 1
  · unfold generateEvents at h
    rw [if_pos h1] at h
    rcases hr : repeatEvent (E.event g) n.toNat s.inner with ⟨r, i'⟩
    rw [hr] at h
    simp only [Prod.mk.injEq] at h
    rw [h.1] at hr
    obtain ⟨t, t', h2⟩ := repeatEvent_mem hr a ha
    exact ⟨t, t', a, h2, Or.inl rfl⟩
  · by_cases h0 : o.cores = 0
    · have : generateEvents E o g n s = (.error .indexError, s) := by
        unfold generateEvents
        rw [if_neg h1, h0]
        rfl
      rw [this] at h; cases h
    · rcases ht with ht | ⟨hv, hE⟩
      · omega
      · obtain ⟨cuts, b, s2, -, hg, hb, -⟩ := generate_multi hE (o := o) (by omega) hv g n s
          (fun i _ => hclean i)
        rw [hg] at h
        cases h
        obtain ⟨i, hi, hai⟩ := List.mem_flatMap.1 ha
        obtain ⟨t, t', l, h2, h3⟩ := hb i (List.mem_range.1 hi)
        obtain ⟨c, hc, h4⟩ := encodeList_mem h3 a hai
        obtain ⟨u, u', h5⟩ := repeatEvent_mem h2 c hc
        exact ⟨u, u', c, h5, Or.inr h4⟩

/-- The memory entry for `g` holds only events of `g`. -/
def Own (E : BEnv S α) (g : ℕ) (s : BSt S α) : Prop :=
  ∀ e, s.mem (some g) = some e → ∀ a ∈ s.lists e.ref, ProducedBy E g a

theorem own_prepare {E : BEnv S α} {o : BOpts}
    (ht : o.cores ≤ 1 ∨ o.sched.Valid o.cores ∧ E.Total) (fn : Option ℕ) (n : ℤ) (g : ℕ)
    (hl : fn = some g → truthyName o.load = none) {s : BSt S α} (hi : BInv s) (h : Own E g s) :
    Own E g (prepareEvents E o fn n s).2 ∧ (fn = some g → ∀ ref s',
      prepareEvents E o fn n s = (.ok (some ref), s') → ∀ a ∈ s'.lists ref, ProducedBy E g a) := by
  have ownAlloc : ∀ (s0 : BSt S α) l, (∀ k e, s0.mem k = some e → e.ref < s0.next) → Own E g s0 →
      Own E g (s0.alloc l).2 := by
    intro s0 l hw h0 e he
    simp only [BSt.alloc] at he ⊢
    rw [if_neg (by have := hw _ e he; omega)]
    exact h0 e he
  have fin : ∀ (had : Bool) (ref : ℕ) (s0 : BSt S α), Own E g s0 →
      (fn = some g → ∀ a ∈ s0.lists ref, ProducedBy E g a) →
      Own E g (saveRef E o fn n had ref s0).2 ∧ (fn = some g → ∀ r s',
        saveRef E o fn n had ref s0 = (.ok (some r), s') → ∀ a ∈ s'.lists r, ProducedBy E g a) := by
    intro had ref s0 h0 hown
    obtain ⟨f1, f2, f3, f4, f5, f6⟩ := saveEvents_frame E o fn n had ref s0
    refine ⟨?_, fun hfn r s' hs => ?_⟩
    · rw [saveRef_snd]
      intro e he
      rw [f5] at he
      rw [f1]
      split_ifs at he with hc
      · simp only at he
        split_ifs at he with hk
        · cases he; exact hown hk.symm
        · exact h0 e he
      · exact h0 e he
    · obtain ⟨rfl, rfl⟩ := saveRef_ok hs
      rw [f1]
      exact hown hfn
  have hfr : ∀ g' r s2, generateEvents E o g' n s = (r, s2) →
      s2.mem = s.mem ∧ s2.lists = s.lists ∧ s2.next = s.next := by
    intro g' r s2 hg
    have := generateEvents_frame E o g' n s
    rw [hg] at this
    simp only at this
    rw [this]
    exact ⟨rfl, rfl, rfl⟩
  rcases prepare_cases E o fn n s with ⟨e, hp⟩ | ⟨g', e, s2, -, hg, hp⟩ | ⟨-, hp⟩ |
    ⟨e, hm, -, -, -, hp⟩ | ⟨f, l, k, hf, -, -, -, hp⟩ | ⟨g', l, s2, hfn, -, hg, hp⟩
  · rw [hp]; exact ⟨h, fun _ r s' hh => by cases hh⟩
  · rw [hp]
    refine ⟨?_, fun _ r s' hh => by cases hh⟩
    obtain ⟨k1, k2, k3⟩ := hfr g' _ s2 hg
    intro e he
    rw [k1] at he
    simp only
    rw [k2]
    exact h e he
  · rw [hp]; exact ⟨h, fun _ r s' hh => by cases hh⟩
  · rw [hp]
    refine fin _ _ _ h ?_
    rintro rfl
    exact h e hm
  · rw [hp]
    refine fin _ _ _ (ownAlloc s l (fun k e he => (hi.mem k e he).2) h) ?_
    intro hfn
    rw [hl hfn] at hf
    cases hf
  · rw [hp]
    obtain ⟨k1, k2, k3⟩ := hfr g' _ s2 hg
    have h2 : Own E g s2 := by
      intro e he
      rw [k1] at he
      rw [k2]
      exact h e he
    refine fin _ _ _ (ownAlloc s2 l (fun k e he => by
      rw [k1] at he; rw [k3]; exact (hi.mem k e he).2) h2) ?_
    intro hfg
    rw [hfg] at hfn
    cases hfn
    simp only [BSt.alloc, if_true]
    exact generate_produced ht hi.tmp hg

/-- The step loads no file on behalf of the event function `g`. -/
def BOp.NoLoad (g : ℕ) : BOp α ρ K → Prop
  | .call o fn _ _ _ => fn = some g → truthyName o.load = none
  | _ => True

theorem own_run {E : BEnv S α} (g : ℕ) :
    ∀ (ops : List (BOp α ρ K)), (∀ op ∈ ops, op.Tame E ∧ op.NoLoad g) → ∀ s : BSt S α, BInv s →
      Own E g s → Own E g (runBayes E ops s)
  | [], _, s, _, h => h
  | op :: ops, hops, s, hi, h => by
    obtain ⟨ht, hn⟩ := hops op (by simp)
    refine own_run g ops (fun o ho => hops o (by simp [ho])) _ (step_inv ht hi) ?_
    cases op with
    | call o fn n q cond =>
      have h1 := (own_prepare ht fn n g hn hi h).1
      have h2 := (prepare_inv ht fn n hi).1
      simp only [BOp.step]
      rcases bayesnet_frame E o fn n q cond s with h3 | ⟨l, h3⟩ <;> rw [h3]
      · exact h1
      · intro e he
        simp only [BSt.alloc] at he ⊢
        rw [if_neg (by have := (h2.mem _ e he).2; omega)]
        exact h1 e he
    | mutate r l => exact ht.elim
    | restart => exact fun e he => by simp [BOp.step] at he
    | truncate f => exact h

/-- **C78**: in histories as in C47 in which no cache file is loaded for the event function `g`, a call for
`g` uses only events that `g` produced, however many calls for other event functions there are.
(Missing: cache files, which are not tied to an event function.) -/
theorem C78_own_events_partial (E : BEnv S α) (i : S) (g : ℕ) (ops : List (BOp α ρ K))
    (hops : ∀ op ∈ ops, op.Tame E ∧ op.NoLoad g) (o : BOpts)
    (ht : o.cores ≤ 1 ∨ o.sched.Valid o.cores ∧ E.Total) (hl : truthyName o.load = none) (n : ℤ)
    (l : List α) (s' : BSt S α)
    (h : bayesnet E o (some g) n (.reduceEvents .ok : Query α (List α) K) none
      (runBayes E ops (.fresh i)) = (.ok (.reduced l), s')) : ∀ a ∈ l, ProducedBy E g a := by
  obtain ⟨ref, hp, rfl, -⟩ := used_iff.1 h
  have hi := run_inv ops (fun op ho => (hops op ho).1) _ (fresh_inv (α := α) i)
  have ho := own_run g ops hops _ (fresh_inv i) (fun e he => by simp [BSt.fresh] at he)
  exact (own_prepare ht (some g) n g (fun _ => hl) hi ho).2 rfl ref s' hp

/-- **C78 fails** with cache files: the file of event function 0 is used for event function 1, which
never produces such an event. -/
theorem C78_own_events_fails :
    ((bayesnet demoB { load := some "a" } (some 1) 2 (.reduceEvents .ok : Query ℕ (List ℕ) ℚ) none
      (runBayes demoB [.call { dump := some "a" } (some 0) 3 (.events : Query ℕ Unit ℚ) none]
        (.fresh 1))).1.toOption.bind fun r => match r with | .reduced l => some l | _ => none)
      = some [1, 2, 3] ∧ ¬ ProducedBy demoB 1 1 := by
  constructor
  · decide +kernel
  · rintro ⟨t, t', b, h1, h2⟩
    simp only [demoB, Prod.mk.injEq, Except.ok.injEq, Option.some.injEq] at h1 h2
    omega

end Verif
