import Verif.Spec.Bayesnet
import Verif.Props.Multicore

/-! # Lemmas about `bayesnet` -/

namespace Verif

variable {S α ρ K : Type}

/-- Save, then hand on the reference. -/
def saveRef (E : BEnv S α) (o : BOpts) (fn : Option ℕ) (n : ℤ) (had : Bool) (ref : ℕ)
    (s : BSt S α) : Except PyErr (Option ℕ) × BSt S α :=
  match saveEvents E o fn n had ref s with
  | (.error e, s1) => (.error e, s1)
  | (.ok _, s1) => (.ok (some ref), s1)

/-- Everything `bayesnet` does before it looks at the query. -/
def prepareEvents (E : BEnv S α) (o : BOpts) (fn : Option ℕ) (n : ℤ) (s : BSt S α) :
    Except PyErr (Option ℕ) × BSt S α :=
  match cachedEvents o fn n s with
  | (.error e, s1) => (.error e, s1)
  | (.ok (some ref), s1) => saveRef E o fn n (s.mem fn).isSome ref s1
  | (.ok none, s1) =>
    match fn with
    | none => (.ok none, s1)
    | some f =>
      match generateEvents E o f n s1 with
      | (.error e, s2) => (.error e, s2)
      | (.ok l, s2) => saveRef E o fn n (s.mem fn).isSome (s2.alloc l).1 (s2.alloc l).2

theorem bayesnet_eq [Field K] (E : BEnv S α) (o : BOpts) (fn : Option ℕ) (n : ℤ) (q : Query α ρ K)
    (cond : Option (α → Except PyErr Bool)) (s : BSt S α) :
    bayesnet E o fn n q cond s =
      match prepareEvents E o fn n s with
      | (.error e, s1) => (.error e, s1)
      | (.ok none, s1) => (.ok .pyNone, s1)
      | (.ok (some ref), s1) => answerEvents q cond ref s1 := by
  have key : ∀ had ref s1, finishBayes E o fn n q cond had ref s1 =
      match saveRef E o fn n had ref s1 with
      | (.error e, s1) => (.error e, s1)
      | (.ok none, s1) => (.ok .pyNone, s1)
      | (.ok (some ref), s1) => answerEvents q cond ref s1 := by
    intro had ref s1
    unfold finishBayes saveRef
    rcases saveEvents E o fn n had ref s1 with ⟨_ | _, s2⟩ <;> rfl
  unfold bayesnet prepareEvents
  rcases cachedEvents o fn n s with ⟨_ | _ | ref, s1⟩
  · rfl
  · cases fn with
    | none => rfl
    | some f =>
      simp only
      rcases generateEvents E o f n s1 with ⟨_ | l, s2⟩
      · rfl
      · exact key _ _ _
  · exact key _ _ _

theorem cachedEvents_cases (o : BOpts) (fn : Option ℕ) (n : ℤ) (s : BSt S α) :
    (∃ e, cachedEvents o fn n s = (.error e, s)) ∨
    cachedEvents o fn n s = (.ok none, s) ∨
    (∃ e, s.mem fn = some e ∧ n ≤ e.n ∧ o.loads = true ∧ o.reload = false ∧
      cachedEvents o fn n s = (.ok (some e.ref), s)) ∨
    (∃ f l k, truthyName o.load = some f ∧ s.files f = some (.good (l, k)) ∧ n ≤ k ∧
      o.reload = false ∧
      cachedEvents o fn n s = (.ok (some s.next), (s.alloc l).2)) := by
  unfold cachedEvents
  by_cases hr : o.reload = true
  · rw [if_pos hr]; exact Or.inr (Or.inl rfl)
  · rw [if_neg hr]
    have hr' : o.reload = false := by simpa using hr
    rcases hf : (truthyName o.load).bind s.files with _ | f
    · rcases hm : s.mem fn with _ | e
      · exact Or.inr (Or.inl rfl)
      · simp only
        by_cases h1 : o.loads = true
        · rw [if_pos h1]
          split_ifs with h2
          · exact Or.inl ⟨_, rfl⟩
          · exact Or.inr (Or.inr (Or.inl ⟨e, rfl, not_lt.1 h2, h1, hr', rfl⟩))
        · rw [if_neg h1]; exact Or.inr (Or.inl rfl)
    · simp only
      rw [Option.bind_eq_some_iff] at hf
      obtain ⟨name, hn, hfile⟩ := hf
      by_cases h1 : ((s.mem fn).isNone || o.filePrimary) = true
      · rw [if_pos h1]
        rcases f with ⟨l, k⟩ | _
        · simp only
          split_ifs with h2
          · exact Or.inl ⟨_, rfl⟩
          · exact Or.inr (Or.inr (Or.inr ⟨name, l, k, hn, hfile, not_lt.1 h2, hr', rfl⟩))
        · exact Or.inl ⟨_, rfl⟩
      · rw [if_neg h1]
        rcases hm : s.mem fn with _ | e
        · exact Or.inr (Or.inl rfl)
        · simp only
          by_cases h2 : o.loads = true
          · rw [if_pos h2]
            split_ifs with h3
            · exact Or.inl ⟨_, rfl⟩
            · exact Or.inr (Or.inr (Or.inl ⟨e, rfl, not_lt.1 h3, h2, hr', rfl⟩))
          · rw [if_neg h2]; exact Or.inr (Or.inl rfl)

/-- Generating events changes only the generator and the temporary files. -/
theorem generateEvents_frame (E : BEnv S α) (o : BOpts) (fn : ℕ) (n : ℤ) (s : BSt S α) :
    (generateEvents E o fn n s).2 =
      { s with inner := (generateEvents E o fn n s).2.inner
               tmp := (generateEvents E o fn n s).2.tmp } := by
  unfold generateEvents
  split_ifs with hc
  · rfl
  · rcases coreCuts n.toNat o.cores with e | cuts
    · rfl
    · simp only
      rcases repeatEvent (E.event fn) (cuts.getD (o.cores - 1) 0) s.inner with ⟨_ | batch, s'⟩
      · rfl
      · simp only
        rcases writeBatch E.codec (o.cores - 1) batch
          (runEventWorkers E fn cuts o.sched (fun _ => s.inner) s.tmp) with ⟨_ | _, tmp2⟩
        · rfl
        · rfl

theorem repeatEvent_length {f : S → Except PyErr α × S} :
    ∀ {k : ℕ} {s s' : S} {l : List α}, repeatEvent f k s = (.ok l, s') → l.length = k
  | 0, _, _, _, h => by cases h; rfl
  | k + 1, s, s', l, h => by
    simp only [repeatEvent] at h
    rcases hf : f s with ⟨e | a, s1⟩
    · rw [hf] at h; cases h
    · rw [hf] at h
      simp only at h
      rcases hr : repeatEvent f k s1 with ⟨e | as, s2⟩
      · rw [hr] at h; cases h
      · rw [hr] at h
        cases h
        simp [repeatEvent_length hr]

theorem repeatEvent_total {f : S → Except PyErr α × S} (hf : ∀ s, ∃ a s', f s = (.ok a, s')) :
    ∀ (k : ℕ) (s : S), ∃ l s', repeatEvent f k s = (.ok l, s')
  | 0, s => ⟨[], s, rfl⟩
  | k + 1, s => by
    obtain ⟨a, s1, h1⟩ := hf s
    obtain ⟨l, s2, h2⟩ := repeatEvent_total hf k s1
    exact ⟨a :: l, s2, by simp [repeatEvent, h1, h2]⟩

theorem encodeList_length {codec : α → Option α} :
    ∀ {l l' : List α}, encodeList codec l = some l' → l'.length = l.length
  | [], _, h => by cases h; rfl
  | a :: l, l', h => by
    simp only [encodeList] at h
    split at h
    · rename_i a' t h1 h2
      cases h
      simp [encodeList_length h2]
    · cases h

theorem encodeList_total {codec : α → Option α} (hc : ∀ a, ∃ b, codec a = some b) :
    ∀ l : List α, ∃ l', encodeList codec l = some l'
  | [] => ⟨[], rfl⟩
  | a :: l => by
    obtain ⟨b, hb⟩ := hc a
    obtain ⟨l', hl⟩ := encodeList_total hc l
    exact ⟨b :: l', by simp [encodeList, hb, hl]⟩

theorem encodeList_id {codec : α → Option α} (hc : ∀ a, codec a = some a) :
    ∀ l : List α, encodeList codec l = some l
  | [] => rfl
  | a :: l => by simp [encodeList, hc a, encodeList_id hc l]

/-- The workers, when nothing raises: every task writes a file of the right size, unless there is one
already. -/
theorem runEventWorkers_total {E : BEnv S α} (hE : E.Total) (fn : ℕ) (cuts : List ℕ) :
    ∀ (sched : Sched) (procs : ℕ → S) (tmp : ℕ → Option (FileOf (List α))),
      ∀ i, (i ∉ sched.map Prod.snd → runEventWorkers E fn cuts sched procs tmp i = tmp i) ∧
        (i ∈ sched.map Prod.snd → (∃ x, tmp i = some x ∧
            runEventWorkers E fn cuts sched procs tmp i = some x) ∨
          (tmp i = none ∧ ∃ s s' l l', repeatEvent (E.event fn) (cuts.getD i 0) s = (.ok l, s') ∧
            encodeList E.codec l = some l' ∧
            runEventWorkers E fn cuts sched procs tmp i = some (.good l')))
  | [], procs, tmp, i => ⟨fun _ => rfl, fun h => by simp at h⟩
  | (p, core) :: rest, procs, tmp, i => by
    obtain ⟨l, s', hl⟩ := repeatEvent_total (hE.1 fn) (cuts.getD core 0) (procs p)
    obtain ⟨l', hl'⟩ := encodeList_total hE.2 l
    have ih := runEventWorkers_total hE fn cuts rest (fun q => if q = p then s' else procs q)
      (writeBatch E.codec core l tmp).2 i
    have hstep : runEventWorkers E fn cuts ((p, core) :: rest) procs tmp =
        runEventWorkers E fn cuts rest (fun q => if q = p then s' else procs q)
          (writeBatch E.codec core l tmp).2 := by
      simp only [runEventWorkers, hl]
    rw [hstep]
    have hw : (writeBatch E.codec core l tmp).2 i =
        if i = core then some ((tmp core).getD (.good l')) else tmp i := by
      unfold writeBatch
      cases hc : tmp core with
      | none => simp [hl']
      | some x =>
        simp only [Option.getD_some]
        split_ifs with h
        · rw [h, hc]
        · rfl
    constructor
    · intro hi
      simp only [List.map_cons, List.mem_cons, not_or] at hi
      rw [ih.1 hi.2, hw, if_neg hi.1]
    · intro hi
      simp only [List.map_cons, List.mem_cons] at hi
      by_cases hic : i = core
      · subst hic
        rw [if_pos rfl] at hw
        have hval : runEventWorkers E fn cuts rest (fun q => if q = p then s' else procs q)
            (writeBatch E.codec i l tmp).2 i = some ((tmp i).getD (.good l')) := by
          by_cases hr : i ∈ rest.map Prod.snd
          · rcases ih.2 hr with ⟨x, hx, h2⟩ | ⟨hn, -⟩
            · rw [h2, ← hx, hw]
            · rw [hw] at hn; cases hn
          · rw [ih.1 hr, hw]
        cases ht : tmp i with
        | none =>
          right
          rw [ht] at hval
          exact ⟨rfl, procs p, s', l, l', hl, hl', hval⟩
        | some x =>
          left
          rw [ht] at hval
          exact ⟨x, rfl, hval⟩
      · rw [if_neg hic] at hw
        have hr : i ∈ rest.map Prod.snd := by tauto
        rcases ih.2 hr with ⟨x, hx, h2⟩ | ⟨hn, rest'⟩
        · left; exact ⟨x, by rw [← hw, hx], h2⟩
        · right; exact ⟨by rw [← hw, hn], rest'⟩

/-- Collecting when every file is there and readable. -/
theorem collectEvents_good (b : ℕ → List α) :
    ∀ (cores : List ℕ) (acc : List α) (tmp : ℕ → Option (FileOf (List α))), cores.Nodup →
      (∀ i ∈ cores, tmp i = some (.good (b i))) →
      collectEvents cores acc tmp =
        (.ok (acc ++ cores.flatMap b), fun i => if i ∈ cores then none else tmp i)
  | [], acc, tmp, _, _ => by simp [collectEvents]
  | c :: cs, acc, tmp, hnd, h => by
    simp only [collectEvents, h c (by simp)]
    rw [collectEvents_good b cs _ _ (List.nodup_cons.1 hnd).2]
    · refine Prod.ext (by simp) ?_
      funext i
      simp only [List.mem_cons]
      by_cases h1 : i ∈ cs
      · simp [h1]
      · by_cases h2 : i = c <;> simp [h1, h2]
    · intro i hi
      have : i ≠ c := fun hic => (List.nodup_cons.1 hnd).1 (hic ▸ hi)
      simp only [this, if_false]
      exact h i (by simp [hi])

/-- What `saveEvents` does to the state. -/
theorem saveEvents_frame (E : BEnv S α) (o : BOpts) (fn : Option ℕ) (n : ℤ) (had : Bool) (ref : ℕ)
    (s : BSt S α) :
    (saveEvents E o fn n had ref s).2.lists = s.lists ∧
    (saveEvents E o fn n had ref s).2.next = s.next ∧
    (saveEvents E o fn n had ref s).2.inner = s.inner ∧
    (saveEvents E o fn n had ref s).2.tmp = s.tmp ∧
    (saveEvents E o fn n had ref s).2.mem =
      (if o.saves = true ∧ (had = false ∨ o.reload = true) then
        fun k => if k = fn then some ⟨ref, n⟩ else s.mem k else s.mem) ∧
    (saveEvents E o fn n had ref s).2.files =
      (match truthyName o.dump with
      | none => s.files
      | some f => fun g => if g = f then
          some (match encodeList E.codec (s.lists ref) with
            | some l => .good (l, n)
            | none => .truncated) else s.files g) := by
  have hb : (o.saves && (!had || o.reload)) = true ↔
      (o.saves = true ∧ (had = false ∨ o.reload = true)) := by simp
  unfold saveEvents
  by_cases hs : o.saves = true ∧ (had = false ∨ o.reload = true)
  · rw [if_pos (hb.2 hs), if_pos hs]
    cases truthyName o.dump with
    | none => exact ⟨rfl, rfl, rfl, rfl, rfl, rfl⟩
    | some f =>
      cases encodeList E.codec (s.lists ref) <;> exact ⟨rfl, rfl, rfl, rfl, rfl, rfl⟩
  · rw [if_neg (fun h => hs (hb.1 h)), if_neg hs]
    cases truthyName o.dump with
    | none => exact ⟨rfl, rfl, rfl, rfl, rfl, rfl⟩
    | some f =>
      cases encodeList E.codec (s.lists ref) <;> exact ⟨rfl, rfl, rfl, rfl, rfl, rfl⟩

theorem saveRef_snd (E : BEnv S α) (o : BOpts) (fn : Option ℕ) (n : ℤ) (had : Bool) (ref : ℕ)
    (s : BSt S α) : (saveRef E o fn n had ref s).2 = (saveEvents E o fn n had ref s).2 := by
  unfold saveRef
  rcases saveEvents E o fn n had ref s with ⟨_ | _, s2⟩ <;> rfl

theorem saveRef_fst (E : BEnv S α) (o : BOpts) (fn : Option ℕ) (n : ℤ) (had : Bool) (ref : ℕ)
    (s : BSt S α) : (saveRef E o fn n had ref s).1 =
      (match truthyName o.dump, encodeList E.codec (s.lists ref) with
      | some _, none => .error .typeError
      | _, _ => .ok (some ref)) := by
  unfold saveRef saveEvents
  cases truthyName o.dump with
  | none => rfl
  | some f => cases encodeList E.codec (s.lists ref) <;> rfl

/-- What a query does to the state: nothing, or a new list. -/
theorem answerEvents_frame [Field K] (q : Query α ρ K) (cond : Option (α → Except PyErr Bool))
    (ref : ℕ) (s : BSt S α) :
    (answerEvents q cond ref s).2 = s ∨
      ∃ l, (answerEvents q cond ref s).2 = (s.alloc l).2 := by
  have aux : ∀ (r : ℕ) (s1 : BSt S α),
      ((if (s1.lists r).length < 1 then (.error .valueError, s1)
        else match q with
        | .events => (.ok (.listRef r), s1)
        | .reduceEvents g => ((do .ok (.reduced (← g (s1.lists r)))), s1)
        | .findRaw f => ((do .ok (.values (← mapExcept f (s1.lists r)))), s1)
        | .findReduce f none => ((do .ok (.mean (← npMean (← mapExcept f (s1.lists r))))), s1)
        | .findReduce f (some g) =>
          ((do .ok (.reduced (← g (← mapExcept f (s1.lists r))))), s1)) :
        Except PyErr (BResult ρ K) × BSt S α).2 = s1 := by
    intro r s1
    split_ifs
    · rfl
    · rcases q with _ | g | f | ⟨f, _ | g⟩ <;> rfl
  unfold answerEvents
  cases cond with
  | none => exact Or.inl (aux ref s)
  | some c =>
    simp only
    cases filterExcept c (s.lists ref) with
    | error e => exact Or.inl rfl
    | ok l => exact Or.inr ⟨l, aux _ _⟩

theorem mapExcept_flen {β : Type} {f : α → Except PyErr β} :
    ∀ {l : List α} {l' : List β}, mapExcept f l = .ok l' → l'.length = l.length :=
  fun h => mapExcept_length h

/-- The answer as the caller sees it is the specification's answer about the list. -/
theorem answerEvents_seen [Field K] (q : Query α ρ K) (cond : Option (α → Except PyErr Bool))
    (ref : ℕ) (s : BSt S α) :
    (do let r ← (answerEvents q cond ref s).1
        Except.ok (r.seen (answerEvents q cond ref s).2)) = answerAbout q cond (s.lists ref) := by
  have aux : ∀ (r : ℕ) (s1 : BSt S α) (kept : List α), s1.lists r = kept →
      (let res : Except PyErr (BResult ρ K) × BSt S α :=
        (if (s1.lists r).length < 1 then (.error .valueError, s1)
        else match q with
        | .events => (.ok (.listRef r), s1)
        | .reduceEvents g => ((do .ok (.reduced (← g (s1.lists r)))), s1)
        | .findRaw f => ((do .ok (.values (← mapExcept f (s1.lists r)))), s1)
        | .findReduce f none => ((do .ok (.mean (← npMean (← mapExcept f (s1.lists r))))), s1)
        | .findReduce f (some g) =>
          ((do .ok (.reduced (← g (← mapExcept f (s1.lists r))))), s1))
      (do let x ← res.1; Except.ok (x.seen res.2)) =
        (match kept with
        | [] => .error .valueError
        | _ =>
          match q with
          | .events => .ok (.events kept)
          | .reduceEvents r => do .ok (.reduced (← r kept))
          | .findRaw f => do .ok (.values (← mapExcept f kept))
          | .findReduce f (some r) => do .ok (.reduced (← r (← mapExcept f kept)))
          | .findReduce f none =>
            do .ok (.mean (average (← mapExcept meanValue (← mapExcept f kept))))
          : Except PyErr (Answer α ρ K))) := by
    intro r s1 kept hk
    rw [hk]
    cases kept with
    | nil => rfl
    | cons a as =>
      simp only [List.length_cons, Nat.lt_one_iff, Nat.add_eq_zero_iff, one_ne_zero, and_false,
        if_false]
      rcases q with _ | g | f | ⟨f, _ | g⟩
      · simp [BResult.seen, hk, bind, Except.bind]
      · simp only; cases g (a :: as) <;> rfl
      · simp only; cases mapExcept f (a :: as) <;> rfl
      · simp only
        cases mapExcept f (a :: as) with
        | error e => rfl
        | ok vs =>
          simp only [npMean, bind, Except.bind]
          cases mapExcept meanValue vs with
          | error e => rfl
          | ok xs => rfl
      · simp only
        cases mapExcept f (a :: as) with
        | error e => rfl
        | ok vs => simp only [bind, Except.bind]; cases g vs <;> rfl
  unfold answerEvents answerAbout
  cases cond with
  | none => exact aux ref s _ rfl
  | some c =>
    simp only
    cases filterExcept c (s.lists ref) with
    | error e => rfl
    | ok l => exact aux _ _ l (by simp [BSt.alloc])

end Verif

namespace Verif

variable {S α ρ K : Type}

theorem prepare_cases (E : BEnv S α) (o : BOpts) (fn : Option ℕ) (n : ℤ) (s : BSt S α) :
    (∃ e, prepareEvents E o fn n s = (.error e, s)) ∨
    (∃ g e s2, fn = some g ∧ generateEvents E o g n s = (.error e, s2) ∧
      prepareEvents E o fn n s = (.error e, s2)) ∨
    (fn = none ∧ prepareEvents E o fn n s = (.ok none, s)) ∨
    (∃ e, s.mem fn = some e ∧ n ≤ e.n ∧ o.loads = true ∧ o.reload = false ∧
      prepareEvents E o fn n s = saveRef E o fn n true e.ref s) ∨
    (∃ f l k, truthyName o.load = some f ∧ s.files f = some (.good (l, k)) ∧ n ≤ k ∧
      o.reload = false ∧
      prepareEvents E o fn n s = saveRef E o fn n (s.mem fn).isSome s.next (s.alloc l).2) ∨
    (∃ g l s2, fn = some g ∧ cachedEvents o fn n s = (.ok none, s) ∧
      generateEvents E o g n s = (.ok l, s2) ∧
      prepareEvents E o fn n s = saveRef E o fn n (s.mem fn).isSome s2.next (s2.alloc l).2) := by
  unfold prepareEvents
  rcases cachedEvents_cases o fn n s with ⟨e, h⟩ | h | ⟨e, h1, h2, h3, h4, h⟩ |
    ⟨f, l, k, h1, h2, h3, h4, h⟩
  · exact Or.inl ⟨e, by rw [h]⟩
  · rw [h]
    cases fn with
    | none => exact Or.inr (Or.inr (Or.inl ⟨rfl, rfl⟩))
    | some g =>
      simp only
      rcases hg : generateEvents E o g n s with ⟨e | l, s2⟩
      · exact Or.inr (Or.inl ⟨g, e, s2, rfl, hg, rfl⟩)
      · exact Or.inr (Or.inr (Or.inr (Or.inr (Or.inr ⟨g, l, s2, rfl, trivial, hg, rfl⟩))))
  · refine Or.inr (Or.inr (Or.inr (Or.inl ⟨e, h1, h2, h3, h4, ?_⟩)))
    rw [h, h1]
    rfl
  · refine Or.inr (Or.inr (Or.inr (Or.inr (Or.inl ⟨f, l, k, h1, h2, h3, h4, ?_⟩))))
    rw [h]

/-- The call with `reduce_fn=lambda events: events` shows the events that are used. -/
theorem used_iff [Field K] {E : BEnv S α} {o : BOpts} {fn : Option ℕ} {n : ℤ} {s s' : BSt S α}
    {l : List α} :
    bayesnet (K := K) E o fn n (.reduceEvents .ok : Query α (List α) K) none s
        = (.ok (.reduced l), s') ↔
      ∃ ref, prepareEvents E o fn n s = (.ok (some ref), s') ∧ s'.lists ref = l ∧ l ≠ [] := by
  rw [bayesnet_eq]
  rcases prepareEvents E o fn n s with ⟨e | _ | ref, s1⟩
  · simp
  · simp
  · simp only [answerEvents, Prod.mk.injEq, Except.ok.injEq, Option.some.injEq]
    split_ifs with h
    · constructor
      · intro h'; simp at h'
      · rintro ⟨r, ⟨rfl, rfl⟩, rfl, h2⟩
        exact absurd (List.length_eq_zero_iff.1 (by omega)) h2
    · simp only [bind, Except.bind, Prod.mk.injEq, Except.ok.injEq, BResult.reduced.injEq]
      constructor
      · rintro ⟨rfl, rfl⟩
        exact ⟨ref, ⟨rfl, rfl⟩, rfl, fun h2 => h (by rw [h2]; simp)⟩
      · rintro ⟨r, ⟨rfl, rfl⟩, rfl, -⟩
        exact ⟨rfl, rfl⟩

theorem used_error [Field K] {E : BEnv S α} {o : BOpts} {fn : Option ℕ} {n : ℤ} {s s' : BSt S α}
    {e : PyErr} :
    bayesnet (K := K) E o fn n (.reduceEvents .ok : Query α (List α) K) none s = (.error e, s') ↔
      prepareEvents E o fn n s = (.error e, s') ∨
      ∃ ref, prepareEvents E o fn n s = (.ok (some ref), s') ∧ s'.lists ref = [] ∧
        e = .valueError := by
  rw [bayesnet_eq]
  rcases prepareEvents E o fn n s with ⟨e' | _ | ref, s1⟩
  · simp
  · simp
  · simp only [answerEvents, Prod.mk.injEq, Except.ok.injEq, Option.some.injEq]
    split_ifs with h
    · constructor
      · intro h'
        simp only [Prod.mk.injEq, Except.error.injEq] at h'
        obtain ⟨rfl, rfl⟩ := h'
        exact Or.inr ⟨ref, ⟨rfl, rfl⟩, List.length_eq_zero_iff.1 (by omega), rfl⟩
      · rintro (⟨h', -⟩ | ⟨r, ⟨rfl, rfl⟩, -, rfl⟩)
        · cases h'
        · rfl
    · simp only [bind, Except.bind, Prod.mk.injEq, reduceCtorEq, false_and, false_or, false_iff]
      rintro ⟨r, ⟨rfl, rfl⟩, h2, -⟩
      exact h (by rw [h2]; simp)

theorem cuts_eq_map {n c : ℕ} {cuts : List ℕ} (h : coreCuts n c = .ok cuts) :
    (List.range c).map (fun i => cuts.getD i 0) = cuts := by
  obtain ⟨hl, -⟩ := coreCuts_getD h
  apply List.ext_getElem
  · simp [hl]
  · intro i h1 h2
    simp [List.getD_eq_getElem?_getD, List.getElem?_eq_getElem h2]

theorem coreCuts_total {n c : ℕ} (hc : 1 ≤ c) : ∃ cuts, coreCuts n c = .ok cuts := by
  obtain ⟨cuts, q, last, h, -⟩ := C24_cuts n c hc
  exact ⟨cuts, h⟩

/-- A multi-core run in which nothing raises, in a directory without left-over files. -/
theorem generate_multi {E : BEnv S α} (hE : E.Total) {o : BOpts} (hc : 2 ≤ o.cores)
    (hv : o.sched.Valid o.cores) (fn : ℕ) (n : ℤ) (s : BSt S α)
    (hclean : ∀ i, i < o.cores → s.tmp i = none) :
    ∃ cuts b s', coreCuts n.toNat o.cores = .ok cuts ∧
      generateEvents E o fn n s = (.ok ((List.range o.cores).flatMap b), s') ∧
      (∀ i, i < o.cores → ∃ t t' l, repeatEvent (E.event fn) (cuts.getD i 0) t = (.ok l, t') ∧
        encodeList E.codec l = some (b i)) ∧
      s'.tmp = s.tmp := by
  obtain ⟨cuts, hcuts⟩ := coreCuts_total (n := n.toNat) (show 1 ≤ o.cores by omega)
  obtain ⟨batch, i', hb⟩ := repeatEvent_total (hE.1 fn) (cuts.getD (o.cores - 1) 0) s.inner
  obtain ⟨batch', hb'⟩ := encodeList_total hE.2 batch
  obtain ⟨tmp1, htmp1⟩ : ∃ t, t = runEventWorkers E fn cuts o.sched (fun _ => s.inner) s.tmp :=
    ⟨_, rfl⟩
  have hw := runEventWorkers_total hE fn cuts o.sched (fun _ => s.inner) s.tmp
  rw [← htmp1] at hw
  have hmem : ∀ i, i ∈ o.sched.map Prod.snd ↔ i < o.cores - 1 := by
    intro i
    rw [List.Perm.mem_iff hv, List.mem_range]
  have hlast : tmp1 (o.cores - 1) = none := by
    rw [(hw _).1 (by rw [hmem]; omega)]
    exact hclean _ (by omega)
  have hbi : ∀ i, i < o.cores → ∃ bi, (i = o.cores - 1 → bi = batch') ∧
      (i ≠ o.cores - 1 → tmp1 i = some (.good bi)) ∧
      ∃ t t' l, repeatEvent (E.event fn) (cuts.getD i 0) t = (.ok l, t') ∧
        encodeList E.codec l = some bi := by
    intro i hi
    by_cases h1 : i = o.cores - 1
    · exact ⟨batch', fun _ => rfl, fun h => absurd h1 h, s.inner, i', batch, by rw [h1]; exact hb,
        hb'⟩
    · rcases (hw i).2 ((hmem i).2 (by omega)) with ⟨x, hx, -⟩ | ⟨-, t, t', l, l', h2, h3, h4⟩
      · rw [hclean i hi] at hx; cases hx
      · exact ⟨l', fun h => absurd h h1, fun _ => h4, t, t', l, h2, h3⟩
  have hbex : ∃ b : ℕ → List α, ∀ i, i < o.cores → (i = o.cores - 1 → b i = batch') ∧
      (i ≠ o.cores - 1 → tmp1 i = some (.good (b i))) ∧
      ∃ t t' l, repeatEvent (E.event fn) (cuts.getD i 0) t = (.ok l, t') ∧
        encodeList E.codec l = some (b i) := by
    classical
    refine ⟨fun i => if h : i < o.cores then (hbi i h).choose else [], fun i hi => ?_⟩
    simp only [hi, dif_pos]
    exact (hbi i hi).choose_spec
  obtain ⟨b, hbs⟩ := hbex
  have hwb : writeBatch E.codec (o.cores - 1) batch tmp1 =
      (true, fun i => if i = o.cores - 1 then some (.good batch') else tmp1 i) := by
    simp [writeBatch, hlast, hb']
  have hcol := collectEvents_good b (List.range o.cores) []
    (fun i => if i = o.cores - 1 then some (.good batch') else tmp1 i) List.nodup_range (by
      intro i hi
      rw [List.mem_range] at hi
      by_cases h1 : i = o.cores - 1
      · simp only [h1, if_true]
        rw [(hbs _ (by omega)).1 rfl]
      · simp only [h1, if_false]
        exact (hbs i hi).2.1 h1)
  refine ⟨cuts, b, { s with inner := i', tmp := s.tmp }, hcuts, ?_, fun i hi => (hbs i hi).2.2, rfl⟩
  unfold generateEvents
  rw [if_neg (by omega), hcuts]
  simp only [hb, ← htmp1, hwb, hcol, List.nil_append]
  refine Prod.ext rfl ?_
  simp only
  congr 1
  funext i
  simp only [List.mem_range]
  by_cases h1 : i < o.cores
  · simp [h1, hclean i h1]
  · rw [if_neg h1, if_neg (by omega)]
    exact (hw i).1 (by rw [hmem]; omega)

theorem flatMap_range_length {c : ℕ} {b : ℕ → List α} {k : ℕ → ℕ}
    (h : ∀ i, i < c → (b i).length = k i) :
    ((List.range c).flatMap b).length = ((List.range c).map k).sum := by
  rw [List.length_flatMap]
  congr 1
  exact List.map_congr_left fun i hi => h i (List.mem_range.1 hi)

/-- What a tame call generates: as many events as asked for, and no left-over files. -/
theorem generate_tame {E : BEnv S α} {o : BOpts} (ht : o.cores ≤ 1 ∨ o.sched.Valid o.cores ∧ E.Total)
    {fn : ℕ} {n : ℤ} {s : BSt S α} (hclean : ∀ i, s.tmp i = none) :
    (generateEvents E o fn n s).2.tmp = s.tmp ∧
    ∀ l s', generateEvents E o fn n s = (.ok l, s') → l.length = n.toNat := by
  by_cases h1 : o.cores = 1
  · constructor
    · unfold generateEvents; rw [if_pos h1]
    · intro l s' h
      unfold generateEvents at h
      rw [if_pos h1] at h
      rcases hr : repeatEvent (E.event fn) n.toNat s.inner with ⟨r, i'⟩
      rw [hr] at h
      simp only [Prod.mk.injEq] at h
      rw [h.1] at hr
      exact repeatEvent_length hr
  · by_cases h0 : o.cores = 0
    · have : generateEvents E o fn n s = (.error .indexError, s) := by
        unfold generateEvents
        rw [if_neg h1, h0]
        rfl
      rw [this]
      exact ⟨rfl, fun l s' h => by cases h⟩
    · rcases ht with ht | ⟨hv, hE⟩
      · omega
      · obtain ⟨cuts, b, s', hcuts, hg, hb, htmp⟩ := generate_multi hE (o := o) (by omega) hv fn n s
          (fun i _ => hclean i)
        rw [hg]
        refine ⟨htmp, fun l s'' h => ?_⟩
        cases h
        rw [flatMap_range_length (k := fun i => cuts.getD i 0), cuts_eq_map hcuts,
          (coreCuts_getD hcuts).2.1]
        intro i hi
        obtain ⟨t, t', l, h2, h3⟩ := hb i hi
        rw [encodeList_length h3, repeatEvent_length h2]

/-- A call changes the state as the preparation does, and perhaps creates a new list. -/
theorem bayesnet_frame [Field K] (E : BEnv S α) (o : BOpts) (fn : Option ℕ) (n : ℤ)
    (q : Query α ρ K) (cond : Option (α → Except PyErr Bool)) (s : BSt S α) :
    (bayesnet E o fn n q cond s).2 = (prepareEvents E o fn n s).2 ∨
      ∃ l, (bayesnet E o fn n q cond s).2 = ((prepareEvents E o fn n s).2.alloc l).2 := by
  rw [bayesnet_eq]
  rcases prepareEvents E o fn n s with ⟨e | _ | ref, s1⟩
  · exact Or.inl rfl
  · exact Or.inl rfl
  · exact answerEvents_frame q cond ref s1

end Verif
