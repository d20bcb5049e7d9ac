import Verif.Spec.Messages

/-!
# What `bayesnet(..., verbose=True)` prints is true (C140)
-/

namespace Verif

open Spec

variable {S α ρ K : Type}

/-! ### The same as without messages -/

theorem repeatEventV_fst (f : S → Except PyErr α × S) (k : ℕ) (s : S) :
    (repeatEventV f k s).1 = repeatEvent f k s := by
  induction k generalizing s with
  | zero => rfl
  | succ k ih =>
    simp only [repeatEventV, repeatEvent]
    rcases h : f s with ⟨e | a, s'⟩
    · rfl
    · simp only [← ih]
      rcases h' : repeatEventV f k s' with ⟨⟨e | as, s''⟩, c⟩ <;> rfl

theorem collectEventsV_fst (cs : List ℕ) (acc : List α) (tmp : ℕ → Option (FileOf (List α))) :
    (collectEventsV cs acc tmp).1 = collectEvents cs acc tmp := by
  induction cs generalizing acc tmp with
  | nil => rfl
  | cons c cs ih =>
    simp only [collectEventsV, collectEvents]
    rcases h : tmp c with _ | ⟨b⟩ | _
    · rfl
    · exact ih _ _
    · rfl

theorem collectEventsV_snd (cs : List ℕ) (acc : List α) (tmp : ℕ → Option (FileOf (List α))) {l t c}
    (h : collectEventsV cs acc tmp = ((.ok l, t), c)) : c = cs.length := by
  induction cs generalizing acc tmp c with
  | nil => cases h; rfl
  | cons a cs ih =>
    simp only [collectEventsV] at h
    rcases ht : tmp a with _ | ⟨b⟩ | _ <;> rw [ht] at h
    · cases h
    · simp only at h
      rcases hr : collectEventsV cs (acc ++ b) (fun i => if i = a then none else tmp i) with ⟨r, c'⟩
      rw [hr] at h
      cases h
      simp [ih _ _ hr]
    · cases h

/-- The number of ticks is the number of calls of the event function. -/
theorem repeatEventV_calls (f : S → Except PyErr α × S) (calls : S → ℕ) (hc : ∀ s, calls (f s).2 = calls s + 1)
    (k : ℕ) (s : S) : calls (repeatEventV f k s).1.2 = calls s + (repeatEventV f k s).2 := by
  induction k generalizing s with
  | zero => rfl
  | succ k ih =>
    have h0 := hc s
    simp only [repeatEventV]
    rcases h : f s with ⟨e | a, s'⟩ <;> rw [h] at h0
    · exact h0
    · have := ih s'
      rcases h' : repeatEventV f k s' with ⟨⟨e | as, s''⟩, c⟩ <;> simp only [h'] at this h0 ⊢ <;> omega

theorem repeatEventV_ticks (f : S → Except PyErr α × S) (k : ℕ) (s : S) {l s' c}
    (h : repeatEventV f k s = ((.ok l, s'), c)) : c = k := by
  induction k generalizing s l c with
  | zero => cases h; rfl
  | succ k ih =>
    simp only [repeatEventV] at h
    rcases h1 : f s with ⟨e | a, s1⟩ <;> rw [h1] at h
    · cases h
    · simp only at h
      rcases h' : repeatEventV f k s1 with ⟨⟨e | as, s''⟩, c'⟩ <;> rw [h'] at h
      · cases h
      · cases h
        simp [ih _ h']

theorem generateEventsV_fst (E : BEnv S α) (v : Bool) (o : BOpts) (fn : ℕ) (n : ℤ) (s : BSt S α) :
    (generateEventsV E v o fn n s).1 = generateEvents E o fn n s := by
  unfold generateEventsV generateEvents
  split_ifs with hc
  · rw [← repeatEventV_fst]
    rcases repeatEventV (E.event fn) n.toNat s.inner with ⟨⟨e | l, s'⟩, c⟩ <;> rfl
  · rcases coreCuts n.toNat o.cores with e | cuts
    · rfl
    · simp only [← repeatEventV_fst]
      rcases repeatEventV (E.event fn) (cuts.getD (o.cores - 1) 0) s.inner with ⟨⟨e | l, s'⟩, c⟩
      · rfl
      · simp only
        rcases writeBatch E.codec (o.cores - 1) l _ with ⟨b | b, t⟩
        · rfl
        · simp only [← collectEventsV_fst]
          rcases collectEventsV (List.range o.cores) [] t with ⟨⟨e | l, t'⟩, c⟩ <;> rfl

theorem memoryEventsV_fst (v : Bool) (o : BOpts) (n : ℤ) (m : Option BEntry) (s : BSt S α) :
    (memoryEventsV v o n m s).1 = match m with
      | some e =>
        if o.loads then (if e.n < n then (.error .valueError, s) else (.ok (some e.ref), s))
        else (.ok none, s)
      | none => (.ok none, s) := by
  rcases m with _ | e
  · rfl
  · simp only [memoryEventsV]
    split_ifs <;> rfl

theorem cachedEventsV_fst (v : Bool) (o : BOpts) (fn : Option ℕ) (n : ℤ) (s : BSt S α) :
    (cachedEventsV v o fn n s).1 = cachedEvents o fn n s := by
  unfold cachedEventsV cachedEvents
  by_cases hr : o.reload = true
  · rw [if_pos hr, if_pos hr]
  · rw [if_neg hr, if_neg hr]
    simp only
    rcases truthyName o.load with _ | name
    · simp only [Option.bind_none, memoryEventsV_fst]
      rcases s.mem fn with _ | e <;> rfl
    · simp only [Option.bind_some]
      rcases s.files name with _ | f
      · simp only [memoryEventsV_fst]
        rcases s.mem fn with _ | e <;> rfl
      · simp only
        by_cases hp : ((s.mem fn).isNone || o.filePrimary) = true
        · rw [if_pos hp, if_pos hp]
          rcases f with ⟨l, k⟩ | _
          · simp only
            split_ifs <;> rfl
          · rfl
        · rw [if_neg hp, if_neg hp]
          simp only [memoryEventsV_fst]
          rcases s.mem fn with _ | e <;> rfl

theorem saveEventsV_fst (E : BEnv S α) (v : Bool) (o : BOpts) (fn : Option ℕ) (n : ℤ) (had : Bool) (ref : ℕ)
    (s : BSt S α) : (saveEventsV E v o fn n had ref s).1 = saveEvents E o fn n had ref s := by
  unfold saveEventsV saveEvents
  rcases truthyName o.dump with _ | f
  · rfl
  · simp only
    rcases encodeList E.codec (s.lists ref) with _ | l <;> rfl

theorem answerEvents_eq [Field K] (v : Bool) (q : Query α ρ K) (cond : Option (α → Except PyErr Bool)) (ref : ℕ)
    (s : BSt S α) : answerEvents q cond ref s =
      match filterEventsV v cond ref s with
      | ((.error e, s2), _) => (.error e, s2)
      | ((.ok r, s2), _) => ((reduceEventsV v q r s2).1, s2) := by
  have key : ∀ (r : ℕ) (s1 : BSt S α), (match q with
      | .events => (.ok (.listRef r), s1)
      | .reduceEvents g => ((do .ok (.reduced (← g (s1.lists r)))), s1)
      | .findRaw f => ((do .ok (.values (← mapExcept f (s1.lists r)))), s1)
      | .findReduce f none => ((do .ok (.mean (← npMean (← mapExcept f (s1.lists r))))), s1)
      | .findReduce f (some g) => ((do .ok (.reduced (← g (← mapExcept f (s1.lists r))))), s1) :
      Except PyErr (BResult ρ K) × BSt S α) = ((reduceEventsV v q r s1).1, s1) := by
    intro r s1
    rcases q with _ | g | f | ⟨f, g⟩ <;> simp only [reduceEventsV]
    · rcases g (s1.lists r) with e | x <;> rfl
    · rcases mapExcept f (s1.lists r) with e | x <;> rfl
    · rcases g with _ | g <;> simp only <;> rcases mapExcept f (s1.lists r) with e | x
      · rfl
      · simp only [bind, Except.bind]
        rcases npMean x with e | y <;> rfl
      · rfl
      · simp only [bind, Except.bind]
        rcases g x with e | y <;> rfl
  unfold answerEvents filterEventsV
  rcases cond with _ | c
  · simp only
    split_ifs
    · rfl
    · exact key _ _
  · simp only
    rcases filterExcept c (s.lists ref) with e | l
    · rfl
    · simp only
      have : (s.alloc l).2.lists (s.alloc l).1 = l := by simp [BSt.alloc]
      by_cases hl : l.length < 1
      · rw [if_pos (by rw [this]; exact hl), if_pos hl]
      · rw [if_neg (by rw [this]; exact hl), if_neg hl]
        exact key _ _

theorem finishBayesV_fst [Field K] (E : BEnv S α) (v : Bool) (o : BOpts) (fn : Option ℕ) (n : ℤ) (q : Query α ρ K)
    (cond : Option (α → Except PyErr Bool)) (had : Bool) (ref : ℕ) (s : BSt S α) :
    (finishBayesV E v o fn n q cond had ref s).1 = finishBayes E o fn n q cond had ref s := by
  unfold finishBayesV finishBayes
  rw [← saveEventsV_fst E v]
  rcases saveEventsV E v o fn n had ref s with ⟨⟨e | u, s1⟩, t1⟩
  · rfl
  · simp only [answerEvents_eq v]
    rcases filterEventsV v cond ref s1 with ⟨⟨e | r, s2⟩, t2⟩
    · rfl
    · simp only

/-- **C140**: `verbose` does not change what `bayesnet` returns, nor what it leaves behind. -/
theorem C140_same_result [Field K] (E : BEnv S α) (v : Bool) (o : BOpts) (fn : Option ℕ) (n : ℤ) (q : Query α ρ K)
    (cond : Option (α → Except PyErr Bool)) (s : BSt S α) :
    (bayesnetV E v o fn n q cond s).1 = bayesnet E o fn n q cond s := by
  unfold bayesnetV bayesnet
  rw [← cachedEventsV_fst v]
  rcases cachedEventsV v o fn n s with ⟨⟨e | _ | ref, s1⟩, t1⟩
  · rfl
  · rcases fn with _ | f
    · rfl
    · simp only [← generateEventsV_fst E v, ← finishBayesV_fst E v]
      rcases generateEventsV E v o f n s1 with ⟨⟨e | l, s2⟩, t2⟩
      · rfl
      · simp only
  · simp only [← finishBayesV_fst E v]

/-! ### Silence -/

theorem say_false (ms : List BMsg) : say false ms = [] := rfl

theorem say_true (ms : List BMsg) : say true ms = ms := rfl

theorem generateEventsV_silent (E : BEnv S α) (o : BOpts) (fn : ℕ) (n : ℤ) (s : BSt S α) :
    (generateEventsV E false o fn n s).2 = [] := by
  unfold generateEventsV
  simp only [say_false, List.append_nil, ite_self]
  repeat' (first | rfl | split)

theorem memoryEventsV_silent (o : BOpts) (n : ℤ) (m : Option BEntry) (s : BSt S α) :
    (memoryEventsV false o n m s).2 = [] := by
  unfold memoryEventsV
  simp only [say_false]
  repeat' (first | rfl | split)

theorem cachedEventsV_silent (o : BOpts) (fn : Option ℕ) (n : ℤ) (s : BSt S α) :
    (cachedEventsV false o fn n s).2 = [] := by
  have hw : warnMissing false o s = [] := by
    unfold warnMissing
    simp only [say_false, ite_self]
    split <;> rfl
  unfold cachedEventsV
  simp only [say_false, hw, List.nil_append]
  repeat' (first | rfl | exact memoryEventsV_silent .. | split)

theorem finishBayesV_silent [Field K] (E : BEnv S α) (o : BOpts) (fn : Option ℕ) (n : ℤ) (q : Query α ρ K)
    (cond : Option (α → Except PyErr Bool)) (had : Bool) (ref : ℕ) (s : BSt S α) :
    (finishBayesV E false o fn n q cond had ref s).2 = [] := by
  have h1 : (saveEventsV E false o fn n had ref s).2 = [] := by
    unfold saveEventsV
    simp only [say_false, ite_self, List.append_nil]
    repeat' (first | rfl | split)
  have h2 : ∀ s, (filterEventsV false cond ref s : (Except PyErr ℕ × BSt S α) × List BMsg).2 = [] := by
    intro s
    unfold filterEventsV
    simp only [say_false]
    repeat' (first | rfl | split)
  have h3 : ∀ r s, (reduceEventsV false q r (s : BSt S α)).2 = [] := by
    intro r s
    unfold reduceEventsV
    simp only [say_false]
    repeat' (first | rfl | split)
  unfold finishBayesV
  rcases e1 : saveEventsV E false o fn n had ref s with ⟨⟨e | u, s1⟩, t1⟩ <;> rw [e1] at h1
  · exact h1
  · have h2' := h2 s1
    simp only
    rcases e2 : filterEventsV false cond ref s1 with ⟨⟨e | r, s2⟩, t2⟩ <;> rw [e2] at h2'
    · simp only at h1 h2' ⊢
      rw [h1, h2']
      rfl
    · have h3' := h3 r s2
      simp only at h1 h2' h3' ⊢
      rw [h1, h2', h3']
      rfl

/-- **C140**: without `verbose`, nothing is printed. -/
theorem C140_silent [Field K] (E : BEnv S α) (o : BOpts) (fn : Option ℕ) (n : ℤ) (q : Query α ρ K)
    (cond : Option (α → Except PyErr Bool)) (s : BSt S α) :
    (bayesnetV E false o fn n q cond s).2 = [] := by
  unfold bayesnetV
  have h1 := cachedEventsV_silent o fn n s
  rcases e1 : cachedEventsV false o fn n s with ⟨⟨e | _ | ref, s1⟩, t1⟩ <;> rw [e1] at h1
  · exact h1
  · rcases fn with _ | f
    · exact h1
    · have h2 := generateEventsV_silent E o f n s1
      simp only at h1 ⊢
      rcases e2 : generateEventsV E false o f n s1 with ⟨⟨e | l, s2⟩, t2⟩ <;> rw [e2] at h2
      · simp only at h2 ⊢
        rw [h1, h2]
        rfl
      · simp only at h2 ⊢
        rw [h1, h2, finishBayesV_silent]
        rfl
  · simp only at h1 ⊢
    rw [h1, finishBayesV_silent]
    rfl

/-! ### What is printed in each part of a call -/

/-- Which part of a call prints the message. -/
def BMsg.part : BMsg → ℕ
  | .fileMissing _ => 0
  | .loadingFile _ => 1
  | .loadingMemory => 1
  | .loaded => 1
  | .reloading => 1
  | .generating => 2
  | .generatingCores _ => 2
  | .bar _ _ _ => 2
  | .shuffling => 2
  | .writingData => 2
  | .waiting => 2
  | .collecting => 2
  | .collected => 2
  | .cachingMemory => 3
  | .writingFile _ => 3
  | .cached => 3
  | .filtering => 4
  | .filtered => 4
  | _ => 5

/-- How a call begins: result, state, messages. -/
inductive CachedCase (o : BOpts) (fn : Option ℕ) (s : BSt S α) :
    Except PyErr (Option ℕ) → BSt S α → List BMsg → Prop
  | nothing {t : List BMsg} : t = [] ∨ t = [.reloading] → CachedCase o fn s (.ok none) s t
  | memErr {e : BEntry} {x : PyErr} : s.mem fn = some e → CachedCase o fn s (.error x) s [.loadingMemory]
  | mem {e : BEntry} : s.mem fn = some e → CachedCase o fn s (.ok (some e.ref)) s [.loadingMemory, .loaded]
  | fileErr {name : String} {f : FileOf (List α × ℤ)} {x : PyErr} : truthyName o.load = some name →
      s.files name = some f → CachedCase o fn s (.error x) s [.loadingFile name]
  | file {name : String} {l : List α} {k : ℤ} : truthyName o.load = some name → s.files name = some (.good (l, k)) →
      CachedCase o fn s (.ok (some (s.alloc l).1)) (s.alloc l).2 [.loadingFile name, .loaded]

theorem memoryEventsV_case (o : BOpts) (fn : Option ℕ) (n : ℤ) (s : BSt S α) :
    CachedCase o fn s (memoryEventsV true o n (s.mem fn) s).1.1 (memoryEventsV true o n (s.mem fn) s).1.2
      (memoryEventsV true o n (s.mem fn) s).2 := by
  rcases h : s.mem fn with _ | e
  · exact .nothing (.inl rfl)
  · simp only [memoryEventsV, say_true]
    split_ifs
    · exact .memErr h
    · exact .mem h
    · exact .nothing (.inl rfl)

theorem cachedEventsV_case (o : BOpts) (fn : Option ℕ) (n : ℤ) (s : BSt S α) :
    ∃ t, (cachedEventsV true o fn n s).2 = warnMissing true o s ++ t ∧
      CachedCase o fn s (cachedEventsV true o fn n s).1.1 (cachedEventsV true o fn n s).1.2 t := by
  have hm := memoryEventsV_case o fn n s
  unfold cachedEventsV
  by_cases hr : o.reload = true
  · rw [if_pos hr]
    exact ⟨_, rfl, .nothing (.inr rfl)⟩
  · rw [if_neg hr]
    refine ⟨_, rfl, ?_⟩
    dsimp only
    rcases hl : truthyName o.load with _ | name
    · exact hm
    · simp only
      rcases hf : s.files name with _ | f
      · exact hm
      · simp only
        by_cases hp : ((s.mem fn).isNone || o.filePrimary) = true
        · rw [if_pos hp]
          rcases f with ⟨l, k⟩ | _
          · simp only
            split_ifs
            · exact .fileErr hl hf
            · exact .file hl hf
          · exact .fileErr hl hf
        · rw [if_neg hp]
          exact hm

theorem CachedCase.part {o : BOpts} {fn : Option ℕ} {s s' : BSt S α} {r t} (h : CachedCase o fn s r s' t) :
    ∀ m ∈ t, m.part = 1 := by
  cases h with
  | nothing h => rcases h with rfl | rfl <;> simp [BMsg.part]
  | _ => simp [BMsg.part]

theorem warnMissing_part (o : BOpts) (s : BSt S α) : ∀ m ∈ warnMissing true o s, m.part = 0 := by
  unfold warnMissing
  split
  · simp
  · split <;> simp [say_true, BMsg.part]

theorem generateEventsV_part (E : BEnv S α) (o : BOpts) (fn : ℕ) (n : ℤ) (s : BSt S α) :
    ∀ m ∈ (generateEventsV E true o fn n s).2, m.part = 2 := by
  unfold generateEventsV
  simp only [say_true]
  repeat' split
  all_goals simp [BMsg.part]

theorem saveEventsV_part (E : BEnv S α) (o : BOpts) (fn : Option ℕ) (n : ℤ) (had : Bool) (ref : ℕ) (s : BSt S α) :
    ∀ m ∈ (saveEventsV E true o fn n had ref s).2, m.part = 3 := by
  unfold saveEventsV
  simp only [say_true]
  repeat' split
  all_goals simp [BMsg.part]

theorem filterEventsV_part (cond : Option (α → Except PyErr Bool)) (ref : ℕ) (s : BSt S α) :
    ∀ m ∈ (filterEventsV true cond ref s).2, m.part = 4 := by
  unfold filterEventsV
  simp only [say_true]
  repeat' split
  all_goals simp [BMsg.part]

theorem reduceEventsV_part [Field K] (q : Query α ρ K) (r : ℕ) (s : BSt S α) :
    ∀ m ∈ (reduceEventsV true q r s).2, m.part = 5 := by
  unfold reduceEventsV
  simp only [say_true]
  repeat' split
  all_goals simp [BMsg.part]

/-- Generating events changes neither the caches nor the lists. -/
theorem generateEventsV_frame (E : BEnv S α) (v : Bool) (o : BOpts) (fn : ℕ) (n : ℤ) (s : BSt S α) :
    (generateEventsV E v o fn n s).1.2.mem = s.mem ∧ (generateEventsV E v o fn n s).1.2.files = s.files ∧
      (generateEventsV E v o fn n s).1.2.lists = s.lists := by
  unfold generateEventsV
  simp only
  repeat' split
  all_goals exact ⟨rfl, rfl, rfl⟩

/-- Filtering changes neither what event functions act on nor the caches. -/
theorem filterEventsV_frame (v : Bool) (cond : Option (α → Except PyErr Bool)) (ref : ℕ) (s : BSt S α) :
    (filterEventsV v cond ref s).1.2.inner = s.inner ∧ (filterEventsV v cond ref s).1.2.tmp = s.tmp ∧
      (filterEventsV v cond ref s).1.2.mem = s.mem ∧ (filterEventsV v cond ref s).1.2.files = s.files := by
  unfold filterEventsV
  repeat' split
  all_goals exact ⟨rfl, rfl, rfl, rfl⟩

theorem saveEventsV_frame (E : BEnv S α) (v : Bool) (o : BOpts) (fn : Option ℕ) (n : ℤ) (had : Bool) (ref : ℕ)
    (s : BSt S α) : (saveEventsV E v o fn n had ref s).1.2.inner = s.inner ∧
      (saveEventsV E v o fn n had ref s).1.2.tmp = s.tmp ∧
      (saveEventsV E v o fn n had ref s).1.2.lists = s.lists := by
  unfold saveEventsV
  simp only
  repeat' split
  all_goals exact ⟨rfl, rfl, rfl⟩

/-- The end of a call: what was saved, and the parts of the messages. -/
theorem finishBayesV_facts [Field K] (E : BEnv S α) (o : BOpts) (fn : Option ℕ) (n : ℤ) (q : Query α ρ K)
    (cond : Option (α → Except PyErr Bool)) (had : Bool) (ref : ℕ) (s : BSt S α) :
    let r := finishBayesV E true o fn n q cond had ref s
    let w := saveEventsV E true o fn n had ref s
    (∃ t, r.2 = w.2 ++ t ∧ (∀ m ∈ t, 4 ≤ m.part) ∧ (w.1.1.isOk = false → r.1.1.isOk = false)) ∧
      r.1.2.inner = s.inner ∧ r.1.2.tmp = s.tmp ∧ r.1.2.mem = w.1.2.mem ∧ r.1.2.files = w.1.2.files := by
  simp only
  have f1 := saveEventsV_frame E true o fn n had ref s
  unfold finishBayesV
  rcases e1 : saveEventsV E true o fn n had ref s with ⟨⟨e | u, s1⟩, t1⟩ <;> rw [e1] at f1
  · exact ⟨⟨[], by simp, by simp, fun _ => rfl⟩, f1.1, f1.2.1, rfl, rfl⟩
  · have f2 := filterEventsV_frame true cond ref s1
    have p2 := filterEventsV_part cond ref s1
    simp only
    rcases e2 : filterEventsV true cond ref s1 with ⟨⟨e | r, s2⟩, t2⟩ <;> rw [e2] at f2 p2
    · exact ⟨⟨t2, rfl, fun m hm => (p2 m hm).ge, fun h => by cases h⟩, f2.1.trans f1.1, f2.2.1.trans f1.2.1,
        f2.2.2.1, f2.2.2.2⟩
    · have p3 := reduceEventsV_part q r s2
      refine ⟨⟨t2 ++ (reduceEventsV true q r s2).2, by simp, fun m hm => ?_, fun h => by cases h⟩,
        f2.1.trans f1.1, f2.2.1.trans f1.2.1, f2.2.2.1, f2.2.2.2⟩
      rcases List.mem_append.1 hm with hm | hm
      · exact (p2 m hm).ge
      · exact (by norm_num : 4 ≤ 5).trans (p3 m hm).ge

/-- The course of a call: result, state, messages. -/
inductive RunCase [Field K] (E : BEnv S α) (o : BOpts) (fn : Option ℕ) (n : ℤ) (q : Query α ρ K)
    (cond : Option (α → Except PyErr Bool)) (s : BSt S α) :
    Except PyErr (BResult ρ K) → BSt S α → List BMsg → Prop
  | early {x : PyErr} {s1 t} : CachedCase o fn s (.error x) s1 t →
      RunCase E o fn n q cond s (.error x) s1 (warnMissing true o s ++ t)
  | noFn {s1 t} : fn = none → CachedCase o fn s (.ok none) s1 t →
      RunCase E o fn n q cond s (.ok .pyNone) s1 (warnMissing true o s ++ t)
  | cached {ref : ℕ} {s1 t r s2 t2} : CachedCase o fn s (.ok (some ref)) s1 t →
      finishBayesV E true o fn n q cond (s.mem fn).isSome ref s1 = ((r, s2), t2) →
      RunCase E o fn n q cond s r s2 (warnMissing true o s ++ t ++ t2)
  | genErr {f : ℕ} {x : PyErr} {s1 t s2 t2} : fn = some f → CachedCase o fn s (.ok none) s1 t →
      generateEventsV E true o f n s1 = ((.error x, s2), t2) →
      RunCase E o fn n q cond s (.error x) s2 (warnMissing true o s ++ t ++ t2)
  | gen {f : ℕ} {l : List α} {s1 t s2 t2 r s3 t3} : fn = some f → CachedCase o fn s (.ok none) s1 t →
      generateEventsV E true o f n s1 = ((.ok l, s2), t2) →
      finishBayesV E true o fn n q cond (s.mem fn).isSome (s2.alloc l).1 (s2.alloc l).2 = ((r, s3), t3) →
      RunCase E o fn n q cond s r s3 (warnMissing true o s ++ t ++ t2 ++ t3)

theorem bayesnetV_run [Field K] (E : BEnv S α) (o : BOpts) (fn : Option ℕ) (n : ℤ) (q : Query α ρ K)
    (cond : Option (α → Except PyErr Bool)) (s : BSt S α) :
    RunCase E o fn n q cond s (bayesnetV E true o fn n q cond s).1.1 (bayesnetV E true o fn n q cond s).1.2
      (bayesnetV E true o fn n q cond s).2 := by
  obtain ⟨t, ht, hc⟩ := cachedEventsV_case o fn n s
  unfold bayesnetV
  rcases e1 : cachedEventsV true o fn n s with ⟨⟨e | _ | ref, s1⟩, t1⟩ <;> rw [e1] at ht hc <;>
    simp only at ht hc <;> subst ht
  · exact .early hc
  · rcases fn with _ | f
    · exact .noFn rfl hc
    · simp only
      rcases e2 : generateEventsV E true o f n s1 with ⟨⟨e | l, s2⟩, t2⟩
      · exact .genErr rfl hc e2
      · simp only
        exact .gen rfl hc e2 rfl
  · exact .cached hc rfl

theorem CachedCase.frame {o : BOpts} {fn : Option ℕ} {s s' : BSt S α} {r t} (h : CachedCase o fn s r s' t) :
    s'.inner = s.inner ∧ s'.tmp = s.tmp ∧ s'.mem = s.mem ∧ s'.files = s.files := by
  cases h <;> exact ⟨rfl, rfl, rfl, rfl⟩

theorem CachedCase.none_same {o : BOpts} {fn : Option ℕ} {s s' : BSt S α} {t}
    (h : CachedCase o fn s (.ok none) s' t) : s' = s ∧ (t = [] ∨ t = [.reloading]) := by
  cases h with
  | nothing h => exact ⟨rfl, h⟩

theorem part_of_saysGenerating {m : BMsg} (h : saysGenerating m = true) : m.part = 2 := by
  cases m <;> simp_all [saysGenerating, BMsg.part]

theorem part_of_saysLoading {m : BMsg} (h : saysLoading m = true) : m.part = 1 := by
  cases m <;> simp_all [saysLoading, BMsg.part]

theorem part_of_saysSaving {m : BMsg} (h : saysSaving m = true) : m.part = 3 := by
  cases m <;> simp_all [saysSaving, BMsg.part]

theorem generateEventsV_says (E : BEnv S α) (o : BOpts) (fn : ℕ) (n : ℤ) (s : BSt S α) :
    ∃ m ∈ (generateEventsV E true o fn n s).2, saysGenerating m = true := by
  unfold generateEventsV
  simp only [say_true]
  repeat' split
  all_goals simp [saysGenerating]

theorem finishBayesV_part [Field K] (E : BEnv S α) (o : BOpts) (fn : Option ℕ) (n : ℤ) (q : Query α ρ K)
    (cond : Option (α → Except PyErr Bool)) (had : Bool) (ref : ℕ) (s : BSt S α) :
    ∀ m ∈ (finishBayesV E true o fn n q cond had ref s).2, 3 ≤ m.part := by
  obtain ⟨⟨t, e, h, -⟩, -⟩ := finishBayesV_facts E o fn n q cond had ref s
  intro m hm
  rw [e] at hm
  rcases List.mem_append.1 hm with hm | hm
  · exact (saveEventsV_part E o fn n had ref s m hm).ge
  · exact (by norm_num : 3 ≤ 4).trans (h m hm)

/-- What is saved is announced, and what is announced is saved. -/
theorem saveEventsV_mem_iff (E : BEnv S α) (o : BOpts) (fn : Option ℕ) (n : ℤ) (had : Bool) (ref : ℕ) (s : BSt S α) :
    (.cachingMemory ∈ (saveEventsV E true o fn n had ref s).2 →
      (saveEventsV E true o fn n had ref s).1.2.mem fn = some ⟨ref, n⟩) ∧
    (∀ k, (saveEventsV E true o fn n had ref s).1.2.mem k ≠ s.mem k →
      k = fn ∧ .cachingMemory ∈ (saveEventsV E true o fn n had ref s).2) ∧
    (∀ f, .writingFile f ∈ (saveEventsV E true o fn n had ref s).2 →
      (saveEventsV E true o fn n had ref s).1.1.isOk = false ∨
      ∃ l, encodeList E.codec (s.lists ref) = some l ∧
        (saveEventsV E true o fn n had ref s).1.2.files f = some (.good (l, n))) ∧
    (∀ f, (saveEventsV E true o fn n had ref s).1.2.files f ≠ s.files f → o.dump = some f ∧
      .writingFile f ∈ (saveEventsV E true o fn n had ref s).2) := by
  have ht : ∀ g, truthyName o.dump = some g → o.dump = some g := by
    intro g
    unfold truthyName
    split
    · intro h; cases h
    · exact id
  unfold saveEventsV
  by_cases hs : (o.saves && (!had || o.reload)) = true <;> simp only [hs, if_true, say_true, Bool.false_eq_true, if_false]
  all_goals
    rcases hd : truthyName o.dump with _ | g <;> simp only
    · refine ⟨?_, ?_, ?_, ?_⟩ <;> simp +contextual
    · rcases he : encodeList E.codec (s.lists ref) with _ | l <;> simp only
      all_goals
        have := ht g hd
        refine ⟨?_, ?_, ?_, ?_⟩
        · simp
        · intro k
          by_cases hk : k = fn <;> simp [hk]
        · intro f
          simp +contextual [Except.isOk, Except.toBool]
        · intro f
          by_cases hf : f = g <;> simp [hf, this]

/-! ### The messages are true -/

section truth

variable [Field K] (E : BEnv S α) (o : BOpts) (fn : Option ℕ) (n : ℤ) (q : Query α ρ K)
  (cond : Option (α → Except PyErr Bool)) (s : BSt S α)

/-- **C140**: the warning about a missing cache file is printed exactly if a file was asked for and there is none. -/
theorem C140_missing (f : String) : .fileMissing f ∈ (bayesnetV E true o fn n q cond s).2 ↔
    o.load = some f ∧ f ≠ "" ∧ s.files f = none := by
  have key : ∀ t : List BMsg, (∀ m ∈ t, 1 ≤ m.part) →
      (.fileMissing f ∈ warnMissing true o s ++ t ↔ o.load = some f ∧ f ≠ "" ∧ s.files f = none) := by
    intro t ht
    rw [List.mem_append, or_iff_left (fun h => absurd (ht _ h) (by simp [BMsg.part]))]
    unfold warnMissing
    rcases o.load with _ | g
    · simp [truthyName]
    · by_cases hg : g = ""
      · subst hg
        rw [show truthyName (some "") = none from rfl]
        simp only [List.not_mem_nil, Option.some.injEq, ne_eq, false_iff, not_and]
        intro h1 h2
        exact absurd h1.symm h2
      · have : truthyName (some g) = some g := by
          unfold truthyName
          split
          · rename_i h
            exact absurd (Option.some.inj h) hg
          · rfl
        rw [this]
        simp only [say_true]
        rcases hf : s.files g with _ | x
        · simp only [Option.isNone_none, if_true, List.mem_singleton, BMsg.fileMissing.injEq, Option.some.injEq]
          constructor
          · rintro rfl
            exact ⟨rfl, hg, hf⟩
          · rintro ⟨rfl, -⟩
            rfl
        · simp only [Option.isNone_some, Bool.false_eq_true, if_false, List.not_mem_nil, Option.some.injEq, ne_eq,
            false_iff, not_and]
          rintro rfl _ h
          rw [hf] at h
          cases h
  have h := bayesnetV_run E o fn n q cond s
  generalize bayesnetV E true o fn n q cond s = R at *
  obtain ⟨⟨r, s'⟩, ms⟩ := R
  dsimp only at h ⊢
  cases h with
  | early hc => exact key _ fun m hm => (hc.part m hm).ge
  | noFn _ hc => exact key _ fun m hm => (hc.part m hm).ge
  | cached hc hf =>
    rw [List.append_assoc]
    refine key _ fun m hm => ?_
    rcases List.mem_append.1 hm with hm | hm
    · exact (hc.part m hm).ge
    · have hp := finishBayesV_part E o fn n q cond (s.mem fn).isSome _ _ m (by rw [hf]; exact hm)
      omega
  | genErr _ hc hg =>
    rw [List.append_assoc]
    refine key _ fun m hm => ?_
    rcases List.mem_append.1 hm with hm | hm
    · exact (hc.part m hm).ge
    · have hp := generateEventsV_part E o _ n _ m (by rw [hg]; exact hm)
      omega
  | gen _ hc hg hf =>
    rw [List.append_assoc, List.append_assoc]
    refine key _ fun m hm => ?_
    rcases List.mem_append.1 hm with hm | hm
    · exact (hc.part m hm).ge
    rcases List.mem_append.1 hm with hm | hm
    · have hp := generateEventsV_part E o _ n _ m (by rw [hg]; exact hm)
      omega
    · have hp := finishBayesV_part E o fn n q cond (s.mem fn).isSome _ _ m (by rw [hf]; exact hm)
      omega

/-- **C140**: if it is not printed that a Bayes net is generated, then the event function was not called (whatever it acts
on is as before); if it is printed, then no cache was loaded. -/
theorem C140_generating :
    ((∀ m ∈ (bayesnetV E true o fn n q cond s).2, saysGenerating m = false) →
      (bayesnetV E true o fn n q cond s).1.2.inner = s.inner ∧ (bayesnetV E true o fn n q cond s).1.2.tmp = s.tmp) ∧
    ((∃ m ∈ (bayesnetV E true o fn n q cond s).2, saysGenerating m = true) →
      ∀ m ∈ (bayesnetV E true o fn n q cond s).2, saysLoading m = false) := by
  have h := bayesnetV_run E o fn n q cond s
  generalize bayesnetV E true o fn n q cond s = R at *
  obtain ⟨⟨r, s'⟩, ms⟩ := R
  dsimp only at h ⊢
  have hw := warnMissing_part o s
  have nog : ∀ m : BMsg, m.part ≠ 2 → saysGenerating m = false := fun m hm => by
    rcases hb : saysGenerating m with _ | _
    · rfl
    · exact absurd (part_of_saysGenerating hb) hm
  have nol : ∀ m : BMsg, m.part ≠ 1 → saysLoading m = false := fun m hm => by
    rcases hb : saysLoading m with _ | _
    · rfl
    · exact absurd (part_of_saysLoading hb) hm
  cases h with
  | early hc =>
    refine ⟨fun _ => ⟨hc.frame.1, hc.frame.2.1⟩, fun ⟨m, hm, hs⟩ => ?_⟩
    rcases List.mem_append.1 hm with hm | hm
    · rw [nog m (by rw [hw m hm]; norm_num)] at hs; cases hs
    · rw [nog m (by rw [hc.part m hm]; norm_num)] at hs; cases hs
  | noFn _ hc =>
    refine ⟨fun _ => ⟨hc.frame.1, hc.frame.2.1⟩, fun ⟨m, hm, hs⟩ => ?_⟩
    rcases List.mem_append.1 hm with hm | hm
    · rw [nog m (by rw [hw m hm]; norm_num)] at hs; cases hs
    · rw [nog m (by rw [hc.part m hm]; norm_num)] at hs; cases hs
  | @cached ref s1 t _ _ t2 hc hf =>
    have hp := finishBayesV_part E o fn n q cond (s.mem fn).isSome ref s1
    obtain ⟨-, f1, f2, -⟩ := finishBayesV_facts E o fn n q cond (s.mem fn).isSome ref s1
    rw [hf] at hp f1 f2
    refine ⟨fun _ => ⟨f1.trans hc.frame.1, f2.trans hc.frame.2.1⟩, fun ⟨m, hm, hs⟩ => ?_⟩
    rcases List.mem_append.1 hm with hm | hm
    · rcases List.mem_append.1 hm with hm | hm
      · rw [nog m (by rw [hw m hm]; norm_num)] at hs; cases hs
      · rw [nog m (by rw [hc.part m hm]; norm_num)] at hs; cases hs
    · rw [nog m (by have := hp m hm; omega)] at hs; cases hs
  | @genErr f _ s1 t _ t2 _ hc hg =>
    obtain ⟨m, hm, hs⟩ := generateEventsV_says E o f n s1
    rw [hg] at hm
    refine ⟨fun h => ?_, fun _ m hm => ?_⟩
    · have := h m (List.mem_append.2 (.inr hm))
      rw [hs] at this
      cases this
    · rcases List.mem_append.1 hm with hm | hm
      · rcases List.mem_append.1 hm with hm | hm
        · exact nol m (by rw [hw m hm]; norm_num)
        · rcases hc.none_same.2 with rfl | rfl
          · cases hm
          · cases List.mem_singleton.1 hm; rfl
      · have := generateEventsV_part E o f n s1 m (by rw [hg]; exact hm)
        exact nol m (by omega)
  | @gen f _ s1 t s2 t2 _ _ t3 _ hc hg hf =>
    obtain ⟨m, hm, hs⟩ := generateEventsV_says E o f n s1
    rw [hg] at hm
    refine ⟨fun h => ?_, fun _ m hm => ?_⟩
    · have := h m (List.mem_append.2 (.inl (List.mem_append.2 (.inr hm))))
      rw [hs] at this
      cases this
    · rcases List.mem_append.1 hm with hm | hm
      · rcases List.mem_append.1 hm with hm | hm
        · rcases List.mem_append.1 hm with hm | hm
          · exact nol m (by rw [hw m hm]; norm_num)
          · rcases hc.none_same.2 with rfl | rfl
            · cases hm
            · cases List.mem_singleton.1 hm; rfl
        · have := generateEventsV_part E o f n s1 m (by rw [hg]; exact hm)
          exact nol m (by omega)
      · have := finishBayesV_part E o fn n q cond (s.mem fn).isSome _ _ m (by rw [hf]; exact hm)
        exact nol m (by omega)

/-- **C140**: a cache in memory or a cache file changes only if this is printed, and if it is printed it is so: memory
holds events for this call's event function and `n`, the file holds events and `n` unless the call raised. -/
theorem C140_saved :
    let R := bayesnetV E true o fn n q cond s
    (∀ k, R.1.2.mem k ≠ s.mem k → k = fn ∧ .cachingMemory ∈ R.2) ∧
    (.cachingMemory ∈ R.2 → ∃ ref, R.1.2.mem fn = some ⟨ref, n⟩) ∧
    (∀ f, R.1.2.files f ≠ s.files f → o.dump = some f ∧ .writingFile f ∈ R.2) ∧
    (∀ f, .writingFile f ∈ R.2 → R.1.1.isOk = false ∨ ∃ l, R.1.2.files f = some (.good (l, n))) := by
  have h := bayesnetV_run E o fn n q cond s
  intro R
  change RunCase E o fn n q cond s R.1.1 R.1.2 R.2 at h
  generalize R = R at *
  obtain ⟨⟨r, s'⟩, ms⟩ := R
  dsimp only at h ⊢
  have hw := warnMissing_part o s
  have none_said : ∀ t : List BMsg, (∀ m ∈ t, m.part ≤ 2) → ∀ m : BMsg, m.part = 3 → m ∉ t := by
    intro t ht m hm hmt
    have := ht m hmt
    omega
  -- a call that ends before saving
  have quiet : ∀ (r : Except PyErr (BResult ρ K)) (s' : BSt S α) (ms : List BMsg), s'.mem = s.mem →
      s'.files = s.files → (∀ m ∈ ms, m.part ≤ 2) →
      (∀ k, s'.mem k ≠ s.mem k → k = fn ∧ .cachingMemory ∈ ms) ∧
      (.cachingMemory ∈ ms → ∃ ref, s'.mem fn = some ⟨ref, n⟩) ∧
      (∀ f, s'.files f ≠ s.files f → o.dump = some f ∧ .writingFile f ∈ ms) ∧
      (∀ f, .writingFile f ∈ ms → r.isOk = false ∨ ∃ l, s'.files f = some (.good (l, n))) := by
    intro r s' ms h1 h2 h3
    rw [h1, h2]
    exact ⟨fun k hk => absurd rfl hk, fun hm => absurd hm (none_said ms h3 _ rfl), fun f hf => absurd rfl hf,
      fun f hm => absurd hm (none_said ms h3 _ rfl)⟩
  -- a call that saves
  have saving : ∀ (ref : ℕ) (s1 : BSt S α) (r : Except PyErr (BResult ρ K)) (s' : BSt S α) (t0 t1 : List BMsg),
      s1.mem = s.mem → s1.files = s.files → (∀ m ∈ t0, m.part ≤ 2) →
      finishBayesV E true o fn n q cond (s.mem fn).isSome ref s1 = ((r, s'), t1) →
      (∀ k, s'.mem k ≠ s.mem k → k = fn ∧ .cachingMemory ∈ t0 ++ t1) ∧
      (.cachingMemory ∈ t0 ++ t1 → ∃ ref, s'.mem fn = some ⟨ref, n⟩) ∧
      (∀ f, s'.files f ≠ s.files f → o.dump = some f ∧ .writingFile f ∈ t0 ++ t1) ∧
      (∀ f, .writingFile f ∈ t0 ++ t1 → r.isOk = false ∨ ∃ l, s'.files f = some (.good (l, n))) := by
    intro ref s1 r s' t0 t1 h1 h2 h3 hf
    obtain ⟨⟨t, e, hp, herr⟩, -, -, e1, e2⟩ := finishBayesV_facts E o fn n q cond (s.mem fn).isSome ref s1
    obtain ⟨g1, g2, g3, g4⟩ := saveEventsV_mem_iff E o fn n (s.mem fn).isSome ref s1
    rw [hf] at e e1 e2 herr
    dsimp only at e e1 e2 herr
    rw [h1, ← e1] at g2
    rw [h2, ← e2] at g4
    have inj : ∀ m : BMsg, m.part = 3 → (m ∈ t0 ++ t1 ↔ m ∈ (saveEventsV E true o fn n (s.mem fn).isSome ref s1).2) := by
      intro m hm
      rw [e]
      constructor
      · intro h
        rcases List.mem_append.1 h with h | h
        · exact absurd h (none_said t0 h3 m hm)
        rcases List.mem_append.1 h with h | h
        · exact h
        · have := hp m h
          omega
      · intro h
        exact List.mem_append.2 (.inr (List.mem_append.2 (.inl h)))
    refine ⟨fun k hk => ⟨(g2 k hk).1, (inj _ rfl).2 (g2 k hk).2⟩, fun h => ⟨ref, ?_⟩,
      fun f hk => ⟨(g4 f hk).1, (inj _ rfl).2 (g4 f hk).2⟩, fun f h => ?_⟩
    · rw [e1]
      exact g1 ((inj _ rfl).1 h)
    · rcases g3 f ((inj _ rfl).1 h) with h | ⟨l, -, h⟩
      · exact .inl (herr h)
      · exact .inr ⟨l, by rw [e2]; exact h⟩
  cases h with
  | early hc =>
    refine quiet _ _ _ hc.frame.2.2.1 hc.frame.2.2.2 fun m hm => ?_
    rcases List.mem_append.1 hm with hm | hm
    · rw [hw m hm]; norm_num
    · rw [hc.part m hm]; norm_num
  | noFn _ hc =>
    refine quiet _ _ _ hc.frame.2.2.1 hc.frame.2.2.2 fun m hm => ?_
    rcases List.mem_append.1 hm with hm | hm
    · rw [hw m hm]; norm_num
    · rw [hc.part m hm]; norm_num
  | @cached ref s1 t _ _ t2 hc hf =>
    refine saving ref s1 _ _ _ _ hc.frame.2.2.1 hc.frame.2.2.2 (fun m hm => ?_) hf
    rcases List.mem_append.1 hm with hm | hm
    · rw [hw m hm]; norm_num
    · rw [hc.part m hm]; norm_num
  | @genErr f _ s1 t _ t2 _ hc hg =>
    have hfr := generateEventsV_frame E true o f n s1
    rw [hg] at hfr
    refine quiet _ _ _ (hfr.1.trans hc.frame.2.2.1) (hfr.2.1.trans hc.frame.2.2.2) fun m hm => ?_
    rcases List.mem_append.1 hm with hm | hm
    · rcases List.mem_append.1 hm with hm | hm
      · rw [hw m hm]; norm_num
      · rw [hc.part m hm]; norm_num
    · exact (generateEventsV_part E o f n s1 m (by rw [hg]; exact hm)).le
  | @gen f l s1 t s2 t2 _ _ t3 _ hc hg hf =>
    have hfr := generateEventsV_frame E true o f n s1
    rw [hg] at hfr
    refine saving _ (s2.alloc l).2 _ _ _ _ (hfr.1.trans hc.frame.2.2.1) (hfr.2.1.trans hc.frame.2.2.2) (fun m hm => ?_) hf
    rcases List.mem_append.1 hm with hm | hm
    · rcases List.mem_append.1 hm with hm | hm
      · rw [hw m hm]; norm_num
      · rw [hc.part m hm]; norm_num
    · exact (generateEventsV_part E o f n s1 m (by rw [hg]; exact hm)).le

omit [Field K] in
theorem followedUp_append {a b : List BMsg} (ha : FollowedUp a) (hb : FollowedUp b) : FollowedUp (a ++ b) := by
  obtain ⟨a1, a2, a3, a4, a5, a6, a7⟩ := ha
  obtain ⟨b1, b2, b3, b4, b5, b6, b7⟩ := hb
  refine ⟨?_, ?_, ?_, ?_, ?_, ?_, ?_⟩
  iterate 6 simp only [List.countP_append, List.count_append]; omega
  intro i c x h
  rcases List.mem_append.1 h with h | h
  · exact a7 i c x h
  · exact b7 i c x h

theorem warnMissing_followedUp : FollowedUp (warnMissing true o s) := by
  unfold warnMissing
  split
  · simp [FollowedUp]
  · split <;> simp [FollowedUp, say_true, saysLoading, saysSaving]

theorem CachedCase.followedUp {o : BOpts} {fn : Option ℕ} {s s' : BSt S α} {r t}
    (h : CachedCase o fn s (.ok r) s' t) : FollowedUp t := by
  cases h with
  | nothing h => rcases h with rfl | rfl <;> simp [FollowedUp, saysLoading, saysSaving, List.countP_cons]
  | _ => simp [FollowedUp, saysLoading, saysSaving, List.countP_cons]

omit [Field K] in
theorem generateEventsV_followedUp (f : ℕ) {l s' t} (h : generateEventsV E true o f n s = ((.ok l, s'), t)) :
    FollowedUp t := by
  unfold generateEventsV at h
  simp only [say_true] at h
  repeat' split at h
  all_goals first
    | (cases h; done)
    | (cases h; simp [FollowedUp, saysLoading, saysSaving, List.countP_cons])

theorem finishBayesV_followedUp (had : Bool) (ref : ℕ) {r s' t}
    (h : finishBayesV E true o fn n q cond had ref s = ((.ok r, s'), t)) :
    FollowedUp t ∧ r ≠ .pyNone ∧ ∃ t', t = t' ++ [.allDone] := by
  unfold finishBayesV at h
  rcases e1 : saveEventsV E true o fn n had ref s with ⟨⟨e | u, s1⟩, t1⟩ <;> rw [e1] at h <;> simp only at h
  · cases h
  rcases e2 : filterEventsV true cond ref s1 with ⟨⟨e | r2, s2⟩, t2⟩ <;> rw [e2] at h <;> simp only at h
  · cases h
  rcases e3 : reduceEventsV true q r2 s2 with ⟨e | x, t3⟩ <;> rw [e3] at h <;> simp only at h
  · cases h
  cases h
  have f1 : FollowedUp t1 := by
    unfold saveEventsV at e1
    simp only [say_true] at e1
    repeat' split at e1
    all_goals first
      | (cases e1; done)
      | (cases e1; simp [FollowedUp, saysLoading, saysSaving, List.countP_cons])
  have f2 : FollowedUp t2 := by
    unfold filterEventsV at e2
    simp only [say_true] at e2
    repeat' split at e2
    all_goals first
      | (cases e2; done)
      | (cases e2; simp [FollowedUp, saysLoading, saysSaving, List.countP_cons])
  have f3 : FollowedUp t3 ∧ r ≠ .pyNone ∧ ∃ t', t3 = t' ++ [.allDone] := by
    unfold reduceEventsV at e3
    simp only [say_true] at e3
    rcases q with _ | g | f | ⟨f, g⟩ <;> simp only at e3
    · cases e3
      exact ⟨by simp [FollowedUp, saysLoading, saysSaving, List.countP_cons], by simp, [.reducing, .reduced], rfl⟩
    · split at e3 <;> cases e3
      exact ⟨by simp [FollowedUp, saysLoading, saysSaving, List.countP_cons], by simp, [.reducing, .reduced], rfl⟩
    · split at e3 <;> cases e3
      exact ⟨by simp [FollowedUp, saysLoading, saysSaving, List.countP_cons], by simp, [.finding, .found], rfl⟩
    · rcases hmx : mapExcept f (s'.lists r2) with e | vs <;> rw [hmx] at e3 <;> simp only at e3
      · cases e3
      · have key : ∀ x : Except PyErr (BResult ρ K), x ≠ .ok .pyNone → (match x with
            | .error e => (.error e, [.finding, .found, .reducing])
            | .ok x => (.ok x, [.finding, .found, .reducing, .reduced, .allDone]) :
              Except PyErr (BResult ρ K) × List BMsg) = (.ok r, t3) →
            FollowedUp t3 ∧ r ≠ .pyNone ∧ ∃ t', t3 = t' ++ [.allDone] := by
          intro x hx h
          rcases x with e | y <;> cases h
          exact ⟨by simp [FollowedUp, saysLoading, saysSaving, List.countP_cons], fun h => hx (by rw [h]),
            [.finding, .found, .reducing, .reduced], rfl⟩
        refine key _ ?_ e3
        rcases g with _ | g <;> simp only [bind, Except.bind]
        · rcases npMean vs with e | y <;> simp
        · rcases g vs with e | y <;> simp
  refine ⟨followedUp_append (followedUp_append f1 f2) f3.1, f3.2.1, ?_⟩
  obtain ⟨t', rfl⟩ := f3.2.2
  exact ⟨t1 ++ t2 ++ t', by simp⟩

/-- **C140**: when a call returns, every announcement has been followed up, and all progress bars are closed. -/
theorem C140_followed_up {r : BResult ρ K} (hr : (bayesnetV E true o fn n q cond s).1.1 = .ok r) :
    FollowedUp (bayesnetV E true o fn n q cond s).2 := by
  have h := bayesnetV_run E o fn n q cond s
  generalize bayesnetV E true o fn n q cond s = R at *
  obtain ⟨⟨r, s'⟩, ms⟩ := R
  dsimp only at h hr ⊢
  subst hr
  have hw := warnMissing_followedUp o s
  cases h with
  | noFn _ hc => exact followedUp_append hw hc.followedUp
  | cached hc hf => exact followedUp_append (followedUp_append hw hc.followedUp) (finishBayesV_followedUp _ _ _ _ _ _ _ _ _ hf).1
  | gen _ hc hg hf =>
    exact followedUp_append (followedUp_append (followedUp_append hw hc.followedUp)
      (generateEventsV_followedUp _ _ _ _ _ hg)) (finishBayesV_followedUp _ _ _ _ _ _ _ _ _ hf).1

omit [Field K] in
theorem generateEventsV_bar (f : ℕ) (hc : o.cores = 1) (calls : S → ℕ)
    (hcalls : ∀ s, calls (E.event f s).2 = calls s + 1) {r s' t} (h : generateEventsV E true o f n s = ((r, s'), t))
    {total : ℤ} {count : ℕ} {closed : Bool} (hb : .bar total count closed ∈ t) :
    total = n ∧ calls s'.inner = calls s.inner + count ∧ (r.isOk = true → count = n.toNat) := by
  unfold generateEventsV at h
  rw [if_pos hc] at h
  have h1 := repeatEventV_calls (E.event f) calls hcalls n.toNat s.inner
  rcases e : repeatEventV (E.event f) n.toNat s.inner with ⟨⟨x | l, s1⟩, c⟩ <;> rw [e] at h h1 <;>
    simp only [say_true] at h h1 <;> cases h <;>
    simp only [List.mem_cons, List.not_mem_nil, or_false, reduceCtorEq, false_or, BMsg.bar.injEq] at hb <;>
    obtain ⟨rfl, rfl, rfl⟩ := hb
  · exact ⟨rfl, h1, fun h => by cases h⟩
  · exact ⟨rfl, h1, fun _ => repeatEventV_ticks _ _ _ e⟩

/-- **C140**: on one core the progress bar counts to `n`, what it shows is the number of times the event function was
called, and it ends at `n`.  (`calls` is any count of calls in what the event function acts on.) -/
theorem C140_bar (hc : o.cores = 1) (f : ℕ) (hf : fn = some f) (calls : S → ℕ)
    (hcalls : ∀ s, calls (E.event f s).2 = calls s + 1) {total : ℤ} {count : ℕ} {closed : Bool}
    (hb : .bar total count closed ∈ (bayesnetV E true o fn n q cond s).2) :
    total = n ∧ calls (bayesnetV E true o fn n q cond s).1.2.inner = calls s.inner + count ∧
      ((bayesnetV E true o fn n q cond s).1.1.isOk = true → count = n.toNat) := by
  have h := bayesnetV_run E o fn n q cond s
  generalize bayesnetV E true o fn n q cond s = R at *
  obtain ⟨⟨r, s'⟩, ms⟩ := R
  dsimp only at h hb ⊢
  have hw := warnMissing_part o s
  have nob : ∀ t : List BMsg, (∀ m ∈ t, m.part ≠ 2) → .bar total count closed ∉ t := fun t ht hm => ht _ hm rfl
  have nw : .bar total count closed ∉ warnMissing true o s := nob _ fun m hm => by rw [hw m hm]; norm_num
  cases h with
  | early hc =>
    rcases List.mem_append.1 hb with hb | hb
    · exact absurd hb nw
    · exact absurd hb (nob _ fun m hm => by rw [hc.part m hm]; norm_num)
  | noFn _ hc =>
    rcases List.mem_append.1 hb with hb | hb
    · exact absurd hb nw
    · exact absurd hb (nob _ fun m hm => by rw [hc.part m hm]; norm_num)
  | @cached ref s1 t _ _ t2 hc hf =>
    rcases List.mem_append.1 hb with hb | hb
    · rcases List.mem_append.1 hb with hb | hb
      · exact absurd hb nw
      · exact absurd hb (nob _ fun m hm => by rw [hc.part m hm]; norm_num)
    · exact absurd hb (nob _ fun m hm => by
        have := finishBayesV_part E o fn n q cond (s.mem fn).isSome ref s1 m (by rw [hf]; exact hm)
        omega)
  | @genErr f' _ s1 t _ t2 hf' hc' hg =>
    cases hf.symm.trans hf'
    rcases List.mem_append.1 hb with hb | hb
    · rcases List.mem_append.1 hb with hb | hb
      · exact absurd hb nw
      · exact absurd hb (nob _ fun m hm => by rw [hc'.part m hm]; norm_num)
    · have := generateEventsV_bar E o n s1 f hc calls hcalls hg hb
      rw [hc'.none_same.1] at this
      exact ⟨this.1, this.2.1, fun h => by cases h⟩
  | @gen f' l s1 t s2 t2 _ _ t3 hf' hc' hg hfin =>
    cases hf.symm.trans hf'
    rcases List.mem_append.1 hb with hb | hb
    · rcases List.mem_append.1 hb with hb | hb
      · rcases List.mem_append.1 hb with hb | hb
        · exact absurd hb nw
        · exact absurd hb (nob _ fun m hm => by rw [hc'.part m hm]; norm_num)
      · have := generateEventsV_bar E o n s1 f hc calls hcalls hg hb
        rw [hc'.none_same.1] at this
        obtain ⟨-, f1, -⟩ := finishBayesV_facts E o fn n q cond (s.mem fn).isSome (s2.alloc l).1 (s2.alloc l).2
        rw [hfin] at f1
        dsimp only at f1
        rw [f1]
        exact ⟨this.1, this.2.1, fun _ => this.2.2 rfl⟩
    · exact absurd hb (nob _ fun m hm => by
        have := finishBayesV_part E o fn n q cond (s.mem fn).isSome _ _ m (by rw [hfin]; exact hm)
        omega)

theorem finishBayesV_error (had : Bool) (ref : ℕ) {x s' t}
    (h : finishBayesV E true o fn n q cond had ref s = ((.error x, s'), t)) : .allDone ∉ t := by
  unfold finishBayesV at h
  have p1 := saveEventsV_part E o fn n had ref s
  rcases e1 : saveEventsV E true o fn n had ref s with ⟨⟨e | u, s1⟩, t1⟩ <;> rw [e1] at h p1 <;> simp only at h p1
  · cases h
    intro hm
    exact absurd (p1 _ hm) (by simp [BMsg.part])
  have p2 := filterEventsV_part cond ref s1
  rcases e2 : filterEventsV true cond ref s1 with ⟨⟨e | r2, s2⟩, t2⟩ <;> rw [e2] at h p2 <;> simp only at h p2
  · cases h
    intro hm
    rcases List.mem_append.1 hm with hm | hm
    · exact absurd (p1 _ hm) (by simp [BMsg.part])
    · exact absurd (p2 _ hm) (by simp [BMsg.part])
  have p3 : ∀ {x t3}, reduceEventsV true q r2 s2 = (.error x, t3) → .allDone ∉ t3 := by
    intro x t3 e3
    unfold reduceEventsV at e3
    simp only [say_true] at e3
    repeat' split at e3
    all_goals first
      | (cases e3; done)
      | (cases e3; simp)
  rcases e3 : reduceEventsV true q r2 s2 with ⟨e | x, t3⟩ <;> rw [e3] at h <;> simp only at h
  · cases h
    intro hm
    rcases List.mem_append.1 hm with hm | hm
    · rcases List.mem_append.1 hm with hm | hm
      · exact absurd (p1 _ hm) (by simp [BMsg.part])
      · exact absurd (p2 _ hm) (by simp [BMsg.part])
    · exact p3 e3 hm
  · cases h

/-- **C140**: "...All done!" is printed exactly by the calls that return an answer, and it is the last message. -/
theorem C140_done : ((∃ r, (bayesnetV E true o fn n q cond s).1.1 = .ok r ∧ r ≠ .pyNone) ↔
      .allDone ∈ (bayesnetV E true o fn n q cond s).2) ∧
    (.allDone ∈ (bayesnetV E true o fn n q cond s).2 → (bayesnetV E true o fn n q cond s).2.getLast? = some .allDone) := by
  have h := bayesnetV_run E o fn n q cond s
  generalize bayesnetV E true o fn n q cond s = R at *
  obtain ⟨⟨r, s'⟩, ms⟩ := R
  dsimp only at h ⊢
  have hw := warnMissing_part o s
  have nod : ∀ t : List BMsg, (∀ m ∈ t, m.part ≤ 2) → .allDone ∉ t :=
    fun t ht hm => absurd (ht _ hm) (by simp [BMsg.part])
  have no : ∀ (r : Except PyErr (BResult ρ K)) (ms : List BMsg), (∀ y, r = .ok y → y = .pyNone) → .allDone ∉ ms →
      ((∃ y, r = .ok y ∧ y ≠ .pyNone) ↔ .allDone ∈ ms) ∧ (.allDone ∈ ms → ms.getLast? = some .allDone) :=
    fun r ms h1 h2 => ⟨⟨fun ⟨y, e, hy⟩ => absurd (h1 y e) hy, fun h => absurd h h2⟩, fun h => absurd h h2⟩
  have yes : ∀ (r : BResult ρ K) (t t' : List BMsg), r ≠ .pyNone → (∃ t'', t' = t'' ++ [.allDone]) →
      ((∃ y, (.ok r : Except PyErr (BResult ρ K)) = .ok y ∧ y ≠ .pyNone) ↔ .allDone ∈ t ++ t') ∧
      (.allDone ∈ t ++ t' → (t ++ t').getLast? = some .allDone) := by
    rintro r t t' hr ⟨t'', rfl⟩
    exact ⟨⟨fun _ => by simp, fun _ => ⟨r, rfl, hr⟩⟩, fun _ => by simp⟩
  have start : ∀ {r s1 t}, CachedCase o fn s r s1 t → ∀ m ∈ warnMissing true o s ++ t, m.part ≤ 2 := by
    intro r s1 t hc m hm
    rcases List.mem_append.1 hm with hm | hm
    · rw [hw m hm]; norm_num
    · rw [hc.part m hm]; norm_num
  have finish : ∀ (had : Bool) (ref : ℕ) (s1 : BSt S α) (r : Except PyErr (BResult ρ K)) (s' : BSt S α)
      (t t' : List BMsg), (∀ m ∈ t, m.part ≤ 2) →
      finishBayesV E true o fn n q cond had ref s1 = ((r, s'), t') →
      ((∃ y, r = .ok y ∧ y ≠ .pyNone) ↔ .allDone ∈ t ++ t') ∧
        (.allDone ∈ t ++ t' → (t ++ t').getLast? = some .allDone) := by
    intro had ref s1 r s' t t' ht hf
    rcases r with x | y
    · refine no _ _ (fun y hy => by cases hy) fun hm => ?_
      rcases List.mem_append.1 hm with hm | hm
      · exact nod t ht hm
      · exact finishBayesV_error E o fn n q cond s1 had ref hf hm
    · have := finishBayesV_followedUp E o fn n q cond s1 had ref hf
      exact yes y t t' this.2.1 this.2.2
  cases h with
  | early hc => exact no _ _ (fun y hy => by cases hy) (nod _ (start hc))
  | noFn _ hc => exact no _ _ (fun y hy => by cases hy; rfl) (nod _ (start hc))
  | cached hc hf => exact finish _ _ _ _ _ _ _ (start hc) hf
  | @genErr f _ s1 t _ t2 _ hc hg =>
    refine no _ _ (fun y hy => by cases hy) (nod _ fun m hm => ?_)
    rcases List.mem_append.1 hm with hm | hm
    · exact start hc m hm
    · exact (generateEventsV_part E o f n s1 m (by rw [hg]; exact hm)).le
  | @gen f l s1 t s2 t2 _ _ t3 _ hc hg hf =>
    refine finish _ _ _ _ _ _ _ (fun m hm => ?_) hf
    rcases List.mem_append.1 hm with hm | hm
    · exact start hc m hm
    · exact (generateEventsV_part E o f n s1 m (by rw [hg]; exact hm)).le

theorem finishBayesV_events (had : Bool) (ref : ℕ) {r s' t}
    (h : finishBayesV E true o fn n (.events : Query α ρ K) none had ref s = ((.ok r, s'), t)) :
    r = .listRef ref ∧ s'.lists = s.lists := by
  unfold finishBayesV at h
  have f1 := saveEventsV_frame E true o fn n had ref s
  rcases e1 : saveEventsV E true o fn n had ref s with ⟨⟨e | u, s1⟩, t1⟩ <;> rw [e1] at h f1 <;> simp only at h f1
  · cases h
  simp only [filterEventsV] at h
  split_ifs at h
  · cases h
  · cases h
    exact ⟨rfl, f1.2.2⟩

/-- Messages about caches being read come from the first part of the call. -/
theorem bayesnetV_loading {m : BMsg} (hm : m.part = 1) :
    m ∈ (bayesnetV E true o fn n q cond s).2 ↔ m ∈ (cachedEventsV true o fn n s).2 := by
  have hfin : ∀ had ref (s1 : BSt S α), m ∉ (finishBayesV E true o fn n q cond had ref s1).2 := by
    intro had ref s1 h
    have := finishBayesV_part E o fn n q cond had ref s1 m h
    omega
  have hgen : ∀ f (s1 : BSt S α), m ∉ (generateEventsV E true o f n s1).2 := by
    intro f s1 h
    have := generateEventsV_part E o f n s1 m h
    omega
  unfold bayesnetV
  rcases e1 : cachedEventsV true o fn n s with ⟨⟨e | _ | ref, s1⟩, t1⟩
  · rfl
  · rcases fn with _ | f
    · rfl
    · simp only
      have hg := hgen f s1
      rcases e2 : generateEventsV E true o f n s1 with ⟨⟨e | l, s2⟩, t2⟩ <;> rw [e2] at hg <;> simp only at hg ⊢
      · simp [hg]
      · simp [hg, hfin]
  · simp [hfin]

/-- **C140**: "Loading from in-memory cache" means that there are cached events of this event function, and a call
for the events returns just these (the same list object). -/
theorem C140_loading_memory (h : .loadingMemory ∈ (bayesnetV E true o fn n q cond s).2) :
    ∃ e, s.mem fn = some e ∧
      ∀ r, (bayesnetV E true o fn n (.events : Query α ρ K) none s).1.1 = .ok r → r = .listRef e.ref := by
  rw [bayesnetV_loading E o fn n q cond s rfl] at h
  obtain ⟨t, ht, hc⟩ := cachedEventsV_case o fn n s
  unfold bayesnetV
  rcases e1 : cachedEventsV true o fn n s with ⟨⟨x, s1⟩, t1⟩
  rw [e1] at ht hc h
  dsimp only at ht hc h
  subst ht
  rcases List.mem_append.1 h with h | h
  · exact absurd (warnMissing_part o s _ h) (by simp [BMsg.part])
  cases hc with
  | nothing h' => rcases h' with rfl | rfl <;> simp at h
  | memErr he => exact ⟨_, he, fun r hr => by cases hr⟩
  | mem he =>
    refine ⟨_, he, fun r hr => ?_⟩
    simp only at hr
    rcases ef : finishBayesV E true o fn n (.events : Query α ρ K) none (s.mem fn).isSome _ s with ⟨⟨y, s'⟩, t'⟩
    rw [ef] at hr
    dsimp only at hr
    subst hr
    exact (finishBayesV_events E o fn n s _ _ ef).1
  | fileErr => simp at h
  | file => simp at h

/-- **C140**: "Loading from cache file f" means that the file asked for exists, and a call for the events returns a list
with the events in it. -/
theorem C140_loading_file (f : String) (h : .loadingFile f ∈ (bayesnetV E true o fn n q cond s).2) :
    o.load = some f ∧ ∃ c, s.files f = some c ∧
      ∀ r, (bayesnetV E true o fn n (.events : Query α ρ K) none s).1.1 = .ok r →
        ∃ l k i, c = .good (l, k) ∧ r = .listRef i ∧
          (bayesnetV E true o fn n (.events : Query α ρ K) none s).1.2.lists i = l := by
  have htr : ∀ g, truthyName o.load = some g → o.load = some g := by
    intro g
    unfold truthyName
    split
    · intro h; cases h
    · exact id
  rw [bayesnetV_loading E o fn n q cond s rfl] at h
  obtain ⟨t, ht, hc⟩ := cachedEventsV_case o fn n s
  unfold bayesnetV
  rcases e1 : cachedEventsV true o fn n s with ⟨⟨x, s1⟩, t1⟩
  rw [e1] at ht hc h
  dsimp only at ht hc h
  subst ht
  rcases List.mem_append.1 h with h | h
  · exact absurd (warnMissing_part o s _ h) (by simp [BMsg.part])
  cases hc with
  | nothing h' => rcases h' with rfl | rfl <;> simp at h
  | memErr he => simp at h
  | mem he => simp at h
  | fileErr h1 h2 =>
    simp only [List.mem_singleton, BMsg.loadingFile.injEq] at h
    subst h
    exact ⟨htr _ h1, _, h2, fun r hr => by cases hr⟩
  | @file name l k h1 h2 =>
    simp only [List.mem_cons, BMsg.loadingFile.injEq, reduceCtorEq, List.not_mem_nil, or_self, or_false] at h
    subst h
    refine ⟨htr _ h1, _, h2, fun r hr => ?_⟩
    simp only at hr ⊢
    rcases ef : finishBayesV E true o fn n (.events : Query α ρ K) none (s.mem fn).isSome (s.alloc l).1 (s.alloc l).2
      with ⟨⟨y, s'⟩, t'⟩
    rw [ef] at hr
    dsimp only at hr
    subst hr
    obtain ⟨e1, e2⟩ := finishBayesV_events E o fn n (s.alloc l).2 _ _ ef
    refine ⟨l, k, (s.alloc l).1, rfl, e1, ?_⟩
    rw [e2]
    simp [BSt.alloc]

end truth

/-! ### With several cores -/

/-- **C140** (bars) fails with several cores: for 5 events on 3 cores the bar of the parent process counts to 9 out of 5.
(As for `sample`, see C136.) -/
theorem C140_bar_cores_fails :
    let E : BEnv ℕ ℕ := ⟨fun _ k => (.ok k, k + 1), some⟩
    let s : BSt ℕ ℕ := ⟨0, fun _ => [], 0, fun _ => none, fun _ => none, fun _ => none⟩
    let o : BOpts := { cores := 3, sched := [(0, 0), (1, 1)] }
    (bayesnetV (K := ℚ) (ρ := Unit) E true o (some 0) 5 .events none s).2 =
      [.generatingCores 3, .bar 5 9 true, .shuffling, .writingData, .waiting, .collecting, .bar 3 3 true, .collected,
        .cachingMemory, .cached, .reducing, .reduced, .allDone] := by
  decide +kernel

/-! ### Examples -/

/-- A first call that generates events and saves them, and a second call that takes them from memory. -/
example :
    let E : BEnv ℕ ℕ := ⟨fun _ k => (.ok k, k + 1), some⟩
    let s : BSt ℕ ℕ := ⟨0, fun _ => [], 0, fun _ => none, fun _ => none, fun _ => none⟩
    let first := bayesnetV (K := ℚ) (ρ := Unit) E true { dump := some "f", load := some "g" } (some 0) 5
      (.findReduce (fun e => .ok (.bool (e = 3))) none) (some fun e => .ok (decide (2 ≤ e))) s
    first.2 = [.fileMissing "g", .generating, .bar 5 5 true, .cachingMemory, .cached, .writingFile "f", .cached,
      .filtering, .filtered, .finding, .found, .reducing, .reduced, .allDone] ∧
    first.1.1.isOk = true ∧
    (bayesnetV (K := ℚ) (ρ := Unit) E true {} (some 0) 4 .events none first.1.2).2 =
      [.loadingMemory, .loaded, .reducing, .reduced, .allDone] ∧
    (bayesnetV (K := ℚ) (ρ := Unit) E true { load := some "f", filePrimary := true } (some 0) 4 .events none
      first.1.2).2 = [.loadingFile "f", .loaded, .reducing, .reduced, .allDone] := by
  refine ⟨?_, ?_, ?_, ?_⟩ <;> decide +kernel

end Verif
