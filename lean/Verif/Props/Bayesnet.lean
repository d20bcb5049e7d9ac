import Verif.Lemmas.Bayesnet
import Mathlib.Algebra.Order.Ring.Rat
import Mathlib.Algebra.Order.Field.Basic
import Mathlib.Tactic.Linarith

/-!
# C46 – C51, C77, C78: `bayesnet`

"The events a call uses" are what the same call, in the same state, returns with
`reduce_fn=lambda events: events` and no condition.
-/

namespace Verif

set_option linter.unusedSectionVars false

variable {S α ρ K : Type} [Field K]

/-! ## C46 -/

/-- **C46** (general form): a call answers its query about the events it uses and about nothing else; the
caches, the generator and the temporary files end up the same whatever is asked. -/
theorem C46_refines (E : BEnv S α) (o : BOpts) (fn : Option ℕ) (n : ℤ) (q : Query α ρ K)
    (cond : Option (α → Except PyErr Bool)) (s s1 : BSt S α) (l : List α)
    (hl : bayesnet E o fn n (.reduceEvents .ok : Query α (List α) K) none s
      = (.ok (.reduced l), s1)) :
    (do let r ← (bayesnet E o fn n q cond s).1
        Except.ok (r.seen (bayesnet E o fn n q cond s).2)) = answerAbout q cond l ∧
    (bayesnet E o fn n q cond s).2.mem = s1.mem ∧
    (bayesnet E o fn n q cond s).2.files = s1.files ∧
    (bayesnet E o fn n q cond s).2.inner = s1.inner ∧
    (bayesnet E o fn n q cond s).2.tmp = s1.tmp := by
  obtain ⟨ref, hp, rfl, -⟩ := used_iff.1 hl
  have hb : bayesnet E o fn n q cond s = answerEvents q cond ref s1 := by rw [bayesnet_eq, hp]
  rw [hb]
  refine ⟨answerEvents_seen q cond ref s1, ?_⟩
  rcases answerEvents_frame q cond ref s1 with h | ⟨l', h⟩ <;> rw [h] <;>
    exact ⟨rfl, rfl, rfl, rfl⟩

/-- **C46**: if the events cannot be had (insufficient cache, an exception in the event function, …) every
query raises that same exception. -/
theorem C46_error (E : BEnv S α) (o : BOpts) (fn : Option ℕ) (n : ℤ) (q : Query α ρ K)
    (cond : Option (α → Except PyErr Bool)) (s s1 : BSt S α) (e : PyErr)
    (hl : bayesnet E o fn n (.reduceEvents .ok : Query α (List α) K) none s = (.error e, s1)) :
    (bayesnet E o fn n q cond s).1 = .error e := by
  rcases used_error.1 hl with h | ⟨ref, h, h0, rfl⟩
  · rw [bayesnet_eq, h]
  · rw [bayesnet_eq, h]
    simp only [answerEvents]
    cases cond with
    | none => simp [h0]
    | some c => simp [h0, filterExcept, BSt.alloc]

theorem filterExcept_pure (c : α → Bool) :
    ∀ l : List α, filterExcept (fun e => .ok (c e)) l = .ok (l.filter c)
  | [] => rfl
  | a :: l => by
    simp only [filterExcept, filterExcept_pure c l, bind, Except.bind, List.filter_cons]

theorem mapExcept_pure {β : Type} (f : α → β) :
    ∀ l : List α, mapExcept (fun e => .ok (f e)) l = .ok (l.map f)
  | [] => rfl
  | a :: l => by simp only [mapExcept, mapExcept_pure f l, bind, Except.bind, List.map_cons]

theorem mapExcept_meanValue_bool :
    ∀ bs : List Bool, mapExcept (meanValue (K := K)) (bs.map Scalar.bool)
      = .ok (bs.map fun b => if b then (1 : K) else 0)
  | [] => rfl
  | b :: bs => by
    simp only [List.map_cons, mapExcept, mapExcept_meanValue_bool bs, bind, Except.bind, meanValue]

theorem sum_indicator (f : α → Bool) :
    ∀ l : List α, ((l.map f).map fun b => if b then (1 : K) else 0).sum = (l.countP f : ℕ)
  | [] => by simp
  | a :: l => by
    simp only [List.map_cons, List.sum_cons, sum_indicator f l, List.countP_cons]
    cases f a <;> simp [add_comm]

/-- **C46**: with yes/no questions `find` and `conditional_on`, the result is the relative frequency of
`find` among the used events that meet the condition; ValueError if none does. -/
theorem C46_frequency (E : BEnv S α) (o : BOpts) (fn : Option ℕ) (n : ℤ) (f c : α → Bool)
    (s s1 : BSt S α) (l : List α)
    (hl : bayesnet E o fn n (.reduceEvents .ok : Query α (List α) K) none s
      = (.ok (.reduced l), s1)) :
    (bayesnet E o fn n (.findReduce (fun e => .ok (.bool (f e))) none : Query α ρ K)
        (some fun e => .ok (c e)) s).1 =
      if l.countP c = 0 then .error .valueError
      else .ok (.mean ((l.countP fun e => c e && f e : ℕ) / (l.countP c : ℕ) : K)) := by
  obtain ⟨h, -⟩ := C46_refines E o fn n
    (.findReduce (fun e => .ok (.bool (f e))) none : Query α ρ K) (some fun e => .ok (c e)) s s1 l hl
  have hspec : answerAbout (.findReduce (fun e => .ok (.bool (f e))) none : Query α ρ K)
      (some fun e => .ok (c e)) l =
      if l.countP c = 0 then .error .valueError
      else .ok (.mean ((l.countP fun e => c e && f e : ℕ) / (l.countP c : ℕ) : K)) := by
    simp only [answerAbout, filterExcept_pure, bind, Except.bind]
    rw [List.countP_eq_length_filter (p := c)]
    cases hf : l.filter c with
    | nil => simp
    | cons a as =>
      have hne : ¬ (a :: as).length = 0 := by simp
      rw [if_neg hne]
      simp only [mapExcept_pure (fun e => Scalar.bool (K := K) (f e))]
      have hm : (a :: as).map (fun e => Scalar.bool (K := K) (f e))
          = ((a :: as).map f).map Scalar.bool := by rw [List.map_map]; rfl
      rw [hm, mapExcept_meanValue_bool]
      simp only [average]
      rw [sum_indicator f (a :: as), ← hf, List.countP_filter]
      congr 4
      · congr 1
        funext e
        exact Bool.and_comm _ _
      · simp
  rw [hspec] at h
  revert h
  rcases bayesnet E o fn n (.findReduce (fun e => .ok (.bool (f e))) none : Query α ρ K)
    (some fun e => .ok (c e)) s with ⟨r, s2⟩
  intro h
  split_ifs at h ⊢ with h0
  · cases r with
    | error e => simpa [bind, Except.bind] using h
    | ok r => simp [bind, Except.bind] at h
  · cases r with
    | error e => simp [bind, Except.bind] at h
    | ok r =>
      cases r <;> simp [bind, Except.bind, BResult.seen] at h ⊢
      exact h

/-- **C46**, range: the frequency is between 0 and 1. -/
theorem C46_range [LinearOrder K] [IsStrictOrderedRing K] (f c : α → Bool) (l : List α) :
    (0 : K) ≤ (l.countP fun e => c e && f e : ℕ) / (l.countP c : ℕ) ∧
    ((l.countP fun e => c e && f e : ℕ) / (l.countP c : ℕ) : K) ≤ 1 := by
  refine ⟨div_nonneg (Nat.cast_nonneg _) (Nat.cast_nonneg _), ?_⟩
  apply div_le_one_of_le₀ _ (Nat.cast_nonneg _)
  exact_mod_cast List.countP_mono_left fun e _ h => by simp at h; exact h.1

/-! A concrete world: the state is a counter, event function `g` returns the counter plus `10 * g`. -/

/-- The demo world. -/
def demoB : BEnv ℕ ℕ := ⟨fun g k => (.ok (k + 10 * g), k + 1), some⟩

example : (bayesnet demoB {} (some 0) 6 (.reduceEvents .ok : Query ℕ (List ℕ) ℚ) none
    (.fresh 3)).1.toOption.bind (fun r => match r with | .reduced l => some l | _ => none)
    = some [3, 4, 5, 6, 7, 8] := by decide +kernel

/-- Two of the three odd ones among 3 … 8 are above 4. -/
example : (bayesnet demoB {} (some 0) 6
    (.findReduce (fun k => .ok (.bool (decide (4 < k)))) none : Query ℕ Unit ℚ)
    (some fun k => .ok (k % 2 == 1)) (.fresh 3)).1.toOption.bind
      (fun r => match r with | .mean x => some x | _ => none) = some (2 / 3) := by decide +kernel

/-! ## C47 -/

/-- What holds in every state reached by tame steps: recorded numbers never exceed the numbers of
events. -/
structure BInv (s : BSt S α) : Prop where
  mem : ∀ k e, s.mem k = some e → e.n ≤ (s.lists e.ref).length ∧ e.ref < s.next
  files : ∀ f l k, s.files f = some (.good (l, k)) → k ≤ (l.length : ℤ)
  tmp : ∀ i, s.tmp i = none

theorem BInv.alloc {s : BSt S α} (h : BInv s) (l : List α) : BInv (s.alloc l).2 where
  mem k e he := by
    obtain ⟨h1, h2⟩ := h.mem k e he
    refine ⟨?_, by simp only [BSt.alloc]; omega⟩
    simp only [BSt.alloc]
    rw [if_neg (by omega)]
    exact h1
  files := h.files
  tmp := h.tmp

theorem BInv.frame {s : BSt S α} (h : BInv s) (i : S) : BInv { s with inner := i } :=
  ⟨h.mem, h.files, h.tmp⟩

theorem BInv.saveRef {s : BSt S α} (h : BInv s) (E : BEnv S α) (o : BOpts) (fn : Option ℕ) (n : ℤ)
    (had : Bool) (ref : ℕ) (hn : n ≤ (s.lists ref).length) (hr : ref < s.next) :
    BInv (Verif.saveRef E o fn n had ref s).2 := by
  rw [saveRef_snd]
  obtain ⟨h1, h2, h3, h4, h5, h6⟩ := saveEvents_frame E o fn n had ref s
  refine ⟨?_, ?_, ?_⟩
  · intro k e he
    rw [h1, h2]
    rw [h5] at he
    split_ifs at he with hc
    · simp only at he
      split_ifs at he with hk
      · cases he; exact ⟨hn, hr⟩
      · exact h.mem k e he
    · exact h.mem k e he
  · intro f l k hf
    rw [h6] at hf
    cases hd : truthyName o.dump with
    | none => rw [hd] at hf; exact h.files f l k hf
    | some g =>
      rw [hd] at hf
      simp only at hf
      split_ifs at hf with hg
      · cases hen : encodeList E.codec (s.lists ref) with
        | none => rw [hen] at hf; cases hf
        | some l' =>
          rw [hen] at hf
          cases hf
          rw [encodeList_length hen]
          exact hn
      · exact h.files f l k hf
  · rw [h4]; exact h.tmp

/-- A tame call keeps the invariant and gets at least `n` events. -/
theorem prepare_inv {E : BEnv S α} {o : BOpts}
    (ht : o.cores ≤ 1 ∨ o.sched.Valid o.cores ∧ E.Total) (fn : Option ℕ) (n : ℤ) {s : BSt S α}
    (h : BInv s) :
    BInv (prepareEvents E o fn n s).2 ∧
    ∀ ref s', prepareEvents E o fn n s = (.ok (some ref), s') → n ≤ (s'.lists ref).length ∧
      ref < s'.next := by
  have fin : ∀ (had : Bool) (ref : ℕ) (s0 : BSt S α), BInv s0 → n ≤ (s0.lists ref).length →
      ref < s0.next → BInv (saveRef E o fn n had ref s0).2 ∧
      ∀ r s', saveRef E o fn n had ref s0 = (.ok (some r), s') → n ≤ (s'.lists r).length ∧
        r < s'.next := by
    intro had ref s0 h0 hn hr
    refine ⟨h0.saveRef E o fn n had ref hn hr, ?_⟩
    intro r s' hs
    have e1 := saveRef_fst E o fn n had ref s0
    have e2 := saveRef_snd E o fn n had ref s0
    rw [hs] at e1 e2
    have : r = ref := by
      split at e1
      · cases e1
      · cases e1; rfl
    obtain ⟨f1, f2, -⟩ := saveEvents_frame E o fn n had ref s0
    subst this
    simp only at e2
    rw [e2, f1, f2]
    exact ⟨hn, hr⟩
  have genInv : ∀ g, BInv (generateEvents E o g n s).2 := by
    intro g
    have hf := generateEvents_frame E o g n s
    have ht' := (generate_tame ht (fn := g) (n := n) h.tmp).1
    rw [ht'] at hf
    rw [hf]
    exact ⟨h.mem, h.files, h.tmp⟩
  rcases prepare_cases E o fn n s with ⟨e, hp⟩ | ⟨g, e, s2, -, hg, hp⟩ | ⟨-, hp⟩ |
    ⟨e, hm, hle, -, -, hp⟩ | ⟨f, l, k, -, hf, hle, -, hp⟩ | ⟨g, l, s2, -, -, hg, hp⟩
  · rw [hp]; exact ⟨h, fun r s' hh => by cases hh⟩
  · rw [hp]
    refine ⟨?_, fun r s' hh => by cases hh⟩
    have := genInv g
    rw [hg] at this
    exact this
  · rw [hp]; exact ⟨h, fun r s' hh => by cases hh⟩
  · rw [hp]
    obtain ⟨h1, h2⟩ := h.mem fn e hm
    exact fin _ _ _ h (by omega) h2
  · rw [hp]
    have h1 := h.files f l k hf
    exact fin _ _ _ (h.alloc l) (by simp [BSt.alloc]; omega) (by simp [BSt.alloc])
  · rw [hp]
    have h1 := genInv g
    have h2 := (generate_tame ht (fn := g) (n := n) h.tmp).2 l s2 hg
    rw [hg] at h1
    refine fin _ _ _ (h1.alloc l) ?_ (by simp [BSt.alloc])
    simp only [BSt.alloc, if_true]
    omega

theorem step_inv {E : BEnv S α} {op : BOp α ρ K} (ht : op.Tame E) {s : BSt S α} (h : BInv s) :
    BInv (op.step E s) := by
  cases op with
  | call o fn n q cond =>
    have h1 := (prepare_inv ht fn n h).1
    simp only [BOp.step]
    rcases bayesnet_frame E o fn n q cond s with h2 | ⟨l, h2⟩
    · rw [h2]; exact h1
    · rw [h2]; exact h1.alloc l
  | mutate r l => exact ht.elim
  | restart => exact ⟨fun k e he => by simp [BOp.step] at he, h.files, h.tmp⟩
  | truncate f =>
    refine ⟨h.mem, ?_, h.tmp⟩
    intro g l k hg
    simp only [BOp.step] at hg
    split_ifs at hg
    · cases hg
    · exact h.files g l k hg

theorem run_inv {E : BEnv S α} :
    ∀ (ops : List (BOp α ρ K)), (∀ op ∈ ops, op.Tame E) → ∀ s : BSt S α, BInv s →
      BInv (runBayes E ops s)
  | [], _, s, h => h
  | op :: ops, ht, s, h =>
    run_inv ops (fun o ho => ht o (by simp [ho])) _ (step_inv (ht op (by simp)) h)

theorem fresh_inv (i : S) : BInv (BSt.fresh i : BSt S α) :=
  ⟨fun k e he => by simp [BSt.fresh] at he, fun f l k hf => by simp [BSt.fresh] at hf, fun _ => rfl⟩

/-- **C47** for histories that start in a clean directory, in which callers do not change returned lists
and no multi-core run fails: a successful call for `n` uses at least `n` events, whatever mixture of
caches, files, reloads, restarts and crashes came before.  (Missing: the histories just excluded, in
which it is false, see `C47_mutation_fails`, `C51_stale_fails`.) -/
theorem C47_enough_partial (E : BEnv S α) (i : S) (ops : List (BOp α ρ K))
    (hops : ∀ op ∈ ops, op.Tame E) (o : BOpts)
    (ht : o.cores ≤ 1 ∨ o.sched.Valid o.cores ∧ E.Total) (fn : Option ℕ) (n : ℤ) (l : List α)
    (s' : BSt S α)
    (h : bayesnet E o fn n (.reduceEvents .ok : Query α (List α) K) none
      (runBayes E ops (.fresh i)) = (.ok (.reduced l), s')) : n ≤ l.length := by
  obtain ⟨ref, hp, rfl, -⟩ := used_iff.1 h
  exact ((prepare_inv ht fn n (run_inv ops hops _ (fresh_inv i))).2 ref s' hp).1

/-- **C47**: a memory entry recorded for fewer than `n` events makes the call raise ValueError, with no
effect on the state. -/
theorem C47_refused (E : BEnv S α) (o : BOpts) (fn : Option ℕ) (n : ℤ) (q : Query α ρ K)
    (cond : Option (α → Except PyErr Bool)) (s : BSt S α) (e : BEntry) (hm : s.mem fn = some e)
    (hn : e.n < n) (hl : o.loads = true) (hr : o.reload = false) (hf : truthyName o.load = none) :
    bayesnet E o fn n q cond s = (.error .valueError, s) := by
  rw [bayesnet_eq]
  simp [prepareEvents, cachedEvents, hr, hf, hm, hl, hn]

/-- **C47**: likewise for a file. -/
theorem C47_file_refused (E : BEnv S α) (o : BOpts) (fn : Option ℕ) (n : ℤ) (q : Query α ρ K)
    (cond : Option (α → Except PyErr Bool)) (s : BSt S α) (f : String) (l : List α) (k : ℤ)
    (hf : truthyName o.load = some f) (hfile : s.files f = some (.good (l, k))) (hn : k < n)
    (hr : o.reload = false) (hm : s.mem fn = none ∨ o.filePrimary = true) :
    bayesnet E o fn n q cond s = (.error .valueError, s) := by
  have hc : ((s.mem fn).isNone || o.filePrimary) = true := by
    rcases hm with h | h <;> simp [h]
  rw [bayesnet_eq]
  simp [prepareEvents, cachedEvents, hr, hf, hfile, hn, hc]

/-- **C47 fails** when a caller changes the list it was given: after `es = bayesnet(f, n=3)` and
`es.clear()`-like changes, `bayesnet(f, n=3)` answers from one event. -/
theorem C47_mutation_fails :
    ((bayesnet demoB {} (some 0) 3 (.reduceEvents .ok : Query ℕ (List ℕ) ℚ) none
      (runBayes demoB [.call {} (some 0) 3 (.events : Query ℕ Unit ℚ) none, .mutate 0 [99]]
        (.fresh 3))).1.toOption.bind fun r => match r with | .reduced l => some l | _ => none)
      = some [99] := by decide +kernel

/-- A tame history with caches, a two-core run, a restart and a crash. -/
example : ∀ op ∈ ([.call { dump := some "a" } (some 0) 5 .events none,
    .call { cores := 2, sched := [(0, 0)], reload := true } (some 0) 7 .events none, .truncate "a",
    .restart, .call { load := some "a" } (some 0) 5 .events none] : List (BOp ℕ Unit ℚ)),
    op.Tame demoB := by
  have hT : demoB.Total := ⟨fun f s => ⟨_, _, rfl⟩, fun a => ⟨a, rfl⟩⟩
  intro op hop
  simp only [List.mem_cons, List.not_mem_nil, or_false] at hop
  rcases hop with rfl | rfl | rfl | rfl | rfl
  · exact Or.inl (by decide)
  · exact Or.inr ⟨by simp [Sched.Valid], hT⟩
  · trivial
  · trivial
  · exact Or.inl (by decide)

/-! ## C48 -/

/-- The state knows the events `l` of `fn`, recorded for at least `n`. -/
def Knows (fn : Option ℕ) (l : List α) (n : ℤ) (s : BSt S α) : Prop :=
  ∃ e, s.mem fn = some e ∧ s.lists e.ref = l ∧ n ≤ e.n ∧ e.ref < s.next

theorem saveRef_wf {E : BEnv S α} {o : BOpts} {fn : Option ℕ} {n : ℤ} {had : Bool} {ref : ℕ}
    {s : BSt S α} (h : s.WF) (hr : ref < s.next) : (saveRef E o fn n had ref s).2.WF := by
  rw [saveRef_snd]
  obtain ⟨h1, h2, h3, h4, h5, h6⟩ := saveEvents_frame E o fn n had ref s
  intro k e he
  rw [h2]
  rw [h5] at he
  split_ifs at he with hc
  · simp only at he
    split_ifs at he with hk
    · cases he; exact hr
    · exact h k e he
  · exact h k e he

theorem alloc_wf {s : BSt S α} (h : s.WF) (l : List α) : (s.alloc l).2.WF := fun k e he =>
  Nat.lt_succ_of_lt (h k e he)

theorem gen_wf {s : BSt S α} (h : s.WF) (E : BEnv S α) (o : BOpts) (g : ℕ) (n : ℤ) :
    (generateEvents E o g n s).2.WF := by
  rw [generateEvents_frame]
  exact h

theorem prepare_wf {E : BEnv S α} {o : BOpts} {fn : Option ℕ} {n : ℤ} {s : BSt S α} (h : s.WF) :
    (prepareEvents E o fn n s).2.WF := by
  rcases prepare_cases E o fn n s with ⟨e, hp⟩ | ⟨g, e, s2, -, hg, hp⟩ | ⟨-, hp⟩ |
    ⟨e, hm, -, -, -, hp⟩ | ⟨f, l, k, -, -, -, -, hp⟩ | ⟨g, l, s2, -, -, hg, hp⟩ <;> rw [hp]
  · exact h
  · have := gen_wf h E o g n; rw [hg] at this; exact this
  · exact h
  · exact saveRef_wf h (h fn e hm)
  · exact saveRef_wf (alloc_wf h l) (by simp [BSt.alloc])
  · have := gen_wf h E o g n
    rw [hg] at this
    exact saveRef_wf (alloc_wf this l) (by simp [BSt.alloc])

theorem Knows.alloc {fn : Option ℕ} {l : List α} {n : ℤ} {s : BSt S α} (h : Knows fn l n s)
    (l' : List α) : Knows fn l n (s.alloc l').2 := by
  obtain ⟨e, h1, h2, h3, h4⟩ := h
  exact ⟨e, h1, by simp only [BSt.alloc]; rw [if_neg (by omega)]; exact h2, h3,
    Nat.lt_succ_of_lt h4⟩

theorem Knows.saveRef {fn : Option ℕ} {l : List α} {n : ℤ} {s : BSt S α} (h : Knows fn l n s)
    (E : BEnv S α) (o : BOpts) (g : Option ℕ) (m : ℤ) (had : Bool) (ref : ℕ)
    (hno : ¬ (g = fn ∧ o.saves = true ∧ (had = false ∨ o.reload = true))) :
    Knows fn l n (Verif.saveRef E o g m had ref s).2 := by
  rw [saveRef_snd]
  obtain ⟨f1, f2, f3, f4, f5, f6⟩ := saveEvents_frame E o g m had ref s
  obtain ⟨e, h1, h2, h3, h4⟩ := h
  refine ⟨e, ?_, by rw [f1]; exact h2, h3, by rw [f2]; exact h4⟩
  rw [f5]
  split_ifs with hc
  · simp only
    rw [if_neg (fun hfg => hno ⟨hfg.symm, hc⟩)]
    exact h1
  · exact h1

theorem Knows.gen {fn : Option ℕ} {l : List α} {n : ℤ} {s : BSt S α} (h : Knows fn l n s)
    (E : BEnv S α) (o : BOpts) (g : ℕ) (m : ℤ) : Knows fn l n (generateEvents E o g m s).2 := by
  rw [generateEvents_frame]
  exact h

theorem Knows.prepare {fn : Option ℕ} {l : List α} {n : ℤ} {s : BSt S α} (h : Knows fn l n s)
    (E : BEnv S α) (o : BOpts) (g : Option ℕ) (m : ℤ)
    (hno : ¬ (g = fn ∧ o.reload = true ∧ o.saves = true)) :
    Knows fn l n (prepareEvents E o g m s).2 := by
  have hsome : g = fn → (s.mem g).isSome = true := by
    rintro rfl
    obtain ⟨e, h1, -⟩ := h
    rw [h1]; rfl
  have hno' : ¬ (g = fn ∧ o.saves = true ∧ ((s.mem g).isSome = false ∨ o.reload = true)) := by
    rintro ⟨h1, h2, h3 | h3⟩
    · rw [hsome h1] at h3; cases h3
    · exact hno ⟨h1, h3, h2⟩
  rcases prepare_cases E o g m s with ⟨e, hp⟩ | ⟨g', e, s2, -, hg, hp⟩ | ⟨-, hp⟩ |
    ⟨e, hm, -, -, -, hp⟩ | ⟨f, l', k, -, -, -, -, hp⟩ | ⟨g', l', s2, -, -, hg, hp⟩ <;> rw [hp]
  · exact h
  · have := h.gen E o g' m; rw [hg] at this; exact this
  · exact h
  · refine h.saveRef E o g m true e.ref ?_
    rintro ⟨h1, h2, h3 | h3⟩
    · cases h3
    · exact hno ⟨h1, h3, h2⟩
  · exact (h.alloc l').saveRef E o g m _ _ hno'
  · have := h.gen E o g' m
    rw [hg] at this
    exact (this.alloc l').saveRef E o g m _ _ hno'

theorem Knows.run {fn : Option ℕ} {l : List α} {n : ℤ} {E : BEnv S α} :
    ∀ (ops : List (BOp α ρ K)), (∀ op ∈ ops, ¬ op.Mutates ∧ ¬ op.Replaces fn) →
      ∀ s : BSt S α, Knows fn l n s → Knows fn l n (runBayes E ops s)
  | [], _, s, h => h
  | op :: ops, hop, s, h => by
    refine Knows.run ops (fun o ho => hop o (by simp [ho])) _ ?_
    obtain ⟨h1, h2⟩ := hop op (by simp)
    cases op with
    | call o g m q cond =>
      have h3 := h.prepare E o g m h2
      simp only [BOp.step]
      rcases bayesnet_frame E o g m q cond s with h4 | ⟨l', h4⟩
      · rw [h4]; exact h3
      · rw [h4]; exact h3.alloc l'
    | mutate r l' => exact absurd trivial h1
    | restart => exact absurd trivial h2
    | truncate f => exact h

theorem loads_true {o : BOpts} (h : o.memcache = some true) : o.loads = true := by
  simp [BOpts.loads, h]

theorem saves_true {o : BOpts} (h : o.memcache = some true) : o.saves = true := by
  simp [BOpts.saves, h]

/-- The result of a successful `saveRef`. -/
theorem saveRef_ok {E : BEnv S α} {o : BOpts} {fn : Option ℕ} {n : ℤ} {had : Bool} {ref r : ℕ}
    {s s' : BSt S α} (h : saveRef E o fn n had ref s = (.ok (some r), s')) :
    r = ref ∧ s' = (saveEvents E o fn n had ref s).2 := by
  have e1 := saveRef_fst E o fn n had ref s
  have e2 := saveRef_snd E o fn n had ref s
  rw [h] at e1 e2
  refine ⟨?_, e2⟩
  split at e1
  · cases e1
  · cases e1; rfl

theorem knows_of_prepare {E : BEnv S α} {o : BOpts} {fn : Option ℕ} {n : ℤ} {s s1 : BSt S α} {ref : ℕ}
    (hwf : s.WF) (hm : o.memcache = some true) (hl : truthyName o.load = none)
    (hp : prepareEvents E o fn n s = (.ok (some ref), s1)) : Knows fn (s1.lists ref) n s1 := by
  rcases prepare_cases E o fn n s with ⟨e, hq⟩ | ⟨g, e, s2, -, -, hq⟩ | ⟨-, hq⟩ |
    ⟨e, hme, hle, -, hr, hq⟩ | ⟨f, l', k, hf, -⟩ | ⟨g, l', s2, -, hce, hg, hq⟩
  · rw [hq] at hp; cases hp
  · rw [hq] at hp; cases hp
  · rw [hq] at hp; cases hp
  · rw [hq] at hp
    obtain ⟨rfl, rfl⟩ := saveRef_ok hp
    obtain ⟨f1, f2, f3, f4, f5, f6⟩ := saveEvents_frame E o fn n true e.ref s
    refine ⟨e, ?_, rfl, hle, by rw [f2]; exact hwf fn e hme⟩
    rw [f5, if_neg (by simp [hr])]
    exact hme
  · rw [hl] at hf; cases hf
  · have hcond : o.saves = true ∧ ((s.mem fn).isSome = false ∨ o.reload = true) := by
      refine ⟨saves_true hm, ?_⟩
      by_cases hr : o.reload = true
      · exact Or.inr hr
      · left
        cases hme : s.mem fn with
        | none => rfl
        | some e =>
          simp only [cachedEvents, hr, hl, hme, loads_true hm] at hce
          simp at hce
          split_ifs at hce <;> simp at hce
    rw [hq] at hp
    obtain ⟨rfl, rfl⟩ := saveRef_ok hp
    obtain ⟨f1, f2, f3, f4, f5, f6⟩ := saveEvents_frame E o fn n (s.mem fn).isSome s2.next
      (s2.alloc l').2
    refine ⟨⟨s2.next, n⟩, ?_, rfl, le_refl _, by rw [f2]; simp [BSt.alloc]⟩
    rw [f5, if_pos hcond]
    simp

theorem used_of_knows {E : BEnv S α} {o' : BOpts} {fn : Option ℕ} {n n' : ℤ} {t : BSt S α} {l : List α}
    (hne : l ≠ []) (hk : Knows fn l n t)
    (hm' : o'.memcache = some true) (hr' : o'.reload = false) (hl' : truthyName o'.load = none)
    (hd' : truthyName o'.dump = none) (hn : n' ≤ n) :
    bayesnet E o' fn n' (.reduceEvents .ok : Query α (List α) K) none t = (.ok (.reduced l), t) := by
  obtain ⟨e, k1, k2, k3, k4⟩ := hk
  refine used_iff.2 ⟨e.ref, ?_, k2, hne⟩
  have hce : cachedEvents o' fn n' t = (.ok (some e.ref), t) := by
    simp only [cachedEvents, hr', hl', k1, loads_true hm', Option.bind_none]
    simp
    omega
  unfold prepareEvents
  rw [hce]
  simp only [saveRef, saveEvents, k1, hd', hr']
  simp

/-- **C48**: a call with `memcache=True` (and no file to load) used the events `l`.  Then – whatever
calls, with whatever options and for whatever functions, happen in between, as long as the entry of this
event function is not reloaded, the process not restarted and no list changed in place – a later call
with `memcache=True` for no more events uses the same `l` and runs no event function: the generator is
untouched. -/
theorem C48_stable (E : BEnv S α) (o o' : BOpts) (fn : Option ℕ) (n n' : ℤ) (s s1 : BSt S α)
    (hwf : s.WF) (l : List α) (hm : o.memcache = some true) (hl : truthyName o.load = none)
    (h1 : bayesnet E o fn n (.reduceEvents .ok : Query α (List α) K) none s
      = (.ok (.reduced l), s1))
    (ops : List (BOp α ρ K)) (hops : ∀ op ∈ ops, ¬ op.Mutates ∧ ¬ op.Replaces fn)
    (hm' : o'.memcache = some true) (hr' : o'.reload = false) (hl' : truthyName o'.load = none)
    (hd' : truthyName o'.dump = none) (hn : n' ≤ n) :
    bayesnet E o' fn n' (.reduceEvents .ok : Query α (List α) K) none (runBayes E ops s1)
      = (.ok (.reduced l), runBayes E ops s1) := by
  obtain ⟨ref, hp, hlist, hne⟩ := used_iff.1 h1
  have hk : Knows fn l n s1 := hlist ▸ knows_of_prepare hwf hm hl hp
  exact used_of_knows hne (Knows.run (E := E) ops hops s1 hk) hm' hr' hl' hd' hn

theorem fresh_wf (i : S) : (BSt.fresh i : BSt S α).WF := fun k e he => by simp [BSt.fresh] at he

/-- Every state reached from a fresh one is well-formed, so `hwf` in `C48_stable` always holds. -/
theorem C48_reachable_wf (E : BEnv S α) :
    ∀ (ops : List (BOp α ρ K)) (s : BSt S α), s.WF → (runBayes E ops s).WF
  | [], s, h => h
  | op :: ops, s, h => by
    refine C48_reachable_wf E ops _ ?_
    cases op with
    | call o fn n q cond =>
      have h1 := prepare_wf (E := E) (o := o) (fn := fn) (n := n) h
      simp only [BOp.step]
      rcases bayesnet_frame E o fn n q cond s with h2 | ⟨l, h2⟩
      · rw [h2]; exact h1
      · rw [h2]; exact alloc_wf h1 l
    | mutate r l => exact h
    | restart => exact fun k e he => by simp [BOp.step] at he
    | truncate f => exact h

/-- **C48**, reload: with `reload_cache=True` the events are generated anew: neither memory nor files
influence the answer or the exception. -/
theorem C48_reload (E : BEnv S α) (o : BOpts) (g : ℕ) (n : ℤ) (s : BSt S α)
    (hr : o.reload = true) (l : List α) (s1 : BSt S α)
    (h : bayesnet E o (some g) n (.reduceEvents .ok : Query α (List α) K) none s
      = (.ok (.reduced l), s1)) :
    ∃ s2, generateEvents E o g n s = (.ok l, s2) ∧ s1.inner = s2.inner := by
  obtain ⟨ref, hp, hlist, -⟩ := used_iff.1 h
  have hce : cachedEvents o (some g) n s = (.ok none, s) := by simp [cachedEvents, hr]
  unfold prepareEvents at hp
  rw [hce] at hp
  simp only at hp
  rcases hg : generateEvents E o g n s with ⟨e | l', s2⟩
  · rw [hg] at hp; cases hp
  · rw [hg] at hp
    obtain ⟨rfl, rfl⟩ := saveRef_ok hp
    obtain ⟨f1, f2, f3, -⟩ := saveEvents_frame E o (some g) n (s.mem (some g)).isSome
      (s2.alloc l').1 (s2.alloc l').2
    rw [f1] at hlist
    refine ⟨s2, ?_, f3⟩
    simp only [BSt.alloc, if_true] at hlist
    rw [hlist]

/-- **C48**, bypass: `memcache=False` never writes the memory cache. -/
theorem C48_bypass_write (E : BEnv S α) (o : BOpts) (fn : Option ℕ) (n : ℤ) (q : Query α ρ K)
    (cond : Option (α → Except PyErr Bool)) (s : BSt S α) (hm : o.memcache = some false) :
    (bayesnet E o fn n q cond s).2.mem = s.mem := by
  have hs : o.saves = false := by simp [BOpts.saves, hm]
  have hsave : ∀ had ref (s0 : BSt S α), (saveRef E o fn n had ref s0).2.mem = s0.mem := by
    intro had ref s0
    rw [saveRef_snd]
    obtain ⟨-, -, -, -, f5, -⟩ := saveEvents_frame E o fn n had ref s0
    rw [f5, if_neg (by simp [hs])]
  have hprep : (prepareEvents E o fn n s).2.mem = s.mem := by
    rcases prepare_cases E o fn n s with ⟨e, hp⟩ | ⟨g, e, s2, -, hg, hp⟩ | ⟨-, hp⟩ |
      ⟨e, -, -, -, -, hp⟩ | ⟨f, l, k, -, -, -, -, hp⟩ | ⟨g, l, s2, -, -, hg, hp⟩ <;> rw [hp]
    · have := generateEvents_frame E o g n s
      rw [hg] at this
      simp only at this
      rw [this]
    · exact hsave _ _ _
    · exact hsave _ _ _
    · rw [hsave]
      have := generateEvents_frame E o g n s
      rw [hg] at this
      simp only at this
      rw [this]
      rfl
  rcases bayesnet_frame E o fn n q cond s with h2 | ⟨l, h2⟩ <;> rw [h2]
  · exact hprep
  · exact hprep

/-- **C48**, bypass: with `memcache=False` and no file to load, a successful call has generated its events
itself. -/
theorem C48_bypass_read_partial (E : BEnv S α) (o : BOpts) (g : ℕ) (n : ℤ) (s s1 : BSt S α)
    (hm : o.memcache = some false) (hl : truthyName o.load = none) (l : List α)
    (h : bayesnet E o (some g) n (.reduceEvents .ok : Query α (List α) K) none s
      = (.ok (.reduced l), s1)) :
    ∃ s2, generateEvents E o g n s = (.ok l, s2) ∧ s1.inner = s2.inner := by
  obtain ⟨ref, hp, hlist, -⟩ := used_iff.1 h
  have hlo : o.loads = false := by simp [BOpts.loads, hm]
  rcases prepare_cases E o (some g) n s with ⟨e, hq⟩ | ⟨g', e, s2, -, -, hq⟩ | ⟨-, hq⟩ |
    ⟨e, -, -, h2, -⟩ | ⟨f, l', k, hf, -⟩ | ⟨g', l', s2, hgg, hce, hg, hq⟩
  · rw [hq] at hp; cases hp
  · rw [hq] at hp; cases hp
  · rw [hq] at hp; cases hp
  · rw [hlo] at h2; cases h2
  · rw [hl] at hf; cases hf
  · cases hgg
    rw [hq] at hp
    obtain ⟨rfl, rfl⟩ := saveRef_ok hp
    obtain ⟨f1, f2, f3, -⟩ := saveEvents_frame E o (some g) n (s.mem (some g)).isSome
      s2.next (s2.alloc l').2
    rw [f1] at hlist
    refine ⟨s2, ?_, f3⟩
    simp only [BSt.alloc, if_true] at hlist
    rw [hg, hlist]

/-- **C48 fails** with a file: `memcache=False, load_cache_file="a"` reads the file – unless the memory
cache happens to have an entry for the event function; then the file is ignored and everything is
generated anew.  So the memory cache is not bypassed. -/
theorem C48_bypass_fails :
    let file : BSt ℕ ℕ → BSt ℕ ℕ := fun s =>
      { s with files := fun g => if g = "a" then some (.good ([7, 8, 9], 3)) else none }
    let ask := fun s => (bayesnet demoB { memcache := some false, load := some "a" } (some 0) 2
      (.reduceEvents .ok : Query ℕ (List ℕ) ℚ) none s).1.toOption.bind
        fun r => match r with | .reduced l => some l | _ => none
    ask (file (.fresh 50)) = some [7, 8, 9] ∧
    ask (file (runBayes demoB [.call {} (some 0) 3 (.events : Query ℕ Unit ℚ) none] (.fresh 50)))
      = some [53, 54] := by
  constructor <;> decide +kernel

end Verif
