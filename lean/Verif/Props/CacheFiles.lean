import Verif.Lemmas.CacheFiles
import Mathlib.Data.Rat.Defs
import Mathlib.Algebra.Order.Field.Rat
import Mathlib.Tactic.NormNum

/-!
# Property C98: cache files of `sample`, crash points and concurrent dumps

`sample(d, n, dump_cache_file=f)` either leaves the previous content of `f` or the complete new samples,
whenever it crashes and whoever else reads or writes `f`.  The code violates this: it empties the file first.
-/

namespace Verif

open Spec

variable {α : Type} [Zero α]

/-- A completed dump that nobody disturbs can be loaded, whatever the file was before. -/
theorem C98_complete (q : ℕ) (xs : List α) (f : Option (List (Block α))) :
    ∃ g, runSteps ((dumpSteps xs).map fun a => (q, a)) f = some g ∧ loadSteps g = .ok xs := by
  refine ⟨_, run_dump q xs f, ?_⟩
  rw [loadSteps_nums]
  simp

/-- Every crash point of a dump: before the first step the file is as it was; after the last one it holds
the samples; anywhere between, loading it raises. -/
theorem C98_crash (q : ℕ) (xs : List α) (k : ℕ) (f : Option (List (Block α))) :
    (k = 0 → runSteps (((dumpSteps xs).take k).map fun a => (q, a)) f = f) ∧
    (0 < k → k < xs.length + 2 → ∃ g,
      runSteps (((dumpSteps xs).take k).map fun a => (q, a)) f = some g ∧
      loadSteps g = .error .valueError) ∧
    (xs.length + 2 ≤ k → ∃ g,
      runSteps (((dumpSteps xs).take k).map fun a => (q, a)) f = some g ∧ loadSteps g = .ok xs) := by
  refine ⟨?_, ?_, ?_⟩
  · rintro rfl
    simp [runSteps]
  · intro h0 hk
    match k, h0 with
    | 1, _ => exact ⟨[], by simp [dumpSteps, runSteps, CacheStep.run], rfl⟩
    | k + 2, _ =>
      refine ⟨_, run_take q xs k f, ?_⟩
      rw [loadSteps_nums, if_neg]
      simp only [List.length_take]
      omega
  · intro hk
    rw [List.take_of_length_le (by rw [dumpSteps_length]; exact hk)]
    exact C98_complete q xs f

/-- The property fails at every crash point between the first and the last step: the previous samples, which
could be loaded, are lost and nothing can be loaded any more. -/
theorem C98_crash_fails (old xs : List α) (k : ℕ) (h0 : 0 < k) (hk : k < xs.length + 2) :
    ∃ f g, loadSteps f = .ok old ∧
      runSteps (((dumpSteps xs).take k).map fun a => (0, a)) (some f) = some g ∧
      loadSteps g = .error .valueError := by
  obtain ⟨f, _, hf⟩ := C98_complete 0 old none
  obtain ⟨g, hg, he⟩ := (C98_crash 0 xs k (some f)).2.1 h0 hk
  exact ⟨f, g, hf, hg, he⟩

/-- After such a crash every call that loads the file raises, and none of them repairs it, whether or not it
also dumps to it. -/
theorem C98_stuck (f : List (Block α)) (hf : loadSteps f = .error .valueError)
    (calls : List (Bool × Bool × Bool × List α))
    (hc : ∀ c ∈ calls, c.1 = true ∧ c.2.2.1 = false) :
    runCalls calls (some f) = (calls.map fun _ => .error .valueError, some f) := by
  induction calls with
  | nil => rfl
  | cons c calls ih =>
    obtain ⟨load, dump, reload, fresh⟩ := c
    obtain ⟨h1, h2⟩ := hc _ List.mem_cons_self
    simp only at h1 h2
    subst h1 h2
    have ih := ih (fun c h => hc c (List.mem_cons_of_mem _ h))
    have hcall : fileCall true dump false fresh (some f) = (.error .valueError, some f) := by
      simp [fileCall, hf]
    simp only [runCalls, hcall, ih, List.map_cons]

/-- `reload_cache=True` with `dump_cache_file` repairs any file; so does deleting it. -/
theorem C98_repair (load : Bool) (fresh : List α) (f : Option (List (Block α))) :
    (fileCall load true true fresh f).1 = .ok fresh ∧
    (∃ g, (fileCall load true true fresh f).2 = some g ∧ loadSteps g = .ok fresh) ∧
    (fileCall load true false fresh none).1 = .ok fresh ∧
    (∃ g, (fileCall load true false fresh none).2 = some g ∧ loadSteps g = .ok fresh) := by
  obtain ⟨g, hg, hl⟩ := C98_complete 0 fresh f
  obtain ⟨g', hg', hl'⟩ := C98_complete 0 fresh (none : Option (List (Block α)))
  have h : fileCall load true true fresh f = (.ok fresh, some g) := by
    cases f <;> simp [fileCall, hg]
  have h' : fileCall load true false fresh none = (.ok fresh, some g') := by
    simp [fileCall, hg']
  rw [h, h']
  exact ⟨rfl, ⟨g, rfl, hl⟩, rfl, ⟨g', rfl, hl'⟩⟩

/-- Several processes dump to the same file at the same time, in any interleaving, and all of them finish.
Then the file can be loaded; it has as many samples as one of the dumps, and each of its numbers was written
to that place by one of them. -/
theorem C98_concurrent_partial (ps : List ℕ) (hps : ps ≠ []) (xs : ℕ → List α)
    (tr : List (ℕ × CacheStep α)) (htr : AllComplete ps xs tr) (f : Option (List (Block α))) :
    ∃ g ys, runSteps tr f = some g ∧ loadSteps g = .ok ys ∧
      (∃ p ∈ ps, ys.length = (xs p).length) ∧
      ∀ (i : ℕ) (y : α), ys[i]? = some y → ∃ q ∈ ps, (xs q)[i]? = some y := by
  -- the last truncation
  obtain ⟨p', hp'⟩ := List.exists_mem_of_ne_nil ps hps
  have hex : ∃ e ∈ tr, e.2 = CacheStep.truncate := by
    refine ⟨(p', .truncate), ?_, rfl⟩
    rw [← mem_stepsOf, htr.does p' hp']
    simp [dumpSteps]
  obtain ⟨a, ⟨p0, s0⟩, post, rfl, hs0, hpost⟩ := exists_last _ tr hex
  simp only at hs0
  subst hs0
  have hp0 : p0 ∈ ps := htr.who (p0, .truncate) (by simp)
  have hd0 := htr.does p0 hp0
  rw [stepsOf_append, stepsOf_cons_self] at hd0
  -- the last header
  have hex2 : ∃ e ∈ post, ∃ b, e.2 = CacheStep.put 0 b :=
    ⟨(p0, .put 0 (.head (xs p0).length)), mem_stepsOf.1 (after_truncate hd0.symm), _, rfl⟩
  obtain ⟨b, ⟨p1, s1⟩, c, rfl, ⟨b1, hs1⟩, hc⟩ := exists_last _ post hex2
  simp only at hs1
  subst hs1
  have hp1 : p1 ∈ ps := htr.who (p1, .put 0 b1) (by simp)
  have hd1 := htr.does p1 hp1
  have hd1' : dumpSteps (xs p1) =
      stepsOf p1 (a ++ (p0, CacheStep.truncate) :: b) ++ CacheStep.put 0 b1 :: stepsOf p1 c := by
    rw [← hd1, ← stepsOf_cons_self, ← stepsOf_append]
    simp
  have hnums := after_head hd1'
  have hb1 : b1 = .head (xs p1).length := by
    have hm : CacheStep.put 0 b1 ∈ dumpSteps (xs p1) := by rw [hd1']; simp
    rcases put_mem_dump hm with ⟨_, h⟩ | ⟨j, x, h, _⟩
    · exact h
    · omega
  subst hb1
  -- the file before the last header
  have hbno : ∀ e ∈ b, e.2 ≠ CacheStep.truncate := fun e he => hpost e (by simp [he])
  have hcno : ∀ e ∈ c, e.2 ≠ CacheStep.truncate := fun e he => hpost e (by simp [he])
  obtain ⟨g0, hg0, _⟩ := run_keeps 0 b hbno ([] : List (Block α))
  have hrun : runSteps (a ++ (p0, CacheStep.truncate) :: (b ++ (p1, .put 0 (.head (xs p1).length)) :: c)) f =
      runSteps c (some (putBlock 0 (.head (xs p1).length) g0)) := by
    rw [runSteps_append]
    simp only [runSteps, CacheStep.run]
    rw [runSteps_append, hg0]
    rfl
  obtain ⟨g, hg, _, _, hkeep⟩ := run_keeps 0 c hcno (putBlock 0 (.head (xs p1).length) g0)
  have hhead : g[0]? = some (.head (xs p1).length) :=
    hkeep (fun q b' hm => hc _ hm ⟨b', rfl⟩) _ (putBlock_self _ _ _)
  -- every number of the last header's process is in place
  have hcell : ∀ i, i < (xs p1).length → ∃ q ∈ ps, ∃ y : α, (xs q)[i]? = some y ∧ g[i + 1]? = some (.num y) := by
    intro i hi
    obtain ⟨g', hg', _, hw, _⟩ := run_keeps (i + 1) c hcno (putBlock 0 (.head (xs p1).length) g0)
    obtain rfl : g' = g := Option.some.inj (hg'.symm.trans hg)
    have hm : (p1, CacheStep.put (i + 1) (.num (xs p1)[i])) ∈ c := by
      rw [← mem_stepsOf, hnums, mem_putNums]
      exact ⟨i, (xs p1)[i], List.getElem?_eq_getElem hi, by rw [Nat.add_comm]⟩
    obtain ⟨q, b', hq, hb'⟩ := hw ⟨p1, _, hm⟩
    have hqps : q ∈ ps := htr.who (q, .put (i + 1) b') (by simp [hq])
    have hqd : CacheStep.put (i + 1) b' ∈ dumpSteps (xs q) := by
      rw [← htr.does q hqps, mem_stepsOf]
      simp [hq]
    rcases put_mem_dump hqd with ⟨h, _⟩ | ⟨j, x, hj, hx, rfl⟩
    · omega
    · obtain rfl : i = j := by omega
      exact ⟨q, hqps, x, hx, hb'⟩
  -- load it
  cases g with
  | nil => simp at hhead
  | cons h0 body =>
    simp only [List.getElem?_cons_zero, Option.some.injEq] at hhead
    subst hhead
    simp only [List.getElem?_cons_succ] at hcell
    have hlen : (xs p1).length ≤ body.length := by
      by_contra hlt
      have hlt : body.length < (xs p1).length := by omega
      obtain ⟨q, _, y, _, hy⟩ := hcell body.length hlt
      simp at hy
    refine ⟨_, (body.take (xs p1).length).map Block.value, hrun.trans hg, ?_, ⟨p1, hp1, ?_⟩, ?_⟩
    · simp [loadSteps, hlen]
    · simp [hlen]
    · intro i y hy
      by_cases hi : i < (xs p1).length
      · obtain ⟨q, hq, x, hx, hb⟩ := hcell i hi
        refine ⟨q, hq, ?_⟩
        rw [List.getElem?_map, List.getElem?_take_of_lt hi, hb] at hy
        simp only [Option.map_some, Block.value, Option.some.injEq] at hy
        rw [hx, hy]
      · rw [List.getElem?_eq_none (by simp; omega)] at hy
        simp at hy

/-- If all of them dump the same samples, the file holds these samples in the end. -/
theorem C98_same (ps : List ℕ) (hps : ps ≠ []) (ys : List α)
    (tr : List (ℕ × CacheStep α)) (htr : AllComplete ps (fun _ => ys) tr) (f : Option (List (Block α))) :
    ∃ g, runSteps tr f = some g ∧ loadSteps g = .ok ys := by
  obtain ⟨g, zs, hg, hl, ⟨p, _, hlen⟩, hz⟩ := C98_concurrent_partial ps hps _ tr htr f
  refine ⟨g, hg, ?_⟩
  have : zs = ys := by
    apply List.ext_getElem? fun i => ?_
    by_cases hi : i < zs.length
    · obtain ⟨q, _, h⟩ := hz i zs[i] (List.getElem?_eq_getElem hi)
      rw [h, List.getElem?_eq_getElem hi]
    · rw [List.getElem?_eq_none (by omega), List.getElem?_eq_none (by omega)]
  rw [hl, this]

/-- Whenever a file can be loaded while others write it (or after some of them crashed), it has the length of
one of the dumps, and each number was written to that place by one of them, or is a zero. -/
theorem C98_reader_partial (ps : List ℕ) (xs : ℕ → List α) (tr : List (ℕ × CacheStep α))
    (htr : Running ps xs tr) (g : List (Block α)) (hg : runSteps tr none = some g) (ys : List α)
    (hl : loadSteps g = .ok ys) :
    (∃ p ∈ ps, ys.length = (xs p).length) ∧
    ∀ (i : ℕ) (y : α), ys[i]? = some y → y = 0 ∨ ∃ q ∈ ps, (xs q)[i]? = some y := by
  -- every block is a gap or in its place
  have hinv : ∀ (t : List (ℕ × CacheStep α)), (∀ q i b, (q, CacheStep.put i b) ∈ t →
        (i = 0 ∧ ∃ p ∈ ps, b = .head (xs p).length) ∨
        ∃ j x, i = j + 1 ∧ (∃ p ∈ ps, (xs p)[j]? = some x) ∧ b = .num x) →
      ∀ f : Option (List (Block α)),
      (∀ c, f = some c → ∀ i b, c[i]? = some b → b = .gap ∨
        (i = 0 ∧ ∃ p ∈ ps, b = .head (xs p).length) ∨
        ∃ j x, i = j + 1 ∧ (∃ p ∈ ps, (xs p)[j]? = some x) ∧ b = .num x) →
      ∀ c, runSteps t f = some c → ∀ i b, c[i]? = some b → b = .gap ∨
        (i = 0 ∧ ∃ p ∈ ps, b = .head (xs p).length) ∨
        ∃ j x, i = j + 1 ∧ (∃ p ∈ ps, (xs p)[j]? = some x) ∧ b = .num x := by
    intro t
    induction t with
    | nil => intro _ f hf c hc; exact hf c hc
    | cons e t ih =>
      obtain ⟨q, s⟩ := e
      intro ht f hf c hc
      refine ih (fun q i b hm => ht q i b (List.mem_cons_of_mem _ hm)) (s.run f) ?_ c hc
      intro c' hc' i b hb
      cases s with
      | truncate =>
        simp only [CacheStep.run, Option.some.injEq] at hc'
        subst hc'
        simp at hb
      | put p b0 =>
        cases f with
        | none => simp [CacheStep.run] at hc'
        | some f0 =>
          simp only [CacheStep.run, Option.some.injEq] at hc'
          subst hc'
          by_cases hip : i = p
          · subst hip
            rw [putBlock_self] at hb
            obtain rfl := Option.some.inj hb
            exact Or.inr (ht q i b0 (by simp))
          · rw [putBlock_ne hip] at hb
            split at hb
            · exact hf f0 rfl i b hb
            · split at hb
              · exact Or.inl (Option.some.inj hb).symm
              · simp at hb
  have hall := hinv tr (by
    intro q i b hm
    have hq : q ∈ ps := htr.who _ hm
    have hd : CacheStep.put i b ∈ dumpSteps (xs q) := (htr.does q hq).subset (mem_stepsOf.2 hm)
    rcases put_mem_dump hd with ⟨h1, h2⟩ | ⟨j, x, h1, h2, h3⟩
    · exact Or.inl ⟨h1, q, hq, h2⟩
    · exact Or.inr ⟨j, x, h1, ⟨q, hq, h2⟩, h3⟩) none (by simp) g hg
  match g, hl with
  | .head n :: body, hl =>
    simp only [loadSteps] at hl
    split at hl
    · rename_i hn
      obtain rfl := Except.ok.inj hl
      have h0 := hall 0 (.head n) (by simp)
      refine ⟨?_, ?_⟩
      · rcases h0 with h | ⟨_, p, hp, h⟩ | ⟨j, x, h, _⟩
        · simp at h
        · refine ⟨p, hp, ?_⟩
          rw [Block.head.injEq] at h
          rw [← h]
          simp [hn]
        · omega
      · intro i y hy
        by_cases hi : i < n
        · rw [List.getElem?_map, List.getElem?_take_of_lt hi] at hy
          cases hb : body[i]? with
          | none => rw [hb] at hy; simp at hy
          | some b =>
            rw [hb] at hy
            simp only [Option.map_some, Option.some.injEq] at hy
            rcases hall (i + 1) b (by simpa using hb) with rfl | ⟨h, _⟩ | ⟨j, x, hj, hx, rfl⟩
            · exact Or.inl hy.symm
            · omega
            · obtain rfl : i = j := by omega
              right
              simp only [Block.value] at hy
              rw [← hy]
              exact hx
        · rw [List.getElem?_eq_none (by simp; omega)] at hy
          simp at hy
    · simp at hl
  | .gap :: _, hl => simp [loadSteps] at hl
  | .num _ :: _, hl => simp [loadSteps] at hl
  | [], hl => simp [loadSteps] at hl

/-- The property fails for concurrent dumps: two processes dump two samples each and both finish, but the file
ends up with one sample of each. -/
theorem C98_concurrent_fails :
    ∃ (xs : ℕ → List ℚ) (tr : List (ℕ × CacheStep ℚ)) (g : List (Block ℚ)) (ys : List ℚ),
      AllComplete [0, 1] xs tr ∧ runSteps tr none = some g ∧ loadSteps g = .ok ys ∧
      ys ≠ xs 0 ∧ ys ≠ xs 1 := by
  let xs : ℕ → List ℚ := fun p => if p = 0 then [1, 2] else [3, 4]
  refine ⟨xs, [(0, .truncate), (1, .truncate), (0, .put 0 (.head 2)), (1, .put 0 (.head 2)),
    (0, .put 1 (.num 1)), (1, .put 1 (.num 3)), (1, .put 2 (.num 4)), (0, .put 2 (.num 2))],
    [.head 2, .num 3, .num 2], [3, 2], ⟨?_, ?_⟩, ?_, ?_, ?_, ?_⟩
  · simp
  · intro p hp
    simp only [List.mem_cons, List.not_mem_nil, or_false] at hp
    rcases hp with rfl | rfl <;>
      simp [stepsOf, dumpSteps, putNums, xs]
  · simp [runSteps, CacheStep.run, putBlock]
  · simp [loadSteps, Block.value]
  · simp [xs]
  · simp [xs]

/-- The property fails for readers: while two processes dump positive samples, a third one loads the file
without an error and gets a sample that nobody drew. -/
theorem C98_reader_fails :
    ∃ (xs : ℕ → List ℚ) (tr : List (ℕ × CacheStep ℚ)) (g : List (Block ℚ)) (ys : List ℚ),
      (∀ p, ∀ x ∈ xs p, 0 < x) ∧ Running [0, 1] xs tr ∧ runSteps tr none = some g ∧
      loadSteps g = .ok ys ∧ 0 ∈ ys := by
  let xs : ℕ → List ℚ := fun p => if p = 0 then [1, 2] else [3, 4]
  refine ⟨xs, [(0, .truncate), (0, .put 0 (.head 2)), (0, .put 1 (.num 1)), (1, .truncate),
    (1, .put 0 (.head 2)), (0, .put 2 (.num 2))],
    [.head 2, .gap, .num 2], [0, 2], ?_, ⟨?_, ?_⟩, ?_, ?_, ?_⟩
  · intro p x hx
    by_cases hp : p = 0
    · simp only [xs, hp, if_true, List.mem_cons, List.not_mem_nil, or_false] at hx
      rcases hx with rfl | rfl <;> norm_num
    · simp only [xs, hp, if_false, List.mem_cons, List.not_mem_nil, or_false] at hx
      rcases hx with rfl | rfl <;> norm_num
  · simp
  · intro p hp
    simp only [List.mem_cons, List.not_mem_nil, or_false] at hp
    rcases hp with rfl | rfl
    · simp [stepsOf, dumpSteps, putNums, xs]
    · simp [stepsOf, dumpSteps, putNums, xs]
  · simp [runSteps, CacheStep.run, putBlock]
  · simp [loadSteps, Block.value]
  · simp

/-- The crash theorem on a dump of two samples over an old file: after three of four steps. -/
example : ∃ f g : List (Block ℚ), loadSteps f = .ok [7] ∧
    runSteps (((dumpSteps [1, 2]).take 3).map fun a => (0, a)) (some f) = some g ∧
    loadSteps g = .error .valueError :=
  C98_crash_fails [7] [1, 2] 3 (by norm_num) (by norm_num)

/-- Two processes with dumps of different lengths, interleaved. -/
example : ∃ tr : List (ℕ × CacheStep ℚ), AllComplete [0, 1] (fun p => if p = 0 then [1, 2] else [3]) tr :=
  ⟨[(0, .truncate), (0, .put 0 (.head 2)), (1, .truncate), (0, .put 1 (.num 1)), (1, .put 0 (.head 1)),
    (1, .put 1 (.num 3)), (0, .put 2 (.num 2))], by simp, by
    intro p hp
    simp only [List.mem_cons, List.not_mem_nil, or_false] at hp
    rcases hp with rfl | rfl <;> simp [stepsOf, dumpSteps, putNums]⟩

end Verif
