import Verif.Spec.CacheFiles
import Mathlib.Tactic.Common

/-! # Lemmas about steps on a cache file -/

namespace Verif

open Spec

variable {α : Type}

theorem putBlock_length (p : ℕ) (b : Block α) (f : List (Block α)) :
    (putBlock p b f).length = max f.length (p + 1) := by
  unfold putBlock
  simp only [List.length_set, List.length_append, List.length_replicate]
  omega

theorem putBlock_self (p : ℕ) (b : Block α) (f : List (Block α)) :
    (putBlock p b f)[p]? = some b := by
  have h := putBlock_length p b f
  have hp : p < (putBlock p b f).length := by omega
  unfold putBlock at *
  rw [List.getElem?_eq_getElem hp]
  simp

theorem putBlock_ne {p i : ℕ} (h : i ≠ p) (b : Block α) (f : List (Block α)) :
    (putBlock p b f)[i]? =
      if i < f.length then f[i]? else if i < p then some .gap else none := by
  unfold putBlock
  rw [List.getElem?_set_ne (Ne.symm h)]
  by_cases hi : i < f.length
  · simp [hi, List.getElem?_append_left hi]
  · rw [List.getElem?_append_right (by omega), List.getElem?_replicate]
    simp only [hi, if_false]
    by_cases h2 : i < p
    · simp only [h2, if_true]
      rw [if_pos (by omega)]
    · simp only [h2, if_false]
      rw [if_neg (by omega)]

theorem putBlock_append (b : Block α) (f : List (Block α)) :
    putBlock f.length b f = f ++ [b] := by
  unfold putBlock
  simp

theorem runSteps_append (t1 t2 : List (ℕ × CacheStep α)) (f : Option (List (Block α))) :
    runSteps (t1 ++ t2) f = runSteps t2 (runSteps t1 f) := by
  induction t1 generalizing f with
  | nil => rfl
  | cons e t1 ih => obtain ⟨p, a⟩ := e; simp [runSteps, ih]

/-- Numbers written at the end of the file. -/
theorem runSteps_nums (q : ℕ) (xs : List α) (f : List (Block α)) :
    runSteps ((putNums f.length xs).map fun a => (q, a)) (some f) = some (f ++ xs.map .num) := by
  induction xs generalizing f with
  | nil => simp [putNums, runSteps]
  | cons x xs ih =>
    simp only [putNums, List.map_cons, runSteps, CacheStep.run]
    rw [putBlock_append]
    have := ih (f ++ [.num x])
    simp only [List.length_append, List.length_cons, List.length_nil] at this
    simpa using this

theorem putNums_take (p k : ℕ) (xs : List α) : (putNums p xs).take k = putNums p (xs.take k) := by
  induction xs generalizing p k with
  | nil => simp [putNums]
  | cons x xs ih =>
    cases k with
    | zero => simp [putNums]
    | succ k => simp [putNums, ih]

theorem putNums_length (p : ℕ) (xs : List α) : (putNums p xs).length = xs.length := by
  induction xs generalizing p with
  | nil => rfl
  | cons x xs ih => simp [putNums, ih]

theorem mem_putNums {p : ℕ} {xs : List α} {a : CacheStep α} :
    a ∈ putNums p xs ↔ ∃ i x, xs[i]? = some x ∧ a = .put (p + i) (.num x) := by
  induction xs generalizing p with
  | nil => simp [putNums]
  | cons x xs ih =>
    simp only [putNums, List.mem_cons, ih]
    constructor
    · rintro (rfl | ⟨i, y, hy, rfl⟩)
      · exact ⟨0, x, by simp, by simp⟩
      · exact ⟨i + 1, y, by simpa using hy, by simp; omega⟩
    · rintro ⟨i, y, hy, rfl⟩
      cases i with
      | zero => left; simp at hy; simp [hy]
      | succ i => right; exact ⟨i, y, by simpa using hy, by simp; omega⟩

/-- The file after the first `k + 2` steps of a dump. -/
theorem run_take (q : ℕ) (xs : List α) (k : ℕ) (f : Option (List (Block α))) :
    runSteps (((dumpSteps xs).take (k + 2)).map fun a => (q, a)) f =
      some (.head xs.length :: (xs.take k).map .num) := by
  simp only [dumpSteps, List.take_succ_cons, List.map_cons, runSteps, CacheStep.run, putNums_take]
  have : putBlock 0 (.head xs.length) ([] : List (Block α)) = [.head xs.length] :=
    putBlock_append _ []
  rw [this]
  have h := runSteps_nums q (xs.take k) [.head xs.length]
  simpa using h

theorem dumpSteps_length (xs : List α) : (dumpSteps xs).length = xs.length + 2 := by
  simp [dumpSteps, putNums_length]

/-- The file after a whole dump. -/
theorem run_dump (q : ℕ) (xs : List α) (f : Option (List (Block α))) :
    runSteps ((dumpSteps xs).map fun a => (q, a)) f =
      some (.head xs.length :: xs.map .num) := by
  have h := run_take q xs xs.length f
  rw [List.take_of_length_le (Nat.le_of_eq (dumpSteps_length xs))] at h
  simpa using h

theorem loadSteps_nums [Zero α] (n : ℕ) (ys : List α) :
    loadSteps (.head n :: ys.map .num) =
      if n ≤ ys.length then .ok (ys.take n) else .error .valueError := by
  simp only [loadSteps, List.length_map]
  congr 2
  rw [← List.map_take, List.map_map]
  simp [Function.comp_def, Block.value]

/-- The last element with a property. -/
theorem exists_last {β : Type} (P : β → Prop) (l : List β) (h : ∃ x ∈ l, P x) :
    ∃ a x b, l = a ++ x :: b ∧ P x ∧ ∀ y ∈ b, ¬ P y := by
  induction l with
  | nil => simp at h
  | cons y l ih =>
    by_cases hl : ∃ x ∈ l, P x
    · obtain ⟨a, x, b, rfl, hx, hb⟩ := ih hl
      exact ⟨y :: a, x, b, rfl, hx, hb⟩
    · refine ⟨[], y, l, rfl, ?_, fun z hz hp => hl ⟨z, hz, hp⟩⟩
      obtain ⟨x, hx, hp⟩ := h
      rcases List.mem_cons.1 hx with rfl | hx
      · exact hp
      · exact absurd ⟨x, hx, hp⟩ hl

/-- Without truncation the file stays, and a written block is only replaced by blocks written to the same
place. -/
theorem run_keeps (i : ℕ) (tr : List (ℕ × CacheStep α)) (hno : ∀ e ∈ tr, e.2 ≠ .truncate)
    (f : List (Block α)) :
    ∃ g, runSteps tr (some f) = some g ∧
      (∀ b, f[i]? = some b → g[i]? = some b ∨ ∃ q b', (q, CacheStep.put i b') ∈ tr ∧ g[i]? = some b') ∧
      ((∃ q b', (q, CacheStep.put i b') ∈ tr) → ∃ q b', (q, CacheStep.put i b') ∈ tr ∧ g[i]? = some b') ∧
      ((∀ q b', (q, CacheStep.put i b') ∉ tr) → ∀ b, f[i]? = some b → g[i]? = some b) := by
  induction tr generalizing f with
  | nil => exact ⟨f, rfl, fun b h => Or.inl h, fun ⟨q, b', h⟩ => by simp at h, fun _ b h => h⟩
  | cons e tr ih =>
    obtain ⟨q, a⟩ := e
    cases a with
    | truncate => exact absurd rfl (hno (q, .truncate) (by simp))
    | put p b0 =>
      obtain ⟨g, hg, h1, h2, h3⟩ := ih (fun e he => hno e (List.mem_cons_of_mem _ he)) (putBlock p b0 f)
      refine ⟨g, by simpa [runSteps, CacheStep.run] using hg, ?_, ?_, ?_⟩
      · intro b hb
        by_cases hip : i = p
        · subst hip
          rcases h1 b0 (putBlock_self _ _ _) with h | ⟨q', b', hm, hb'⟩
          · exact Or.inr ⟨q, b0, by simp, h⟩
          · exact Or.inr ⟨q', b', List.mem_cons_of_mem _ hm, hb'⟩
        · have hi : i < f.length := by
            by_contra hc
            rw [List.getElem?_eq_none (by omega)] at hb
            simp at hb
          rcases h1 b (by rw [putBlock_ne hip, if_pos hi]; exact hb) with h | ⟨q', b', hm, hb'⟩
          · exact Or.inl h
          · exact Or.inr ⟨q', b', List.mem_cons_of_mem _ hm, hb'⟩
      · rintro ⟨q', b', hm⟩
        rcases List.mem_cons.1 hm with he | hm
        · obtain ⟨rfl, he'⟩ := Prod.mk.inj he
          obtain ⟨rfl, rfl⟩ := CacheStep.put.inj he'
          rcases h1 b' (putBlock_self _ _ _) with h | ⟨q'', b'', hm, hb'⟩
          · exact ⟨q', b', by simp, h⟩
          · exact ⟨q'', b'', List.mem_cons_of_mem _ hm, hb'⟩
        · obtain ⟨q'', b'', hm, hb'⟩ := h2 ⟨q', b', hm⟩
          exact ⟨q'', b'', List.mem_cons_of_mem _ hm, hb'⟩
      · intro hn b hb
        have hip : i ≠ p := by
          rintro rfl
          exact hn q b0 (by simp)
        have hi : i < f.length := by
          by_contra hc
          rw [List.getElem?_eq_none (by omega)] at hb
          simp at hb
        exact h3 (fun q' b' hm => hn q' b' (List.mem_cons_of_mem _ hm)) b
          (by rw [putBlock_ne hip, if_pos hi]; exact hb)

theorem stepsOf_append (p : ℕ) (t1 t2 : List (ℕ × CacheStep α)) :
    stepsOf p (t1 ++ t2) = stepsOf p t1 ++ stepsOf p t2 := by
  simp [stepsOf]

theorem stepsOf_cons_self (p : ℕ) (a : CacheStep α) (t : List (ℕ × CacheStep α)) :
    stepsOf p ((p, a) :: t) = a :: stepsOf p t := by
  simp [stepsOf]

theorem mem_stepsOf {p : ℕ} {a : CacheStep α} {t : List (ℕ × CacheStep α)} :
    a ∈ stepsOf p t ↔ (p, a) ∈ t := by
  simp [stepsOf]

/-- What a dump writes where. -/
theorem put_mem_dump {xs : List α} {i : ℕ} {b : Block α} (h : CacheStep.put i b ∈ dumpSteps xs) :
    (i = 0 ∧ b = .head xs.length) ∨ ∃ j x, i = j + 1 ∧ xs[j]? = some x ∧ b = .num x := by
  simp only [dumpSteps, List.mem_cons, reduceCtorEq, CacheStep.put.injEq, false_or, mem_putNums] at h
  rcases h with h | ⟨j, x, hx, rfl, rfl⟩
  · exact Or.inl h
  · exact Or.inr ⟨j, x, by omega, hx, rfl⟩

/-- After its header a dump writes all of its numbers. -/
theorem after_head {xs : List α} {pre post : List (CacheStep α)} {b : Block α}
    (h : dumpSteps xs = pre ++ .put 0 b :: post) : post = putNums 1 xs := by
  unfold dumpSteps at h
  rcases pre with _ | ⟨a, _ | ⟨a', pre⟩⟩
  · simp at h
  · simp at h
    exact h.2.2.symm
  · simp only [List.cons_append, List.cons.injEq] at h
    have hm : CacheStep.put 0 b ∈ putNums 1 xs := by rw [h.2.2]; simp
    obtain ⟨i, x, _, hi⟩ := mem_putNums.1 hm
    simp at hi
    omega

/-- After its truncation a dump writes its header. -/
theorem after_truncate {xs : List α} {pre post : List (CacheStep α)}
    (h : dumpSteps xs = pre ++ .truncate :: post) : CacheStep.put 0 (.head xs.length) ∈ post := by
  unfold dumpSteps at h
  rcases pre with _ | ⟨a, pre⟩
  · simp at h
    rw [← h]; simp
  · simp only [List.cons_append, List.cons.injEq] at h
    have hm : CacheStep.truncate ∈ CacheStep.put 0 (.head xs.length) :: putNums 1 xs := by
      rw [h.2]; simp
    simp [mem_putNums] at hm

end Verif
