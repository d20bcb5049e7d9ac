import Verif.Spec.DistTree

/-!
# C37, C71: `contains_correlated` and `is_continuous_dist`
-/

namespace Verif

open Spec

theorem checkAny_iff (ds : List DTree) : checkAny ds = true ↔ ∃ d ∈ ds, checkOne d = true := by
  induction ds with
  | nil => simp [checkAny]
  | cons d ds ih => simp [checkAny, ih]

theorem checkOne_iff (d : DTree) :
    checkOne d = true ↔ d.grouped = true ∨ d.containsCorrelated = some true := by
  cases d <;> simp [checkOne, DTree.grouped, DTree.containsCorrelated]

/-- The flag in terms of the direct parts. -/
theorem flag_iff (t : DTree) : t.containsCorrelated = some true ↔ t.composite = true ∧
    ∃ d ∈ parts t, d.grouped = true ∨ d.containsCorrelated = some true := by
  cases t with
  | complex1 g l =>
    rw [DTree.containsCorrelated]
    simp only [DTree.composite, parts, List.mem_singleton, exists_eq_left, true_and]
    rw [← checkOne_iff]
    split <;> simp_all
  | complex2 g c l r =>
    rw [DTree.containsCorrelated]
    simp only [DTree.composite, parts, List.mem_cons, List.not_mem_nil, or_false, true_and,
      exists_eq_or_imp, exists_eq_left]
    rw [← checkOne_iff, ← checkOne_iff, ← Bool.or_eq_true]
    split <;> simp_all
  | mixture g ds =>
    rw [DTree.containsCorrelated]
    simp only [DTree.composite, parts, true_and, ← checkOne_iff]
    rw [← checkAny_iff]
    split <;> simp_all
  | _ => simp [DTree.containsCorrelated, DTree.composite]

theorem flag_values (t : DTree) : t.containsCorrelated = some true ∨ t.containsCorrelated = none := by
  cases t <;> simp only [DTree.containsCorrelated] <;> try tauto
  all_goals split <;> simp

theorem flag_of_inside {t c : DTree} (h : InsideComposite t c) (hc : c.grouped = true) :
    t.containsCorrelated = some true := by
  induction h with
  | part ht hm => exact (flag_iff _).2 ⟨ht, _, hm, .inl hc⟩
  | deeper ht hm _ ih => exact (flag_iff _).2 ⟨ht, _, hm, .inr (ih hc)⟩

theorem inside_of_flag : ∀ t : DTree, t.containsCorrelated = some true →
    ∃ c, InsideComposite t c ∧ c.grouped = true := by
  have key : ∀ (k : ℕ) (t : DTree), sizeOf t ≤ k → t.containsCorrelated = some true →
      ∃ c, InsideComposite t c ∧ c.grouped = true := by
    intro k
    induction k with
    | zero => intro t ht; cases t <;> simp at ht
    | succ k ih =>
      intro t ht h
      obtain ⟨hcomp, d, hd, h1 | h1⟩ := (flag_iff t).1 h
      · exact ⟨d, .part hcomp hd, h1⟩
      · have hlt : sizeOf d ≤ k := by
          cases t with
          | value => simp [parts] at hd
          | simple _ _ => simp [parts] at hd
          | categorical _ items => simp [DTree.composite] at hcomp
          | complex1 g l =>
            simp only [parts, List.mem_singleton] at hd
            subst hd
            simp at ht; omega
          | complex2 g cm l r =>
            simp only [parts, List.mem_cons, List.not_mem_nil, or_false] at hd
            simp at ht
            rcases hd with rfl | rfl <;> omega
          | mixture g ds =>
            have := List.sizeOf_lt_of_mem hd
            simp at ht; simp [parts] at this; omega
        obtain ⟨c, hc, hg⟩ := ih d hlt h1
        exact ⟨c, .deeper hcomp hd hc, hg⟩
  exact fun t => key _ t (Nat.le_refl _)

theorem Spec.InsideComposite.inside {t c : DTree} (h : InsideComposite t c) : Inside t c := by
  induction h with
  | part _ hm => exact .part hm
  | deeper _ hm _ ih => exact .deeper hm ih

/-- **C37** (exact): the flag is set exactly if a correlated variable occurs below, reached through
operations and mixtures only. -/
theorem C37_exact_partial (t : DTree) :
    t.containsCorrelated = some true ↔ ∃ c, InsideComposite t c ∧ c.grouped = true :=
  ⟨inside_of_flag t, fun ⟨_, h, hc⟩ => flag_of_inside h hc⟩

/-- **C37** for expressions without `discrete([...])`: a composite distribution carries the flag exactly
if a correlated variable occurs anywhere in its expression. -/
theorem C37_flag_partial (t : DTree) (hn : NoCategorical t) (ht : t.composite = true) :
    t.containsCorrelated = some true ↔ ∃ c, Inside t c ∧ c.grouped = true := by
  rw [C37_exact_partial]
  constructor
  · rintro ⟨c, h, hc⟩
    exact ⟨c, h.inside, hc⟩
  · rintro ⟨c, h, hc⟩
    refine ⟨c, ?_, hc⟩
    clear hc
    induction h with
    | part hm => exact .part ht hm
    | @deeper t u c hm hi ih =>
      cases hn with
      | mk _ hp =>
        have hu := hp u hm
        refine .deeper ht hm (ih hu ?_)
        have hne : parts u ≠ [] := by
          cases hi with
          | part h' => exact List.ne_nil_of_mem h'
          | deeper h' _ => exact List.ne_nil_of_mem h'
        cases hu with
        | mk hnc _ =>
          cases u with
          | value => simp [parts] at hne
          | simple _ _ => simp [parts] at hne
          | categorical g items => exact absurd rfl (hnc g items)
          | complex1 _ _ => rfl
          | complex2 _ _ _ _ => rfl
          | mixture _ _ => rfl

/-- The flag never claims too much: if set, a correlated variable does occur. -/
theorem C37_sound (t : DTree) (h : t.containsCorrelated = some true) :
    ∃ c, Inside t c ∧ c.grouped = true := by
  obtain ⟨c, hc, hg⟩ := inside_of_flag t h
  exact ⟨c, hc.inside, hg⟩

/-- **C37 is false**: `discrete([x, …]) + y` with a correlated `x` does not carry the flag. -/
theorem C37_discrete_fails : ∃ t : DTree, t.composite = true ∧
    (∃ c, Inside t c ∧ c.grouped = true) ∧ t.containsCorrelated ≠ some true := by
  refine ⟨.complex2 false false (.categorical false [.simple .continuous true])
    (.simple .continuous false), rfl, ⟨.simple .continuous true, ?_, rfl⟩, ?_⟩
  · exact .deeper (u := .categorical false [.simple .continuous true]) (by simp [parts])
      (.part (by simp [parts]))
  · simp [DTree.containsCorrelated, checkOne]

/-- **C37**: the flag is never `False`: without a correlated variable it is left unset. -/
theorem C37_never_false (t : DTree) : t.containsCorrelated ≠ some false := by
  rcases flag_values t with h | h <;> rw [h] <;> simp

example : NoCategorical (.mixture false [.complex1 false (.simple .continuous true), .value]) := by
  refine .mk (by simp) ?_
  intro c hc
  simp only [parts, List.mem_cons, List.not_mem_nil, or_false] at hc
  rcases hc with rfl | rfl
  · refine .mk (by simp) ?_
    intro c hc
    simp only [parts, List.mem_singleton] at hc
    subst hc
    exact .mk (by simp) (by simp [parts])
  · exact .mk (by simp) (by simp [parts])

example : (DTree.mixture false [.complex1 false (.simple .continuous true), .value]).containsCorrelated
    = some true := by simp [DTree.containsCorrelated, checkAny, checkOne]

/-! ## C71 -/

theorem allContinuous_iff (ds : List DTree) :
    allContinuous ds = true ↔ ∀ d ∈ ds, isContinuousDist d = true := by
  induction ds with
  | nil => simp [allContinuous]
  | cons d ds ih => simp [allContinuous, ih]

/-- **C71** (exact): reported continuous exactly if built from continuous distributions by two-operand
operations, comparisons included, and mixtures. -/
theorem C71_exact_partial (t : DTree) : isContinuousDist t = true ↔ PlainContinuous t := by
  constructor
  · have key : ∀ (k : ℕ) (t : DTree), sizeOf t ≤ k → isContinuousDist t = true →
        PlainContinuous t := by
      intro k
      induction k with
      | zero => intro t ht; cases t <;> simp at ht
      | succ k ih =>
        intro t ht h
        cases t with
        | value => simp [isContinuousDist] at h
        | simple kd g =>
          simp only [isContinuousDist, beq_iff_eq] at h
          subst h
          exact .simple g
        | categorical _ _ => simp [isContinuousDist] at h
        | complex1 _ _ => simp [isContinuousDist] at h
        | complex2 g c l r =>
          simp only [isContinuousDist, Bool.and_eq_true] at h
          simp at ht
          exact .both (ih l (by omega) h.1) (ih r (by omega) h.2)
        | mixture g ds =>
          simp only [isContinuousDist] at h
          refine .mixture fun d hd => ih d ?_ ((allContinuous_iff ds).1 h d hd)
          have := List.sizeOf_lt_of_mem hd
          simp at ht; omega
    exact key _ t (Nat.le_refl _)
  · intro h
    induction h with
    | simple g => simp [isContinuousDist]
    | both _ _ ihl ihr => simp [isContinuousDist, ihl, ihr]
    | mixture _ ih => simp only [isContinuousDist]; exact (allContinuous_iff _).2 ih

/-- **C71 is false**: `-norm(…)` and `norm(…) + 1` are continuous but reported not to be; `norm < norm`,
which is `True` or `False`, is reported continuous. -/
theorem C71_fails :
    (∃ l, BuiltContinuous (.complex1 false l) ∧ isContinuousDist (.complex1 false l) = false) ∧
    (∃ l, BuiltContinuous (.complex2 false false l .value) ∧
      isContinuousDist (.complex2 false false l .value) = false) ∧
    (∃ l r, ¬ BuiltContinuous (.complex2 false true l r) ∧
      isContinuousDist (.complex2 false true l r) = true) := by
  refine ⟨⟨.simple .continuous false, .unary (.simple _), rfl⟩,
    ⟨.simple .continuous false, .left (.simple _), rfl⟩,
    ⟨.simple .continuous false, .simple .continuous false, ?_, rfl⟩⟩
  intro h
  cases h

/-- Every unary operation and every operation with a number is reported not continuous. -/
theorem C71_unary_fails (g : Bool) (l : DTree) :
    isContinuousDist (.complex1 g l) = false ∧
    ∀ c, isContinuousDist (.complex2 g c l .value) = false ∧
      isContinuousDist (.complex2 g c .value l) = false := by
  simp [isContinuousDist]

end Verif
