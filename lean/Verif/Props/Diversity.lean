import Verif.Props.JointDraw
import Mathlib.Data.Finset.Card
import Mathlib.Data.Finset.Dedup

/-!
# C93: correlated variables need enough different samples

`correlate(vars, m, _min_unique_samples=k)`: a joint draw is refused with `ValueError` when the draws of some
variable repeat too often.
-/

namespace Verif

variable {σ K : Type} [Field K] [LinearOrder K]

namespace Spec

/-- Fewer than 70 per cent of the values, or fewer than `k` values, are different. -/
def TooRepetitive (k : ℕ) (col : List K) : Prop :=
  10 * col.toFinset.card < 7 * col.length ∨ col.toFinset.card < k

end Spec

open Spec

theorem diverse_iff [IsStrictOrderedRing K] (k : ℕ) (col : List K) :
    sufficientlyDiverse k col = true ↔ ¬ TooRepetitive k col := by
  unfold sufficientlyDiverse TooRepetitive
  rw [List.card_toFinset, Bool.and_eq_true, decide_eq_true_iff, decide_eq_true_iff, not_or, not_lt, not_lt]
  refine and_congr ?_ Iff.rfl
  rw [div_mul_eq_mul_div, div_le_iff₀ (by norm_num)]
  rw [← Nat.cast_le (α := K)]
  push_cast
  rw [mul_comm (10 : K)]

theorem mapExcept_error_kind {α β : Type} {f : α → Except PyErr β} {P : PyErr → Prop}
    (hf : ∀ a e, f a = .error e → P e) : ∀ (l : List α) (e : PyErr), mapExcept f l = .error e → P e := by
  intro l
  induction l with
  | nil => intro e h; cases h
  | cons a as ih =>
    intro e h
    unfold mapExcept at h
    cases ha : f a with
    | error e' => rw [ha] at h; cases h; exact hf _ _ ha
    | ok b =>
      rw [ha] at h
      cases hr : mapExcept f as with
      | error e' => rw [hr] at h; cases h; exact ih _ hr
      | ok r => rw [hr] at h; cases h

theorem gatherIdx_error {α : Type} (a : List α) (idx : List ℕ) (e : PyErr) (h : gatherIdx a idx = .error e) :
    e = .indexError := by
  refine mapExcept_error_kind (P := fun e => e = .indexError) (fun i e hi => ?_) _ _ h
  cases ha : a[i]? with
  | none => rw [ha] at hi; cases hi; rfl
  | some x => rw [ha] at hi; cases hi

omit [Field K] [LinearOrder K] in
theorem sortColumn_error {argsort : List ℕ → List ℕ} {col : List K} {a b : List ℕ} {e : PyErr}
    (h : sortColumn argsort col a b = .error e) : e = .indexError := by
  unfold sortColumn at h
  cases hg : gatherIdx col (argsort (a.map (denseIdx (a ++ b)))) with
  | error e' =>
    simp only [hg] at h
    cases h
    exact gatherIdx_error _ _ _ hg
  | ok s =>
    simp only [hg] at h
    exact gatherIdx_error _ _ _ h

/-- **C93.** Joint draws in which some variable is too repetitive are refused with ValueError, whatever the
correlation matrix, even the identity. -/
theorem C93_refused [IsStrictOrderedRing K] (C : CorrEnv K) (G : CorrGroup K) (cols : List (List K))
    (h : ∃ c ∈ cols, TooRepetitive G.minUnique c) : G.induce C cols = .error .valueError := by
  obtain ⟨c, hc, ht⟩ := h
  unfold CorrGroup.induce
  rw [if_pos]
  refine List.any_eq_true.2 ⟨c, hc, ?_⟩
  have : ¬ sufficientlyDiverse G.minUnique c = true := fun hd => (diverse_iff _ _).1 hd ht
  rw [Bool.not_eq_true] at this
  rw [this]; rfl

/-- **C93.** No other joint draws are refused with ValueError (if the linear algebra does not raise one). -/
theorem C93_accepted [IsStrictOrderedRing K] (C : CorrEnv K) (hC : ∀ s, C.recorr s ≠ .error .valueError)
    (G : CorrGroup K) (cols : List (List K)) :
    G.induce C cols = .error .valueError ↔ ∃ c ∈ cols, TooRepetitive G.minUnique c := by
  refine ⟨fun h => ?_, C93_refused C G cols⟩
  by_contra hno
  push Not at hno
  unfold CorrGroup.induce at h
  rw [if_neg] at h
  · split at h
    · cases h
    · cases hr : C.recorr (cols.map (scoresOf C.ppf)) with
      | error e =>
        simp only [targetScores, hr] at h
        cases h
        exact hC _ hr
      | ok s =>
        simp only [targetScores, hr] at h
        change (if _ then _ else _) = _ at h
        split at h
        · cases h
        · revert h
          generalize hm : mapExcept (fun p : List K × List K => sortColumn C.argsort p.1 (rankMin p.1)
            (rankMin p.2)) _ = r
          cases r with
          | error e =>
            intro h
            have he := mapExcept_error_kind (P := fun e => e = .indexError) (fun a e ha => sortColumn_error ha) _ _ hm
            subst he
            cases h
          | ok out =>
            intro h
            change (match G.tol with | some t => _ | none => _) = _ at h
            split at h
            · split at h
              · cases h
              · split at h <;> cases h
            · cases h
  · intro hany
    obtain ⟨c, hc, hd⟩ := List.any_eq_true.1 hany
    rw [(diverse_iff _ _).2 (hno c hc)] at hd
    cases hd

variable [FloorRing K]

/-- **C93.** In every history of `sample` calls on a correlation group, if each call asks for fewer samples
than the required number of different ones, no call succeeds. -/
theorem C93_too_few_samples [IsStrictOrderedRing K] {E : Env σ K} {g m : ℕ} {members : Fin m → Obj (St σ K) K}
    (C : CorrEnv K) (G : CorrGroup K) (hE : E.induce g = G.induce C)
    (hav : ∀ j, (members j).Avoids g)
    (hind : ∀ a b, E.induce g a = .ok b → b.length = a.length)
    (ops : List (GroupOp σ K m))
    (hother : ∀ f, GroupOp.other f ∈ ops → ∀ s, (f s).left g = s.left g) (s : St σ K)
    (hfresh : ∀ j, s.left g j = none) (hn : ∀ i a, GroupOp.read i a ∈ ops → a.n < G.minUnique) :
    ∀ e ∈ runGroup E g m members ops s, ∃ err, e.2.2 = .error err := by
  have hj := C32_history hav hind ops hother s hfresh
  have hargs : ∀ e ∈ runGroup E g m members ops s, e.2.1.n < G.minUnique := by
    clear hj hother hfresh
    induction ops generalizing s with
    | nil => intro e he; cases he
    | cons op ops ih =>
      intro e he
      cases op with
      | other f => exact ih (f s) (fun i a h => hn i a (by simp [h])) e he
      | read i a =>
        unfold runGroup at he
        rcases List.mem_cons.1 he with rfl | he
        · exact hn i a (by simp)
        · exact ih _ (fun i a h => hn i a (by simp [h])) e he
  generalize runGroup E g m members ops s = h at *
  have key : ∀ cur read h, Spec.Joint (fun (a : ReadArgs K) cols => IsJointDraw E g m members a.n cols)
      (fun i a c r => IsClipped E (memberClips members i) a c r) (fun r => ∃ e, r = .error e)
      cur read h → cur = none → (∀ e ∈ h, e.2.1.n < G.minUnique) → ∀ e ∈ h, ∃ err, e.2.2 = .error err := by
    intro cur read h hj
    induction hj with
    | nil => intro _ _ e he; cases he
    | same => intro h0; cases h0
    | fresh _ hd hc _ _ _ =>
      intro _ ha
      exfalso
      have hlt := ha _ List.mem_cons_self
      obtain ⟨s0, s1, xs, indep, h1, h2, h3⟩ := hd
      have hl := hind _ _ h3
      rw [hE] at h3
      have hne : indep ≠ [] := by
        rintro rfl
        rw [List.length_nil, List.length_eq_zero_iff] at hl
        rw [hl] at hc
        cases hc
      obtain ⟨c, cs, rfl⟩ := List.exists_cons_of_ne_nil hne
      cases h2 with
      | cons hx _ =>
        have hcl := toColumn_length hx
        rw [C93_refused C G (c :: cs) ⟨c, by simp, Or.inr ?_⟩] at h3
        · cases h3
        · exact lt_of_le_of_lt (le_trans (List.toFinset_card_le c) hcl.le) hlt
    | failed hf _ ih =>
      intro h0 ha e he
      rcases List.mem_cons.1 he with rfl | he
      · exact hf
      · exact ih h0 (fun e he => ha e (by simp [he])) e he
  exact key _ _ _ hj rfl hargs

omit [FloorRing K] in
/-- **C93.** A variable that takes at most `v` different values cannot be correlated with more than `10 v / 7`
samples: a correlated coin is refused for three samples or more. -/
theorem C93_few_values [IsStrictOrderedRing K] (C : CorrEnv K) (G : CorrGroup K) (cols : List (List K))
    (vals : Finset K) (c : List K) (hc : c ∈ cols) (hv : ∀ x ∈ c, x ∈ vals)
    (hlen : 10 * vals.card < 7 * c.length) : G.induce C cols = .error .valueError := by
  refine C93_refused C G cols ⟨c, hc, Or.inl (lt_of_le_of_lt ?_ hlen)⟩
  exact Nat.mul_le_mul_left _ (Finset.card_le_card fun x hx => hv x (List.mem_toFinset.1 hx))

/-- Seven different values among ten are enough, six are not. -/
example : ¬ TooRepetitive 7 ([1, 1, 1, 1, 2, 3, 4, 5, 6, 7] : List ℚ) ∧
    TooRepetitive 6 ([1, 1, 1, 1, 1, 2, 3, 4, 5, 6] : List ℚ) ∧
    TooRepetitive 8 ([1, 1, 1, 1, 2, 3, 4, 5, 6, 7] : List ℚ) := by
  unfold TooRepetitive
  decide +kernel

/-- `induce` accepts exactly 70 per cent. -/
theorem C93_example (C : CorrEnv ℚ) :
    (CorrGroup.mk (eyeRows 2) none 7).induce C [[1, 1, 1, 1, 2, 3, 4, 5, 6, 7], [1, 2, 3, 4, 5, 6, 7, 8, 9, 10]]
      = .ok [[1, 1, 1, 1, 2, 3, 4, 5, 6, 7], [1, 2, 3, 4, 5, 6, 7, 8, 9, 10]] ∧
    (CorrGroup.mk (eyeRows 2) none 7).induce C [[1, 1, 1, 1, 1, 2, 3, 4, 5, 6], [1, 2, 3, 4, 5, 6, 7, 8, 9, 10]]
      = .error .valueError := by
  refine ⟨?_, C93_refused C _ _ ⟨_, List.mem_cons_self, ?_⟩⟩
  · unfold CorrGroup.induce
    rw [if_neg (by decide +kernel)]
    exact if_pos rfl
  · unfold TooRepetitive
    decide +kernel

end Verif
