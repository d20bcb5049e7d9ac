import Verif.Model.Weights
import Mathlib.Algebra.Order.BigOperators.Group.List
import Mathlib.Algebra.BigOperators.Ring.List
import Mathlib.Data.List.Dedup
import Mathlib.Tactic.Linarith
import Mathlib.Tactic.FieldSimp
import Mathlib.Tactic.NormNum

namespace Verif

set_option linter.unusedSectionVars false

variable {K : Type} [Field K] [LinearOrder K] [IsStrictOrderedRing K] {α : Type}

theorem keepPositive_eq {β : Type} (ws : List K) (vs : List β) (h : ws.length = vs.length) :
    keepPositive ws vs =
      if ∀ w ∈ ws, 0 ≤ w then
        .ok (((ws.zip vs).filter (fun p => p.1 ≠ 0)).map Prod.fst,
             ((ws.zip vs).filter (fun p => p.1 ≠ 0)).map Prod.snd)
      else .error .valueError := by
  induction ws generalizing vs with
  | nil => simp [keepPositive]
  | cons w ws ih =>
    cases vs with
    | nil => simp at h
    | cons v vs =>
      have ih' := ih vs (by simpa using h)
      unfold keepPositive
      by_cases hw : w < 0
      · have : ¬ (0 ≤ w) := not_le.mpr hw
        simp [hw, this]
      · have hw0 : 0 ≤ w := not_lt.mp hw
        rw [if_neg hw, ih']
        by_cases hall : ∀ x ∈ ws, 0 ≤ x
        · have hall' : ∀ x ∈ w :: ws, 0 ≤ x := by
            intro x hx; rcases List.mem_cons.mp hx with rfl | hx
            · exact hw0
            · exact hall x hx
          rw [if_pos hall, if_pos hall']
          by_cases hp : 0 < w
          · have hne : w ≠ 0 := ne_of_gt hp
            simp [hp, hne, bind, Except.bind]
          · have : w = 0 := le_antisymm (not_lt.mp hp) hw0
            subst this
            simp [bind, Except.bind]
        · have hall' : ¬ ∀ x ∈ w :: ws, 0 ≤ x := fun hc => hall fun x hx => hc x (List.mem_cons_of_mem _ hx)
          rw [if_neg hall, if_neg hall']
          rfl

theorem requireNumbers_some (ws : List K) : requireNumbers (ws.map some) = .ok ws := by
  induction ws with
  | nil => rfl
  | cons w ws ih => simp [requireNumbers, ih, bind, Except.bind]

theorem any_itemNa_plain (na : α → Bool) (vs : List α) :
    (vs.map (VItem.plain (K := K))).any (itemNa na) = vs.any na := by
  induction vs with
  | nil => rfl
  | cons v vs ih => simp only [List.map_cons, List.any_cons, ih]; rfl

/-- Weights given explicitly, plain values given as a list without NA. -/
theorem process_explicit (na : α → Bool) (W : WArg K) (owner : WOwner) (ws : List K) (vs : List α)
    (dropNa : Bool) (hne : vs ≠ []) (hW : resolveWeights W = .ok (some (ws.map some, owner)))
    (hna : dropNa = true → ∀ v ∈ vs, na v = false) :
    processWeightsValues na W .absent (.list (vs.map .plain)) dropNa =
      finishWeights false ws owner (vs.map .plain) := by
  have hany : (dropNa && (vs.map (VItem.plain (K := K))).any (itemNa na)) = false := by
    rw [any_itemNa_plain]
    cases dropNa with
    | false => rfl
    | true =>
      have := hna rfl
      simp [List.any_eq_false]
      intro x hx; simp [this x hx]
  have hemp : valuesEmpty (VArg.list (vs.map (VItem.plain (K := K)))) = false := by
    cases vs with
    | nil => exact absurd rfl hne
    | cons v vs => rfl
  have hfill : fillWeights na dropNa (some (ws.map some, owner)) (vs.map (VItem.plain (K := K))) =
      .ok ((ws.map some, owner), vs.map .plain) := by
    simp only [fillWeights, hany]; rfl
  have habs : (WArg.absent : WArg K).isAbsent = true := rfl
  simp only [processWeightsValues, habs, Bool.not_true, Bool.and_false, Bool.false_eq_true, if_false,
    hemp, hW, resolveValues, hfill, requireNumbers_some]

/-- Relative weights given explicitly, plain values given as a list without NA. -/
theorem process_relative (na : α → Bool) (W : WArg K) (owner : WOwner) (ws : List K) (vs : List α)
    (dropNa : Bool) (hne : vs ≠ []) (hW : resolveWeights W = .ok (some (ws.map some, owner)))
    (hna : dropNa = true → ∀ v ∈ vs, na v = false) :
    processWeightsValues na .absent W (.list (vs.map .plain)) dropNa =
      finishWeights true ws owner (vs.map .plain) := by
  have hany : (dropNa && (vs.map (VItem.plain (K := K))).any (itemNa na)) = false := by
    rw [any_itemNa_plain]
    cases dropNa with
    | false => rfl
    | true =>
      have := hna rfl
      simp [List.any_eq_false]
      intro x hx; simp [this x hx]
  have hemp : valuesEmpty (VArg.list (vs.map (VItem.plain (K := K)))) = false := by
    cases vs with
    | nil => exact absurd rfl hne
    | cons v vs => rfl
  have hrel : W.isAbsent = false := by
    cases W
    case absent => cases hW
    all_goals rfl
  have hfill : fillWeights na dropNa (some (ws.map some, owner)) (vs.map (VItem.plain (K := K))) =
      .ok ((ws.map some, owner), vs.map .plain) := by
    simp only [fillWeights, hany]; rfl
  have habs : (WArg.absent : WArg K).isAbsent = true := rfl
  simp only [processWeightsValues, habs, hrel, Bool.not_true, Bool.not_false, Bool.false_and,
    Bool.false_eq_true, if_false, if_true, hemp, hW, resolveValues, hfill, requireNumbers_some]

theorem sum_map_div (l : List K) (c : K) : (l.map (· / c)).sum = l.sum / c := by
  induction l with
  | nil => simp
  | cons a l ih => simp [ih, add_div]

theorem zip_map_left' {β γ δ : Type} (f : β → δ) (l : List β) (m : List γ) :
    (l.map f).zip m = (l.zip m).map (fun p => (f p.1, p.2)) := by
  induction l generalizing m with
  | nil => simp
  | cons a l ih => cases m with
    | nil => simp
    | cons b m => simp [ih]

theorem zip_map_right' {β γ δ : Type} (f : γ → δ) (l : List β) (m : List γ) :
    l.zip (m.map f) = (l.zip m).map (fun p => (p.1, f p.2)) := by
  induction l generalizing m with
  | nil => simp
  | cons a l ih => cases m with
    | nil => simp
    | cons b m => simp [ih]

/-- Dropping zero entries does not change the sum. -/
theorem sum_filter_ne_zero {β : Type} (l : List (K × β)) :
    ((l.filter (fun p => p.1 ≠ 0)).map Prod.fst).sum = (l.map Prod.fst).sum := by
  induction l with
  | nil => simp
  | cons a l ih =>
    by_cases h : a.1 = 0
    · rw [List.filter_cons]; simp [h] at ih ⊢; simpa using ih
    · rw [List.filter_cons]; simp [h] at ih ⊢; simpa using ih

theorem map_fst_zip' {β γ : Type} (l : List β) (m : List γ) (h : l.length = m.length) :
    (l.zip m).map Prod.fst = l := List.map_fst_zip (by omega)

theorem map_snd_zip' {β γ : Type} (l : List β) (m : List γ) (h : l.length = m.length) :
    (l.zip m).map Prod.snd = m := List.map_snd_zip (by omega)

/-! ### Counter -/

theorem counter_mem [DecidableEq α] (as : List α) (p : α × ℕ) :
    p ∈ counter as ↔ p.1 ∈ as ∧ p.2 = as.count p.1 := by
  induction as with
  | nil => simp [counter]
  | cons a as ih =>
    obtain ⟨x, c⟩ := p
    unfold counter
    rw [List.mem_cons, List.mem_filter, ih]
    by_cases hx : x = a
    · subst hx; simp
    · have : a ≠ x := fun h => hx h.symm
      simp [hx, List.count_cons, this]

theorem counter_keys_nodup [DecidableEq α] (as : List α) : ((counter as).map Prod.fst).Nodup := by
  induction as with
  | nil => simp [counter]
  | cons a as ih =>
    unfold counter
    rw [List.map_cons, List.nodup_cons]
    constructor
    · intro h
      rw [List.mem_map] at h
      obtain ⟨p, hp, hpa⟩ := h
      rw [List.mem_filter] at hp
      simp at hp
      exact hp.2 hpa
    · exact ih.sublist ((List.filter_sublist).map _)

theorem counter_sum [DecidableEq α] (as : List α) : ((counter as).map Prod.snd).sum = as.length := by
  induction as with
  | nil => simp [counter]
  | cons a as ih =>
    unfold counter
    have key : ∀ l : List (α × ℕ), (l.map Prod.fst).Nodup → ∀ c, (a, c) ∈ l ∨ (c = 0 ∧ a ∉ l.map Prod.fst) →
        (((l.filter (fun p => p.1 ≠ a)).map Prod.snd).sum + c = (l.map Prod.snd).sum) := by
      intro l
      induction l with
      | nil => intro _ c hc; simp at hc; simp [hc]
      | cons p l ihl =>
        intro hnd c hc
        rw [List.map_cons, List.nodup_cons] at hnd
        obtain ⟨x, k⟩ := p
        by_cases hx : x = a
        · subst hx
          have hfilt : l.filter (fun p => p.1 ≠ x) = l := by
            rw [List.filter_eq_self]
            intro q hq
            simp
            intro hqx
            exact hnd.1 (List.mem_map.mpr ⟨q, hq, hqx⟩)
          rw [List.filter_cons]
          simp only [ne_eq, not_true_eq_false, decide_false, Bool.false_eq_true, if_false]
          simp only [ne_eq] at hfilt
          rw [hfilt]
          rcases hc with hc | hc
          · rcases List.mem_cons.mp hc with h | h
            · simp at h; subst h; simp [add_comm]
            · exact absurd (List.mem_map.mpr ⟨_, h, rfl⟩) hnd.1
          · simp at hc
        · rw [List.filter_cons]
          simp only [ne_eq, hx, not_false_eq_true, decide_true, if_true, List.map_cons, List.sum_cons]
          have := ihl hnd.2 c (by
            rcases hc with hc | hc
            · rcases List.mem_cons.mp hc with h | h
              · simp at h; exact absurd h.1.symm hx
              · exact Or.inl h
            · simp at hc
              refine Or.inr ⟨hc.1, ?_⟩
              simpa using hc.2.2)
          simp only [ne_eq] at this
          omega
    have hc : (a, as.count a) ∈ counter as ∨ (as.count a = 0 ∧ a ∉ (counter as).map Prod.fst) := by
      by_cases h : a ∈ as
      · left; rw [counter_mem]; exact ⟨h, rfl⟩
      · right
        refine ⟨List.count_eq_zero.mpr h, ?_⟩
        intro hm
        obtain ⟨p, hp, hpa⟩ := List.mem_map.mp hm
        rw [counter_mem] at hp
        exact h (hpa ▸ hp.1)
    have := key (counter as) (counter_keys_nodup as) _ hc
    simp only [List.map_cons, List.sum_cons, List.length_cons, List.count_cons_self]
    omega

end Verif
