import Verif.Lemmas.Weights

/-!
# What every successful weight processing returns, and renaming of values
-/

namespace Verif

set_option linter.unusedSectionVars false

variable {K : Type} [Field K] [LinearOrder K] [IsStrictOrderedRing K] {α β : Type}

/-- The value in an item. -/
def VItem.val : VItem K α → α
  | .plain a => a
  | .pair _ a => a

/-- Apply a function to the value of an item. -/
def VItem.map (f : α → β) : VItem K α → VItem K β
  | .plain a => .plain (f a)
  | .pair w a => .pair w (f a)

/-- All values in an argument. -/
def VArg.vals : VArg K α → List α
  | .absent => []
  | .list vs => vs.map VItem.val
  | .ndarray vs => vs.map VItem.val
  | .dict kvs => kvs.map Prod.fst
  | .other => []

/-- Apply a function to all values in an argument. -/
def VArg.map (f : α → β) : VArg K α → VArg K β
  | .absent => .absent
  | .list vs => .list (vs.map (VItem.map f))
  | .ndarray vs => .ndarray (vs.map (VItem.map f))
  | .dict kvs => .dict (kvs.map fun p => (f p.1, p.2))
  | .other => .other

/-! ### Successful calls -/

theorem keepPositive_sound {γ : Type} : ∀ (ws : List K) (vs : List γ) {ws' vs'},
    keepPositive ws vs = .ok (ws', vs') →
      (∀ w ∈ ws', 0 < w) ∧ ws'.length = vs'.length ∧ (∀ v ∈ vs', v ∈ vs) ∧ ws'.sum = ws.sum
  | [], vs, ws', vs', h => by
    simp only [keepPositive, Except.ok.injEq, Prod.mk.injEq] at h
    obtain ⟨rfl, rfl⟩ := h
    simp
  | _ :: _, [], ws', vs', h => by simp [keepPositive] at h
  | w :: ws, v :: vs, ws', vs', h => by
    simp only [keepPositive] at h
    split_ifs at h with h1 h2
    · cases hk : keepPositive ws vs with
      | error e => rw [hk] at h; simp [bind, Except.bind] at h
      | ok r =>
        obtain ⟨a, b⟩ := r
        rw [hk] at h
        simp only [bind, Except.bind, Except.ok.injEq, Prod.mk.injEq] at h
        obtain ⟨rfl, rfl⟩ := h
        obtain ⟨k1, k2, k3, k4⟩ := keepPositive_sound ws vs hk
        refine ⟨?_, by simp [k2], ?_, by simp [k4]⟩
        · intro x hx
          rcases List.mem_cons.1 hx with rfl | hx
          · exact h2
          · exact k1 x hx
        · intro x hx
          rcases List.mem_cons.1 hx with rfl | hx
          · simp
          · exact List.mem_cons_of_mem _ (k3 x hx)
    · cases hk : keepPositive ws vs with
      | error e => rw [hk] at h; simp [bind, Except.bind] at h
      | ok r =>
        obtain ⟨a, b⟩ := r
        rw [hk] at h
        simp only [bind, Except.bind, Except.ok.injEq, Prod.mk.injEq] at h
        obtain ⟨rfl, rfl⟩ := h
        obtain ⟨k1, k2, k3, k4⟩ := keepPositive_sound ws vs hk
        have h0 : w = 0 := le_antisymm (not_lt.1 h2) (not_lt.1 h1)
        exact ⟨k1, k2, fun x hx => List.mem_cons_of_mem _ (k3 x hx), by simp [k4, h0]⟩

theorem finishWeights_sound {relative : Bool} {ws : List K} {owner : WOwner} {vs : List (VItem K α)}
    {ws' vs'} (h : (finishWeights relative ws owner vs).result = .ok (ws', vs')) (hne : vs ≠ []) :
    (∀ w ∈ ws', 0 < w) ∧ ws'.length = vs'.length ∧ (∀ v ∈ vs', v ∈ vs) ∧
      (99 / 100 < ws'.sum ∧ ws'.sum < 101 / 100 ∨ ws' = []) := by
  unfold finishWeights at h
  cases relative with
  | true =>
    simp only [if_true] at h
    by_cases hnp : owner = .numpy ∧ ws ≠ [] ∧ ws.sum = 0
    · simp only [if_pos hnp, normalizedByZero] at h
      split_ifs at h
      simp only [Except.ok.injEq, Prod.mk.injEq] at h
      obtain ⟨rfl, rfl⟩ := h
      simp
    simp only [if_neg hnp] at h
    unfold normalize at h
    by_cases hz : ws ≠ [] ∧ ws.sum = 0
    · rw [if_pos hz] at h; simp at h
    · rw [if_neg hz] at h
      simp only at h
      split_ifs at h with hl
      · obtain ⟨k1, k2, k3, k4⟩ := keepPositive_sound _ _ h
        refine ⟨k1, k2, k3, .inl ?_⟩
        rw [k4, sum_map_div]
        have hws : ws ≠ [] := by
          rintro rfl
          simp only [List.map_nil, List.length_nil, ne_eq, not_not] at hl
          exact hne (List.length_eq_zero_iff.1 hl.symm)
        have : ws.sum ≠ 0 := fun h0 => hz ⟨hws, h0⟩
        rw [div_self this]
        norm_num
  | false =>
    simp only [Bool.false_eq_true, if_false] at h
    split_ifs at h with h1 h2 h3
    · cases owner with
      | tuple => simp at h
      | caller =>
        simp only at h
        obtain ⟨k1, k2, k3, k4⟩ := keepPositive_sound _ _ h
        exact ⟨k1, k2, k3, .inl (by rw [k4]; simp; norm_num)⟩
      | fresh =>
        simp only at h
        obtain ⟨k1, k2, k3, k4⟩ := keepPositive_sound _ _ h
        exact ⟨k1, k2, k3, .inl (by rw [k4]; simp; norm_num)⟩
      | numpy =>
        simp only at h
        obtain ⟨k1, k2, k3, k4⟩ := keepPositive_sound _ _ h
        exact ⟨k1, k2, k3, .inl (by rw [k4]; simp; norm_num)⟩
    · simp only at h
      obtain ⟨k1, k2, k3, k4⟩ := keepPositive_sound _ _ h
      refine ⟨k1, k2, k3, .inl ?_⟩
      push Not at h2
      rw [k4]
      exact h2

theorem unzipPairs_sound : ∀ (vs : List (VItem K α)) {ws as},
    unzipPairs vs = .ok (ws, as) → as = vs.map VItem.val
  | [], ws, as, h => by
    simp only [unzipPairs, Except.ok.injEq, Prod.mk.injEq] at h
    simp [← h.2]
  | .pair w a :: rest, ws, as, h => by
    simp only [unzipPairs] at h
    cases hr : unzipPairs rest with
    | error e => rw [hr] at h; simp [bind, Except.bind] at h
    | ok r =>
      obtain ⟨x, y⟩ := r
      rw [hr] at h
      simp only [bind, Except.bind, Except.ok.injEq, Prod.mk.injEq] at h
      rw [← h.2, unzipPairs_sound rest hr]
      rfl
  | .plain _ :: _, ws, as, h => by simp [unzipPairs] at h

theorem fillWeights_sound {na : α → Bool} {dropNa : Bool} {w : Option (List (Option K) × WOwner)}
    {vs : List (VItem K α)} {r vs'} (h : fillWeights na dropNa w vs = .ok (r, vs')) :
    (∀ v ∈ vs', v.val ∈ vs.map VItem.val) ∧
      ((∃ x ∈ vs, ∃ a, x = .plain a) → ∀ v ∈ vs', v ∈ vs) := by
  unfold fillWeights at h
  cases w with
  | some ws =>
    simp only at h
    split_ifs at h with h1
    simp only [Except.ok.injEq, Prod.mk.injEq] at h
    rw [← h.2]
    exact ⟨fun v hv => List.mem_map_of_mem hv, fun _ v hv => hv⟩
  | none =>
    cases vs with
    | nil => simp at h
    | cons x rest =>
      cases x with
      | pair w a =>
        simp only at h
        cases hu : unzipPairs (.pair w a :: rest) with
        | error e => rw [hu] at h; simp [bind, Except.bind] at h
        | ok r' =>
          obtain ⟨ws, as⟩ := r'
          rw [hu] at h
          simp only [bind, Except.bind] at h
          have := unzipPairs_sound _ hu
          split_ifs at h with h1
          simp only [Except.ok.injEq, Prod.mk.injEq] at h
          rw [← h.2, this]
          refine ⟨?_, ?_⟩
          · intro v hv
            obtain ⟨y, hy, rfl⟩ := List.mem_map.1 hv
            exact hy
          · rintro ⟨x, hx, a', rfl⟩
            exfalso
            have hne : ∀ (l : List (VItem K α)) (p q), unzipPairs l = .ok (p, q) →
                VItem.plain a' ∉ l := by
              intro l
              induction l with
              | nil => intro p q _; simp
              | cons y l ih =>
                intro p q hl
                cases y with
                | plain b => simp [unzipPairs] at hl
                | pair b c =>
                  simp only [unzipPairs] at hl
                  cases hr : unzipPairs l with
                  | error e => rw [hr] at hl; simp [bind, Except.bind] at hl
                  | ok r =>
                    simp only [List.mem_cons, not_or]
                    exact ⟨by simp, ih _ _ hr⟩
            exact hne _ _ _ hu hx
      | plain a =>
        simp only [Except.ok.injEq, Prod.mk.injEq] at h
        rw [← h.2]
        have hsub : ∀ v ∈ (if dropNa = true then
            (VItem.plain a :: rest).filter (fun v => !itemNa na v) else VItem.plain a :: rest),
            v ∈ VItem.plain a :: rest := by
          intro v hv
          split_ifs at hv
          · exact List.mem_of_mem_filter hv
          · exact hv
        exact ⟨fun v hv => List.mem_map_of_mem (hsub v hv), fun _ => hsub⟩

/-- Every successful call: the kept weights are positive and sum to about one (or there are none), there are as many as values, and the values
are among the given ones. -/
theorem process_sound {na : α → Bool} {w r : WArg K} {v : VArg K α} {dropNa : Bool} {ws vs}
    (h : (processWeightsValues na w r v dropNa).result = .ok (ws, vs)) :
    (∀ x ∈ ws, 0 < x) ∧ ws.length = vs.length ∧ (∀ x ∈ vs, x.val ∈ v.vals) ∧
      (99 / 100 < ws.sum ∧ ws.sum < 101 / 100 ∨ ws = []) := by
  unfold processWeightsValues at h
  split_ifs at h with h1 h2
  · simp only at h
    cases hw : resolveWeights (if (!r.isAbsent) = true then r else w) with
    | error e => rw [hw] at h; simp at h
    | ok w1 =>
      rw [hw] at h
      simp only at h
      cases hv : resolveValues w1 v with
      | error e => rw [hv] at h; simp at h
      | ok p =>
        obtain ⟨w2, vs1⟩ := p
        rw [hv] at h
        simp only at h
        cases hf : fillWeights na dropNa w2 vs1 with
        | error e => rw [hf] at h; simp at h
        | ok q =>
          obtain ⟨⟨ws1, owner⟩, vs2⟩ := q
          rw [hf] at h
          simp only at h
          cases hr : requireNumbers ws1 with
          | error e => rw [hr] at h; simp at h
          | ok ws2 =>
            rw [hr] at h
            simp only at h
            have hvals : vs1.map VItem.val = v.vals := by
              cases v with
              | absent => simp [resolveValues] at hv
              | list l =>
                simp only [resolveValues, Except.ok.injEq, Prod.mk.injEq] at hv
                rw [← hv.2]; rfl
              | ndarray l =>
                simp only [resolveValues, Except.ok.injEq, Prod.mk.injEq] at hv
                rw [← hv.2]; rfl
              | dict l =>
                cases w1 with
                | none =>
                  simp only [resolveValues, Except.ok.injEq, Prod.mk.injEq] at hv
                  rw [← hv.2]
                  simp [VArg.vals, VItem.val]
                | some _ => simp [resolveValues] at hv
              | other => simp [resolveValues] at hv
            by_cases hne : vs2 = []
            · subst hne
              -- no values: the weights would have to be empty, and an empty sum is refused
              exfalso
              unfold finishWeights at h
              cases hrel : (!r.isAbsent) with
              | true =>
                rw [hrel] at h
                simp only [if_true] at h
                -- relative weights given: `fillWeights` keeps the values
                rw [if_pos hrel] at hw
                have hw1 : ∃ y, w1 = some y := by
                  cases r with
                  | absent => simp [WArg.isAbsent] at hrel
                  | num x => simp [resolveWeights] at hw; exact ⟨_, hw.symm⟩
                  | list x => simp [resolveWeights] at hw; exact ⟨_, hw.symm⟩
                  | ndarray x => simp [resolveWeights] at hw; exact ⟨_, hw.symm⟩
                  | tuple x => simp [resolveWeights] at hw; exact ⟨_, hw.symm⟩
                  | other => simp [resolveWeights] at hw
                obtain ⟨y, rfl⟩ := hw1
                have : w2 = some y ∧ vs1.isEmpty = valuesEmpty v := by
                  cases v with
                  | absent => simp [resolveValues] at hv
                  | list l =>
                    simp only [resolveValues, Except.ok.injEq, Prod.mk.injEq] at hv
                    exact ⟨hv.1.symm, by rw [← hv.2]; rfl⟩
                  | ndarray l =>
                    simp only [resolveValues, Except.ok.injEq, Prod.mk.injEq] at hv
                    exact ⟨hv.1.symm, by rw [← hv.2]; rfl⟩
                  | dict l => simp [resolveValues] at hv
                  | other => simp [resolveValues] at hv
                obtain ⟨rfl, he⟩ := this
                simp only [fillWeights] at hf
                split_ifs at hf
                simp only [Except.ok.injEq, Prod.mk.injEq] at hf
                rw [hf.2] at he
                exact h2 he.symm
              | false =>
                rw [hrel] at h
                simp only [Bool.false_eq_true, if_false, List.length_nil] at h
                rw [if_neg (by omega)] at h
                split_ifs at h with h3 h4
                · push Not at h3 h4
                  have : ws2 = [] := List.length_eq_zero_iff.1 h4
                  rw [this] at h3
                  simp only [List.sum_nil] at h3
                  have := h3.1
                  norm_num at this
            · obtain ⟨k1, k2, k3, k4⟩ := finishWeights_sound h hne
              refine ⟨k1, k2, ?_, k4⟩
              intro x hx
              rw [← hvals]
              exact (fillWeights_sound hf).1 x (k3 x hx)

/-! ### Renaming values -/

theorem keepPositive_map {γ δ : Type} (g : γ → δ) : ∀ (ws : List K) (vs : List γ),
    keepPositive ws (vs.map g) = (keepPositive ws vs).map fun p => (p.1, p.2.map g)
  | [], vs => by cases vs <;> rfl
  | _ :: _, [] => rfl
  | w :: ws, v :: vs => by
    simp only [keepPositive, List.map_cons, keepPositive_map g ws vs]
    split_ifs with h1 h2
    · rfl
    · cases keepPositive ws vs <;> rfl
    · cases keepPositive ws vs <;> rfl

theorem finishWeights_map (f : α → β) (relative : Bool) (ws : List K) (owner : WOwner)
    (vs : List (VItem K α)) :
    (finishWeights relative ws owner (vs.map (VItem.map f))).result =
      (finishWeights relative ws owner vs).result.map fun p => (p.1, p.2.map (VItem.map f)) := by
  unfold finishWeights
  simp only [List.length_map]
  cases relative with
  | true =>
    simp only [if_true]
    by_cases hnp : owner = .numpy ∧ ws ≠ [] ∧ ws.sum = 0
    · simp only [if_pos hnp, normalizedByZero, List.length_map]
      split_ifs <;> rfl
    simp only [if_neg hnp]
    cases normalize ws with
    | error e => rfl
    | ok ws' =>
      simp only
      split_ifs with h
      · rfl
      · exact keepPositive_map _ _ _
  | false =>
    simp only [Bool.false_eq_true, if_false]
    split_ifs with h1 h2 h3
    · cases owner with
      | tuple => rfl
      | caller => exact keepPositive_map _ _ _
      | fresh => exact keepPositive_map _ _ _
      | numpy => exact keepPositive_map _ _ _
    · rfl
    · rfl
    · exact keepPositive_map _ _ _

theorem unzipPairs_map (f : α → β) : ∀ vs : List (VItem K α),
    unzipPairs (vs.map (VItem.map f)) = (unzipPairs vs).map fun p => (p.1, p.2.map f)
  | [] => rfl
  | .pair w a :: rest => by
    simp only [List.map_cons, VItem.map, unzipPairs, unzipPairs_map f rest]
    cases unzipPairs rest <;> rfl
  | .plain _ :: _ => rfl

theorem fillWeights_map (f : α → β) {na : α → Bool} {na' : β → Bool} (hna : ∀ a, na' (f a) = na a)
    (dropNa : Bool) (w : Option (List (Option K) × WOwner)) (vs : List (VItem K α)) :
    fillWeights na' dropNa w (vs.map (VItem.map f)) =
      (fillWeights na dropNa w vs).map fun p => (p.1, p.2.map (VItem.map f)) := by
  have hitem : ∀ v : VItem K α, itemNa na' (v.map f) = itemNa na v := by
    intro v
    cases v with
    | plain a => exact hna a
    | pair w a => rfl
  have hany : (vs.map (VItem.map f)).any (itemNa na') = vs.any (itemNa na) := by
    rw [List.any_map]
    congr 1
    funext v
    exact hitem v
  unfold fillWeights
  cases w with
  | some ws =>
    simp only [hany]
    split_ifs <;> rfl
  | none =>
    cases vs with
    | nil => rfl
    | cons x rest =>
      cases x with
      | pair w a =>
        simp only [List.map_cons, VItem.map]
        have := unzipPairs_map f (VItem.pair w a :: rest)
        simp only [List.map_cons, VItem.map] at this
        rw [this]
        cases hu : unzipPairs (VItem.pair w a :: rest) with
        | error e => rfl
        | ok r =>
          obtain ⟨ws, as⟩ := r
          simp only [bind, Except.bind, Except.map]
          have h2 : (as.map f).any na' = as.any na := by
            rw [List.any_map]
            congr 1
            funext v
            exact hna v
          rw [h2]
          split_ifs
          · rfl
          · simp [VItem.map]
      | plain a =>
        simp only [List.map_cons, VItem.map, Except.map]
        have key : (if dropNa = true then
            (VItem.plain (f a) :: rest.map (VItem.map f)).filter (fun v => !itemNa na' v)
            else VItem.plain (f a) :: rest.map (VItem.map f)) =
          (if dropNa = true then (VItem.plain a :: rest).filter (fun v => !itemNa na v)
            else VItem.plain a :: rest).map (VItem.map (K := K) f) := by
          split_ifs
          · rw [show (VItem.plain (f a) :: rest.map (VItem.map (K := K) f)) =
              (VItem.plain a :: rest).map (VItem.map f) from rfl, List.filter_map]
            congr 1
            apply List.filter_congr
            intro v _
            simp [hitem]
          · rfl
        rw [key, List.map_map, List.length_map]
        rfl

theorem resolveValues_map (f : α → β) (w : Option (List (Option K) × WOwner)) (v : VArg K α) :
    resolveValues w (v.map f) =
      (resolveValues w v).map fun p => (p.1, p.2.map (VItem.map f)) := by
  cases v with
  | absent => rfl
  | list vs => rfl
  | ndarray vs => rfl
  | other => rfl
  | dict kvs =>
    cases w with
    | none =>
      simp only [VArg.map, resolveValues, Except.map, List.map_map]
      rfl
    | some _ => rfl

/-- Applying a function to the values (that keeps NA-ness) does not change which weights are kept. -/
theorem process_map (f : α → β) {na : α → Bool} {na' : β → Bool} (hna : ∀ a, na' (f a) = na a)
    (w r : WArg K) (v : VArg K α) (dropNa : Bool) :
    (processWeightsValues na' w r (v.map f) dropNa).result =
      (processWeightsValues na w r v dropNa).result.map
        fun p => (p.1, p.2.map (VItem.map f)) := by
  unfold processWeightsValues
  have hemp : valuesEmpty (v.map f) = valuesEmpty v := by
    cases v with
    | list vs => simp [VArg.map, valuesEmpty]
    | ndarray vs => simp [VArg.map, valuesEmpty]
    | _ => rfl
  rw [hemp]
  split_ifs with h1 h2
  · rfl
  · rfl
  · simp only
    cases resolveWeights (if (!r.isAbsent) = true then r else w) with
    | error e => rfl
    | ok w1 =>
      simp only [resolveValues_map]
      cases resolveValues w1 v with
      | error e => rfl
      | ok p =>
        obtain ⟨w2, vs1⟩ := p
        simp only [Except.map]
        rw [fillWeights_map f hna]
        cases fillWeights na dropNa w2 vs1 with
        | error e => rfl
        | ok q =>
          obtain ⟨⟨ws1, owner⟩, vs2⟩ := q
          simp only [Except.map]
          cases requireNumbers ws1 with
          | error e => rfl
          | ok ws2 => exact finishWeights_map f _ _ _ _

end Verif
