import Verif.Model.HashKeys
import Verif.Props.Weights
import Verif.Props.PrintedForm

/-!
# C95: distributions as items of `discrete` and as dictionary keys
-/

namespace Verif

open Spec

section

variable {K : Type} [Field K] [LinearOrder K] [IsStrictOrderedRing K] {α κ : Type} [DecidableEq κ]

/-- The total weight of the values with a property. -/
def Spec.shareOf (ws : List K) (xs : List α) (P : α → Bool) : K :=
  (((ws.zip xs).filter fun p => P p.2).map Prod.fst).sum

theorem counterBy_mem (key : α → κ) (vs : List α) : ∀ p ∈ counterBy key vs, p.1 ∈ vs ∧
    p.2 = vs.countP (fun b => key b = key p.1) := by
  induction vs with
  | nil => intro p hp; cases hp
  | cons a as ih =>
    intro p hp
    unfold counterBy at hp
    rcases List.mem_cons.1 hp with rfl | hp
    · exact ⟨List.mem_cons_self, rfl⟩
    · obtain ⟨h1, h2⟩ := List.mem_filter.1 hp
      obtain ⟨h3, h4⟩ := ih p h1
      refine ⟨List.mem_cons_of_mem _ h3, ?_⟩
      have : ¬ key a = key p.1 := fun h => by simp [h] at h2
      rw [List.countP_cons_of_neg (by simpa using this)]
      exact h4

theorem counterBy_keys (key : α → κ) (vs : List α) : ((counterBy key vs).map fun p => key p.1).Nodup := by
  induction vs with
  | nil => simp [counterBy]
  | cons a as ih =>
    unfold counterBy
    rw [List.map_cons, List.nodup_cons]
    constructor
    · intro h
      obtain ⟨p, hp, he⟩ := List.mem_map.1 h
      have := (List.mem_filter.1 hp).2
      simp [he] at this
    · exact ih.sublist (List.filter_sublist.map _)

/-- Every item is represented. -/
theorem counterBy_cover (key : α → κ) (vs : List α) : ∀ a ∈ vs, ∃ p ∈ counterBy key vs, key p.1 = key a := by
  induction vs with
  | nil => intro a h; cases h
  | cons b bs ih =>
    intro a ha
    unfold counterBy
    by_cases hk : key b = key a
    · exact ⟨_, List.mem_cons_self, hk⟩
    · rcases List.mem_cons.1 ha with rfl | ha
      · exact absurd rfl hk
      · obtain ⟨p, hp, he⟩ := ih a ha
        refine ⟨p, List.mem_cons_of_mem _ (List.mem_filter.2 ⟨hp, ?_⟩), he⟩
        simpa [he] using fun h => hk h.symm

/-- Counting items with a property that only depends on the key. -/
theorem counterBy_count (key : α → κ) (vs : List α) : ∀ P : α → Bool, (∀ a b, key a = key b → P a = P b) →
    (((counterBy key vs).filter fun p => P p.1).map Prod.snd).sum = vs.countP P := by
  induction vs with
  | nil => intro P _; simp [counterBy]
  | cons a as ih =>
    intro P hP
    have hih := ih (fun b => P b && decide (key b ≠ key a)) (by
      intro b c h
      simp only [hP b c h, h])
    have hf : ((counterBy key as).filter fun p => key p.1 ≠ key a).filter (fun p => P p.1)
        = (counterBy key as).filter fun p => P p.1 && decide (key p.1 ≠ key a) := by
      rw [List.filter_filter]
    unfold counterBy
    rw [List.filter_cons]
    by_cases hPa : P a = true
    · simp only [hPa, if_true, List.map_cons, List.sum_cons]
      rw [hf, hih, List.countP_cons_of_pos (by simp), List.countP_cons_of_pos hPa]
      have : as.countP P = as.countP (fun b => decide (key b = key a))
          + as.countP (fun b => P b && decide (key b ≠ key a)) := by
        clear hih hf ih
        induction as with
        | nil => rfl
        | cons c cs ihc =>
          by_cases hc : key c = key a
          · have : P c = true := (hP c a hc).trans hPa
            rw [List.countP_cons_of_pos this, List.countP_cons_of_pos (by simpa using hc),
              List.countP_cons_of_neg (by simp [hc]), ihc]
            omega
          · rw [List.countP_cons_of_neg (a := c) (p := fun b => decide (key b = key a)) (by simpa using hc)]
            by_cases hPc : P c = true
            · rw [List.countP_cons_of_pos hPc, List.countP_cons_of_pos (by simp [hPc, hc]), ihc]
              omega
            · rw [List.countP_cons_of_neg hPc, List.countP_cons_of_neg (by simp [hPc]), ihc]
      omega
    · simp only [hPa, Bool.false_eq_true, if_false]
      rw [hf, hih, List.countP_cons_of_neg hPa]
      refine List.countP_congr fun b _ => ?_
      by_cases hb : key b = key a
      · simp [hb, hP b a hb, hPa]
      · simp [hb]

theorem counterBy_total (key : α → κ) (vs : List α) : ((counterBy key vs).map Prod.snd).sum = vs.length := by
  have := counterBy_count key vs (fun _ => true) (fun _ _ _ => rfl)
  simpa using this

/-- A dict with positive weights of sum one is taken as it is. -/
theorem process_dict {α : Type} (l : List (α × K)) (hsum : (l.map Prod.snd).sum = 1)
    (hpos : ∀ w ∈ l.map Prod.snd, 0 < w) :
    (processWeightsValues (K := K) (fun _ => false) .absent .absent
      (.dict (l.map fun p => (p.1, some p.2))) false).result
      = .ok (l.map Prod.snd, (l.map Prod.fst).map .plain) := by
  have habs : (WArg.absent : WArg K).isAbsent = true := rfl
  have hres : resolveValues (K := K) none (.dict (l.map (fun p => (p.1, some p.2)))) =
      .ok (some ((l.map Prod.snd).map some, .fresh), (l.map Prod.fst).map .plain) := by
    simp [resolveValues, List.map_map, Function.comp_def]
  have hfill : fillWeights (K := K) (fun _ => false) false (some ((l.map Prod.snd).map some, .fresh))
      ((l.map Prod.fst).map .plain) =
      .ok (((l.map Prod.snd).map some, .fresh), (l.map Prod.fst).map .plain) := rfl
  simp only [processWeightsValues, habs, Bool.not_true, Bool.and_false, Bool.false_eq_true, if_false,
    valuesEmpty, resolveWeights, hres, hfill, requireNumbers_some]
  unfold finishWeights
  simp only [Bool.false_eq_true, if_false, hsum, List.length_map]
  rw [if_neg (by norm_num), if_neg (by norm_num), if_neg (by simp)]
  show keepPositive _ _ = _
  rw [keepPositive_eq _ _ (by simp), if_pos (fun w hw => (hpos w hw).le)]
  have : ((l.map Prod.snd).zip ((l.map Prod.fst).map (VItem.plain (K := K)))).filter (fun p => p.1 ≠ 0) =
      (l.map Prod.snd).zip ((l.map Prod.fst).map (VItem.plain (K := K))) := by
    rw [List.filter_eq_self]
    intro q hq
    have := (List.of_mem_zip (by simpa using hq) : q.1 ∈ _ ∧ q.2 ∈ _).1
    simpa using ne_of_gt (hpos _ this)
  rw [this, map_fst_zip' _ _ (by simp), map_snd_zip' _ _ (by simp)]

/-- The result for 100 or more items. -/
theorem processDiscreteBy_long (key : α → κ) (vs : List α) (hlen : 100 ≤ vs.length) :
    processDiscreteBy (K := K) key vs
      = .ok ((counterBy key vs).map (fun p => (p.2 : K) / (vs.length : K)),
          ((counterBy key vs).map Prod.fst).map .plain) := by
  have hn : (0 : K) < (vs.length : K) := by exact_mod_cast (by omega : 0 < vs.length)
  set l : List (α × K) := (counterBy key vs).map (fun p => (p.1, (p.2 : K) / (vs.length : K))) with hl
  have hsnd : l.map Prod.snd = (counterBy key vs).map fun p => (p.2 : K) / (vs.length : K) := by
    rw [hl, List.map_map]; rfl
  have hfst : l.map Prod.fst = (counterBy key vs).map Prod.fst := by
    rw [hl, List.map_map]; rfl
  have hsum : (l.map Prod.snd).sum = 1 := by
    have h1 : (counterBy key vs).map (fun p => (p.2 : K) / (vs.length : K))
        = ((counterBy key vs).map (fun p => (p.2 : K))).map (· / (vs.length : K)) := by
      rw [List.map_map]; rfl
    have h2 : ((counterBy key vs).map (fun p => (p.2 : K))).sum
        = ((((counterBy key vs).map Prod.snd).sum : ℕ) : K) := by
      induction (counterBy key vs) with
      | nil => simp
      | cons a l ih => simp [ih]
    rw [hsnd, h1, sum_map_div, h2, counterBy_total, div_self hn.ne']
  have hpos : ∀ w ∈ l.map Prod.snd, 0 < w := by
    intro w hw
    rw [hsnd] at hw
    obtain ⟨p, hp, rfl⟩ := List.mem_map.1 hw
    obtain ⟨h1, h2⟩ := counterBy_mem key vs p hp
    have : 0 < p.2 := by
      rw [h2]; exact List.countP_pos_iff.2 ⟨p.1, h1, by simp⟩
    exact div_pos (by exact_mod_cast this) hn
  rw [← hsnd, ← hfst, ← process_dict l hsum hpos]
  unfold processDiscreteBy
  rw [if_pos hlen]
  simp only [counterBy_total, hl, List.map_map]
  rfl

theorem shareOf_map {β : Type} (l : List β) (f : β → K) (g : β → α) (P : α → Bool) :
    shareOf (l.map f) (l.map g) P = ((l.filter fun b => P (g b)).map f).sum := by
  unfold shareOf
  rw [List.zip_map', List.filter_map, List.map_map]
  rfl

/-- **C95.** `discrete` on a list of 100 or more items: the values kept are items of the list with pairwise
different keys, every item has the key of a kept value, and the weight of a kept value is the share of the
items with its key. -/
theorem C95_counted (key : α → κ) (vs : List α) (hlen : 100 ≤ vs.length) :
    ∃ ws xs, processDiscreteBy (K := K) key vs = .ok (ws, xs.map .plain) ∧ ws.length = xs.length ∧
      (xs.map key).Nodup ∧ (∀ x ∈ xs, x ∈ vs) ∧ (∀ v ∈ vs, ∃ x ∈ xs, key x = key v) ∧
      ∀ p ∈ ws.zip xs, p.1 = (vs.countP (fun v => key v = key p.2) : K) / vs.length := by
  refine ⟨_, _, processDiscreteBy_long key vs hlen, by simp, ?_, ?_, ?_, ?_⟩
  · rw [List.map_map]
    exact counterBy_keys key vs
  · intro x hx
    obtain ⟨p, hp, rfl⟩ := List.mem_map.1 hx
    exact (counterBy_mem key vs p hp).1
  · intro v hv
    obtain ⟨p, hp, he⟩ := counterBy_cover key vs v hv
    exact ⟨p.1, List.mem_map.2 ⟨p, hp, rfl⟩, he⟩
  · intro p hp
    rw [List.zip_map'] at hp
    obtain ⟨q, hq, rfl⟩ := List.mem_map.1 hp
    simp only [(counterBy_mem key vs q hq).2]

theorem share_long (key : α → κ) (vs : List α) (hlen : 100 ≤ vs.length) (P : α → Bool)
    (hP : ∀ a b, key a = key b → P a = P b) :
    shareOf ((counterBy key vs).map (fun p => (p.2 : K) / (vs.length : K))) ((counterBy key vs).map Prod.fst) P
      = (vs.countP P : K) / vs.length := by
  rw [shareOf_map, ← counterBy_count key vs P hP]
  have h1 : ∀ l : List (α × ℕ), (l.map (fun p => (p.2 : K) / (vs.length : K))).sum
      = ((l.map Prod.snd).sum : ℕ) / (vs.length : K) := by
    intro l
    induction l with
    | nil => simp
    | cons a l ih => simp [ih, add_div]
  exact h1 _

theorem plain_map_inj {xs ys : List α} (h : xs.map (VItem.plain (K := K)) = ys.map .plain) : xs = ys :=
  List.map_injective_iff.2 (fun a b h => by cases h; rfl) h

/-- **C95** (what holds for every list of items): the total weight of the values with some property is the
share of the items with that property, for every property that does not tell apart items with the same key.
*Missing:* the same for every property; see `C95_exact_iff` and `C95_merged_fails`. -/
theorem C95_share_partial (key : α → κ) (vs : List α) (hne : vs ≠ []) (ws : List K) (xs : List α)
    (h : processDiscreteBy key vs = .ok (ws, xs.map .plain)) (P : α → Bool)
    (hP : ∀ a b, key a = key b → P a = P b) : shareOf ws xs P = (vs.countP P : K) / vs.length := by
  by_cases hlen : 100 ≤ vs.length
  · rw [processDiscreteBy_long key vs hlen] at h
    simp only [Except.ok.injEq, Prod.mk.injEq] at h
    obtain ⟨rfl, h2⟩ := h
    rw [← plain_map_inj h2]
    exact share_long key vs hlen P hP
  · unfold processDiscreteBy at h
    rw [if_neg hlen, (C04_uniform (K := K) (fun _ => false) vs hne).1] at h
    simp only [Except.ok.injEq, Prod.mk.injEq] at h
    obtain ⟨rfl, h2⟩ := h
    rw [← plain_map_inj h2]
    have := shareOf_map (K := K) vs (fun _ => 1 / (vs.length : K)) id P
    rw [List.map_id] at this
    rw [this]
    simp only [id, List.map_const', List.sum_replicate, nsmul_eq_mul, List.countP_eq_length_filter]
    ring

/-- **C95.** Short lists are never merged: below 100 items every item keeps its own place and the weight
`1/len`. -/
theorem C95_short (key : α → κ) (vs : List α) (hne : vs ≠ []) (hlen : vs.length < 100) :
    processDiscreteBy (K := K) key vs = .ok (vs.map (fun _ => 1 / (vs.length : K)), vs.map .plain) := by
  unfold processDiscreteBy
  rw [if_neg (by omega)]
  exact (C04_uniform (K := K) (fun _ => false) vs hne).1

/-- **C95.** From 100 items on, `discrete` is the empirical distribution of its items exactly if items with
the same key are the same. -/
theorem C95_exact_iff (key : α → κ) (vs : List α) (hlen : 100 ≤ vs.length) (ws : List K) (xs : List α)
    (h : processDiscreteBy key vs = .ok (ws, xs.map .plain)) :
    (∀ P : α → Bool, shareOf ws xs P = (vs.countP P : K) / vs.length) ↔
      ∀ a ∈ vs, ∀ b ∈ vs, key a = key b → a = b := by
  classical
  have hn : (0 : K) < (vs.length : K) := by exact_mod_cast (by omega : 0 < vs.length)
  rw [processDiscreteBy_long key vs hlen] at h
  simp only [Except.ok.injEq, Prod.mk.injEq] at h
  obtain ⟨rfl, h2⟩ := h
  obtain rfl := plain_map_inj h2
  constructor
  · intro hall a ha b hb hab
    by_contra hne
    -- one of the two is not kept
    have key1 : ∀ c ∈ vs, c ∈ (counterBy key vs).map Prod.fst := by
      intro c hc
      by_contra hcx
      have h0 := hall fun x => decide (x = c)
      rw [shareOf_map] at h0
      have : (counterBy key vs).filter (fun p => decide (p.1 = c)) = [] := by
        rw [List.filter_eq_nil_iff]
        intro p hp hpc
        exact hcx (List.mem_map.2 ⟨p, hp, by simpa using hpc⟩)
      rw [this] at h0
      have hcnt : 0 < vs.countP fun x => decide (x = c) := List.countP_pos_iff.2 ⟨c, hc, by simp⟩
      have : (0 : K) < (vs.countP fun x => decide (x = c) : ℕ) / (vs.length : K) :=
        div_pos (by exact_mod_cast hcnt) hn
      simp only [List.map_nil, List.sum_nil] at h0
      exact this.ne h0
    have hnd := counterBy_keys key vs
    obtain ⟨p, hp, hpa⟩ := List.mem_map.1 (key1 a ha)
    obtain ⟨q, hq, hqb⟩ := List.mem_map.1 (key1 b hb)
    have := List.inj_on_of_nodup_map hnd hp hq (by simp only [hpa, hqb, hab])
    exact hne (by rw [← hpa, ← hqb, this])
  · intro hinj P
    have hPP : ∀ x ∈ vs, P x = decide (∃ v ∈ vs, key v = key x ∧ P v = true) := by
      intro x hx
      by_cases hP : P x = true
      · rw [hP]; symm; simpa using ⟨x, hx, rfl, hP⟩
      · rw [Bool.not_eq_true] at hP
        rw [hP]; symm
        rw [decide_eq_false_iff_not]
        rintro ⟨v, hv, hk, hPv⟩
        rw [hinj v hv x hx hk, hP] at hPv
        cases hPv
    have hs := share_long (K := K) key vs hlen (fun x => decide (∃ v ∈ vs, key v = key x ∧ P v = true)) (by
      intro a b hab; simp only [hab])
    have e1 : vs.countP P = vs.countP fun x => decide (∃ v ∈ vs, key v = key x ∧ P v = true) :=
      List.countP_congr fun x hx => by rw [hPP x hx]
    rw [e1, ← hs, shareOf_map, shareOf_map]
    congr 2
    refine List.filter_congr fun p hp => ?_
    exact hPP p.1 (counterBy_mem key vs p hp).1

omit [IsStrictOrderedRing K] in
/-- When the key of an item is the item itself, this is the processing modelled in `Model/Weights`. -/
theorem processDiscreteBy_id [DecidableEq α] (vs : List α) :
    processDiscreteBy (K := K) id vs = (processDiscrete (K := K) (.list (vs.map .plain))).result := by
  have hcnt : ∀ l : List α, counterBy id l = counter l := by
    intro l
    induction l with
    | nil => rfl
    | cons a l ih =>
      unfold counterBy counter
      rw [ih]
      simp only [id, ne_eq, List.count]
      congr 2
  have hfm : (vs.map (VItem.plain (K := K))).filterMap VItem.plain? = vs := by
    rw [List.filterMap_map]
    have : (VItem.plain? ∘ (VItem.plain (K := K)) : α → Option α) = some := rfl
    rw [this, List.filterMap_some]
  have hall : (vs.map (VItem.plain (K := K))).all VItem.isPlain = true := by
    simp [VItem.isPlain]
  unfold processDiscreteBy processDiscrete compresses
  simp only [hcnt, hfm, hall, List.length_map]
  by_cases h : 100 ≤ vs.length
  · rw [if_pos h, if_pos (by simp; omega)]
  · rw [if_neg h, if_neg (by simp; omega)]

/-! ### Dictionaries -/

theorem dictInsert_new {β : Type} (key : α → κ) (a : α) (b : β) (d : List (α × β))
    (h : ∀ p ∈ d, key p.1 ≠ key a) : dictInsert key a b d = d ++ [(a, b)] := by
  induction d with
  | nil => rfl
  | cons p d ih =>
    obtain ⟨a', b'⟩ := p
    unfold dictInsert
    rw [if_neg (h _ List.mem_cons_self), ih fun q hq => h q (List.mem_cons_of_mem _ hq)]
    rfl

theorem dictInsert_keys {β : Type} (key : α → κ) (a : α) (b : β) (d : List (α × β)) :
    (dictInsert key a b d).map (fun p => key p.1)
      = if key a ∈ d.map (fun p => key p.1) then d.map (fun p => key p.1) else d.map (fun p => key p.1) ++ [key a] := by
  induction d with
  | nil => rfl
  | cons p d ih =>
    obtain ⟨a', b'⟩ := p
    unfold dictInsert
    by_cases h : key a' = key a
    · simp [h]
    · rw [if_neg h, List.map_cons, ih]
      have h' : ¬ key a = key a' := fun e => h e.symm
      by_cases hm : key a ∈ d.map fun p => key p.1
      · rw [if_pos hm, if_pos (by simp only [List.map_cons]; exact List.mem_cons_of_mem _ hm)]; rfl
      · rw [if_neg hm, if_neg (by
          simp only [List.map_cons, List.mem_cons, not_or]
          exact ⟨h', hm⟩)]
        rfl

theorem dictDisplay_keys {β : Type} (key : α → κ) (l : List (α × β)) : ((dictDisplay key l).map fun p => key p.1).Nodup := by
  have : ∀ (l d : List (α × β)), (d.map fun p => key p.1).Nodup →
      ((l.foldl (fun d p => dictInsert key p.1 p.2 d) d).map fun p => key p.1).Nodup := by
    intro l
    induction l with
    | nil => intro d h; exact h
    | cons p l ih =>
      intro d h
      refine ih _ ?_
      rw [dictInsert_keys]
      split_ifs with hm
      · exact h
      · rw [List.nodup_append]
        refine ⟨h, by simp, ?_⟩
        intro x hx y hy
        rw [List.mem_singleton.1 hy]
        rintro rfl
        exact hm hx
  exact this l [] (by simp)

/-- **C95.** A dict keeps its entries as they were written exactly if no two of them have the same key. -/
theorem C95_dict_iff {β : Type} (key : α → κ) (l : List (α × β)) :
    dictDisplay key l = l ↔ (l.map fun p => key p.1).Nodup := by
  constructor
  · intro h
    have := dictDisplay_keys key l
    rwa [h] at this
  · intro h
    have gen : ∀ (l d : List (α × β)), ((d ++ l).map fun p => key p.1).Nodup →
        l.foldl (fun d p => dictInsert key p.1 p.2 d) d = d ++ l := by
      intro l
      induction l with
      | nil => intro d _; simp
      | cons p l ih =>
        intro d hd
        rw [List.foldl_cons, dictInsert_new, ih]
        · simp
        · simpa using hd
        · intro q hq he
          rw [List.map_append, List.nodup_append] at hd
          exact hd.2.2 _ (List.mem_map.2 ⟨q, hq, rfl⟩) _ (List.mem_map.2 ⟨p, List.mem_cons_self, rfl⟩) he
    exact (gen l [] (by simpa using h)).trans (List.nil_append l)

theorem dictInsert_same {β : Type} (key : α → κ) (a : α) (b : β) (d : List (α × β)) :
    (∃ a', (a', b) ∈ dictInsert key a b d ∧ key a' = key a) ∧
    (∀ p ∈ d, key p.1 ≠ key a → p ∈ dictInsert key a b d) ∧
    ∀ p ∈ d, ∃ b', (p.1, b') ∈ dictInsert key a b d := by
  induction d with
  | nil => exact ⟨⟨a, by simp [dictInsert], rfl⟩, fun p hp => (List.not_mem_nil hp).elim,
      fun p hp => (List.not_mem_nil hp).elim⟩
  | cons q d ih =>
    obtain ⟨a', b'⟩ := q
    obtain ⟨⟨c, hc, hk⟩, h2, h3⟩ := ih
    unfold dictInsert
    by_cases h : key a' = key a
    · rw [if_pos h]
      refine ⟨⟨a', List.mem_cons_self, h⟩, fun p hp hne => ?_, fun p hp => ?_⟩
      · rcases List.mem_cons.1 hp with rfl | hp
        · exact absurd h hne
        · exact List.mem_cons_of_mem _ hp
      · rcases List.mem_cons.1 hp with rfl | hp
        · exact ⟨b, List.mem_cons_self⟩
        · exact ⟨p.2, List.mem_cons_of_mem _ hp⟩
    · rw [if_neg h]
      refine ⟨⟨c, List.mem_cons_of_mem _ hc, hk⟩, fun p hp hne => ?_, fun p hp => ?_⟩
      · rcases List.mem_cons.1 hp with rfl | hp
        · exact List.mem_cons_self
        · exact List.mem_cons_of_mem _ (h2 p hp hne)
      · rcases List.mem_cons.1 hp with rfl | hp
        · exact ⟨b', List.mem_cons_self⟩
        · obtain ⟨b'', hb⟩ := h3 p hp
          exact ⟨b'', List.mem_cons_of_mem _ hb⟩

/-- **C95.** What a dict holds when entries with the same key are written: one entry for each key, with the
*first* of the objects written under it and the *last* of the values. -/
theorem C95_dict_content {β : Type} (key : α → κ) (l₁ l₂ : List (α × β)) (a : α) (b : β) :
    ((dictDisplay key (l₁ ++ (a, b) :: l₂)).map fun p => key p.1).Nodup ∧
    ((∀ p ∈ l₂, key p.1 ≠ key a) →
      ∃ a', (a', b) ∈ dictDisplay key (l₁ ++ (a, b) :: l₂) ∧ key a' = key a) ∧
    ((∀ p ∈ l₁, key p.1 ≠ key a) → ∃ b', (a, b') ∈ dictDisplay key (l₁ ++ (a, b) :: l₂)) := by
  refine ⟨dictDisplay_keys _ _, fun h => ?_, fun h => ?_⟩
  · have gen : ∀ (l d : List (α × β)), (∀ p ∈ l, key p.1 ≠ key a) → ∀ q ∈ d, key q.1 = key a →
        q ∈ l.foldl (fun d p => dictInsert key p.1 p.2 d) d := by
      intro l
      induction l with
      | nil => intro d _ q hq _; exact hq
      | cons p l ih =>
        intro d hl q hq hk
        refine ih _ (fun p hp => hl p (List.mem_cons_of_mem _ hp)) q
          ((dictInsert_same key p.1 p.2 d).2.1 q hq ?_) hk
        rw [hk]
        exact fun e => hl p List.mem_cons_self e.symm
    obtain ⟨a', h1, h2⟩ := (dictInsert_same key a b (dictDisplay key l₁)).1
    refine ⟨a', ?_, h2⟩
    unfold dictDisplay
    rw [List.foldl_append, List.foldl_cons]
    exact gen l₂ _ h _ h1 h2
  · have keep : ∀ (l d : List (α × β)) (q : α × β), q ∈ d →
        ∃ b', (q.1, b') ∈ l.foldl (fun d p => dictInsert key p.1 p.2 d) d := by
      intro l
      induction l with
      | nil => intro d q hq; exact ⟨q.2, hq⟩
      | cons p l ih =>
        intro d q hq
        obtain ⟨b', hb⟩ := (dictInsert_same key p.1 p.2 d).2.2 q hq
        exact ih _ (q.1, b') hb
    have only : ∀ (l d : List (α × β)), (∀ p ∈ l, key p.1 ≠ key a) → (∀ p ∈ d, key p.1 ≠ key a) →
        ∀ p ∈ l.foldl (fun d p => dictInsert key p.1 p.2 d) d, key p.1 ≠ key a := by
      intro l
      induction l with
      | nil => intro d _ hd; exact hd
      | cons p l ih =>
        intro d hl hd
        refine ih _ (fun p hp => hl p (List.mem_cons_of_mem _ hp)) fun q hq he => ?_
        have hk := dictInsert_keys key p.1 p.2 d
        have hq' : key a ∈ (dictInsert key p.1 p.2 d).map fun p => key p.1 :=
          List.mem_map.2 ⟨q, hq, he⟩
        rw [hk] at hq'
        have hd' : key a ∉ d.map fun p => key p.1 := fun hm => by
          obtain ⟨r, hr, he⟩ := List.mem_map.1 hm
          exact hd r hr he
        split_ifs at hq'
        · exact hd' hq'
        · rcases List.mem_append.1 hq' with h | h
          · exact hd' h
          · exact hl p List.mem_cons_self (List.mem_singleton.1 h).symm
    have h1 := dictInsert_new key a b (dictDisplay key l₁) (only l₁ [] h (fun p hp => by cases hp))
    unfold dictDisplay at h1 ⊢
    rw [List.foldl_append, List.foldl_cons]
    exact keep l₂ _ (a, b) (by rw [h1]; simp)

/-- **C95** (what holds): a mixture given as a dict is the mixture given as a list of pairs, provided that no
two of the distributions have the same key.  *Missing:* distributions with the same key; see
`C95_dict_fails`. -/
theorem C95_dict_partial (key : α → κ) (l : List (α × K)) (hne : l ≠ []) (h : (l.map fun p => key p.1).Nodup) :
    mixtureOfDict key l = mixtureOfPairs l := by
  unfold mixtureOfDict mixtureOfPairs
  rw [(C95_dict_iff key l).2 h]
  have habs : (WArg.absent : WArg K).isAbsent = true := rfl
  have hunzip : ∀ l : List (α × K), unzipPairs (l.map fun p => VItem.pair (some p.2) p.1)
      = .ok (l.map fun p => some p.2, l.map Prod.fst) := by
    intro l
    induction l with
    | nil => rfl
    | cons p l ih => simp only [List.map_cons, unzipPairs, ih]; rfl
  have hfill : fillWeights (K := K) (fun _ => false) false none (l.map fun p => VItem.pair (some p.2) p.1)
      = .ok ((l.map fun p => some p.2, .fresh), (l.map Prod.fst).map .plain) := by
    cases l with
    | nil => exact absurd rfl hne
    | cons p l =>
      have e := hunzip (p :: l)
      simp only [List.map_cons] at e ⊢
      simp only [fillWeights, e]
      rfl
  have hfill' : fillWeights (K := K) (fun _ => false) false (some (l.map fun p => some p.2, .fresh))
      ((l.map Prod.fst).map .plain) = .ok ((l.map fun p => some p.2, .fresh), (l.map Prod.fst).map .plain) := rfl
  have hres : resolveValues (K := K) none (.dict (l.map (fun p => (p.1, some p.2)))) =
      .ok (some (l.map fun p => some p.2, .fresh), (l.map Prod.fst).map .plain) := by
    simp [resolveValues, List.map_map, Function.comp_def]
  have hemp : valuesEmpty (K := K) (.list (l.map fun p => VItem.pair (some p.2) p.1)) = false := by
    cases l with
    | nil => exact absurd rfl hne
    | cons p l => rfl
  simp only [processWeightsValues, habs, Bool.not_true, Bool.and_false, Bool.false_eq_true, if_false, hemp,
    resolveWeights, hres, hfill']
  simp only [valuesEmpty, Bool.false_eq_true, if_false, resolveValues, hfill]

end

/-! ### Distributions -/

section

variable {σ K : Type} [Field K] [LinearOrder K] [FloorRing K] [IsStrictOrderedRing K]

/-- Not itself a member of a correlation group. -/
def Spec.Ungrouped : Obj (St σ K) K → Prop
  | .corr _ _ _ _ => False
  | _ => True

/-- **C95.** Two distributions (outside correlation groups) have the same key exactly if they differ only in
the ways of `Spec.PrintsAlike`: the grouping of operators, the digits of normal parameters beyond the
second, … -/
theorem C95_same_key_iff (F : StrEnv σ K) (version : String) (hnum : PrintsNumbers F.num) (d e : Obj (St σ K) K)
    (hd : Printable d) (he : Printable e) (hd' : Ungrouped d) (he' : Ungrouped e) :
    (Item.dist d).key F version = (Item.dist e).key F version ↔ PrintsAlike d e := by
  rw [← C21_same_key_iff F hnum d e hd he]
  have key1 : ∀ x : Obj (St σ K) K, Ungrouped x →
      (Item.dist x).key F version = .text (strObj F false x ++ " (version " ++ version ++ ")") := by
    intro x hx
    cases x <;> first | rfl | exact hx.elim
  rw [key1 d hd', key1 e he', DictKey.text.injEq, String.append_left_inj, String.append_left_inj,
    String.append_left_inj]

/-- The number a plain value stands for in comparisons; `True` and `False` are 1 and 0. -/
def Spec.numberOf : Scalar K → Option K
  | .bool true => some 1
  | .bool false => some 0
  | .int z => some z
  | .flt x => some x
  | .none => none
  | .str _ => none

omit [IsStrictOrderedRing K] in
/-- **C95.** Two plain values are identified exactly if they are the same value, or numbers (or truth values)
equal as numbers: `1`, `1.0` and `True` are one item. -/
theorem C95_value_keys (F : StrEnv σ K) (version : String) (a b : Scalar K) :
    (Item.val a).key F version = (Item.val b : Item σ K).key F version ↔
      a = b ∨ ∃ x, numberOf a = some x ∧ numberOf b = some x := by
  have sym : ∀ x y : K, x = y ↔ y = x := fun x y => eq_comm
  cases a with
  | none => cases b with
    | bool b => cases b <;> simp [Item.key, numberOf]
    | _ => simp [Item.key, numberOf]
  | str s => cases b with
    | bool b => cases b <;> simp [Item.key, numberOf]
    | _ => simp [Item.key, numberOf]
  | bool c => cases b with
    | bool b => cases b <;> cases c <;> simp [Item.key, numberOf]
    | _ => cases c <;> simp [Item.key, numberOf, sym]
  | int c => cases b with
    | bool b => cases b <;> simp [Item.key, numberOf, sym]
    | int z =>
      simp only [Item.key, numberOf, DictKey.num.injEq, Scalar.int.injEq, Option.some.injEq]
      constructor
      · intro h; exact .inr ⟨c, rfl, h.symm⟩
      · rintro (rfl | ⟨x, h1, h2⟩)
        · rfl
        · rw [h1, h2]
    | _ => simp [Item.key, numberOf, sym]
  | flt c => cases b with
    | bool b => cases b <;> simp [Item.key, numberOf, sym]
    | _ => simp [Item.key, numberOf, sym]

omit [IsStrictOrderedRing K] in
/-- **C95.** Numbers are identified exactly if they are equal in value. -/
theorem C95_number_keys (F : StrEnv σ K) (version : String) (x y : K) :
    (Item.val (.flt x)).key F version = (Item.val (.flt y) : Item σ K).key F version ↔ x = y := by
  simp [Item.key]

end

/-- `norm` with mean 0 and standard deviation 1.001. -/
def demoNormA : Item ℕ ℚ := .dist (.leaf (.normal 0 (1001 / 1000)) none none)

/-- `norm` with mean 0 and standard deviation 1.002. -/
def demoNormB : Item ℕ ℚ := .dist (.leaf (.normal 0 (1002 / 1000)) none none)

theorem demo_same_key : demoNormA.key demoPrint "0.30" = demoNormB.key demoPrint "0.30" := by
  have e : round2 (1001 / 1000 : ℚ) = round2 (1002 / 1000) := by decide +kernel
  simp only [demoNormA, demoNormB, Item.key, strObj, Leaf.str?, e]

theorem demo_ne : demoNormA ≠ demoNormB := by
  intro h
  simp only [demoNormA, demoNormB, Item.dist.injEq, Obj.leaf.injEq, Leaf.normal.injEq] at h
  norm_num at h

/-- **C95 fails**, 1: `discrete` on 50 copies of one normal distribution and 50 of another that prints the
same only ever returns the first; on 49 copies of each it returns both. -/
theorem C95_merged_fails :
    processDiscreteBy (K := ℚ) (Item.key demoPrint "0.30") (List.replicate 50 demoNormA ++ List.replicate 50 demoNormB)
      = .ok ([1], [.plain demoNormA]) ∧
    processDiscreteBy (K := ℚ) (Item.key demoPrint "0.30") (List.replicate 49 demoNormA ++ List.replicate 49 demoNormB)
      = .ok (List.replicate 98 (1 / 98), (List.replicate 49 demoNormA ++ List.replicate 49 demoNormB).map .plain) := by
  constructor
  · have gen : ∀ l : List (Item ℕ ℚ), (∀ x ∈ l, x.key demoPrint "0.30" = demoNormA.key demoPrint "0.30") →
        counterBy (Item.key demoPrint "0.30") (demoNormA :: l) = [(demoNormA, l.length + 1)] := by
      intro l hl
      unfold counterBy
      congr 1
      · rw [List.countP_eq_length.2]
        · rfl
        · intro x hx
          rcases List.mem_cons.1 hx with rfl | hx
          · simp
          · simpa using hl x hx
      · rw [List.filter_eq_nil_iff]
        intro p hp
        simpa using hl p.1 (counterBy_mem _ _ p hp).1
    have hsplit : List.replicate 50 demoNormA ++ List.replicate 50 demoNormB
        = demoNormA :: (List.replicate 49 demoNormA ++ List.replicate 50 demoNormB) := rfl
    rw [processDiscreteBy_long _ _ (by simp), hsplit, gen]
    · simp
    · intro x hx
      rcases List.mem_append.1 hx with hx | hx
      · rw [List.eq_of_mem_replicate hx]
      · rw [List.eq_of_mem_replicate hx, demo_same_key]
  · rw [C95_short _ _ (by simp) (by simp)]
    simp

/-- **C95 fails**, 2: `mixture({a: 0.5, b: 0.5})` is refused when `a` and `b` print the same, although
`mixture([[0.5, a], [0.5, b]])` is accepted. -/
theorem C95_dict_fails :
    mixtureOfDict (Item.key demoPrint "0.30") [(demoNormA, (1 / 2 : ℚ)), (demoNormB, 1 / 2)] = .error .valueError ∧
    mixtureOfPairs [(demoNormA, (1 / 2 : ℚ)), (demoNormB, 1 / 2)] = .ok ([1 / 2, 1 / 2], [.plain demoNormA, .plain demoNormB]) := by
  constructor
  · have : dictDisplay (Item.key demoPrint "0.30") [(demoNormA, (1 / 2 : ℚ)), (demoNormB, 1 / 2)] = [(demoNormA, 1 / 2)] := by
      simp [dictDisplay, dictInsert, demo_same_key]
    unfold mixtureOfDict
    rw [this]
    simp only [List.map_cons, List.map_nil, processWeightsValues, WArg.isAbsent, Bool.not_true, Bool.and_false,
      Bool.false_eq_true, if_false, valuesEmpty, resolveWeights, resolveValues, fillWeights, Bool.false_and,
      requireNumbers]
    norm_num [finishWeights, bind, Except.bind]
  · norm_num [mixtureOfPairs, processWeightsValues, WArg.isAbsent, valuesEmpty, resolveWeights, resolveValues,
      fillWeights, unzipPairs, requireNumbers, finishWeights, bind, Except.bind, keepPositive]

/-- `discrete([0.0, 1.0, …, 99.0] * 2)`: two hundred items, of which those with the same key are the same. -/
theorem C95_exact_example :
    ∀ a ∈ ((List.range 100 ++ List.range 100).map fun i : ℕ => (Item.val (.flt (i : ℚ)) : Item ℕ ℚ)),
    ∀ b ∈ ((List.range 100 ++ List.range 100).map fun i : ℕ => (Item.val (.flt (i : ℚ)) : Item ℕ ℚ)),
      a.key demoPrint "0.30" = b.key demoPrint "0.30" → a = b := by
  intro a ha b hb h
  obtain ⟨i, -, rfl⟩ := List.mem_map.1 ha
  obtain ⟨j, -, rfl⟩ := List.mem_map.1 hb
  rw [(C95_number_keys demoPrint "0.30" _ _).1 h]

end Verif
