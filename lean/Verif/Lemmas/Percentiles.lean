import Verif.Model.Percentiles
import Verif.Spec.Percentile
import Verif.Lemmas.Geo
import Mathlib.Tactic.Linarith
import Mathlib.Tactic.FieldSimp
import Mathlib.Tactic.Ring
import Mathlib.Algebra.Order.Floor.Ring
import Mathlib.Data.List.GetD

/-! # Facts about dictionaries, order statistics and interpolation -/

namespace Verif
open Verif.Spec

/-! ### Dictionaries -/

section Dict
variable {α β : Type} [DecidableEq α]

theorem dictGet_dictSet (d : List (α × β)) (k k' : α) (v : β) :
    dictGet (dictSet d k v) k' = if k' = k then .ok v else dictGet d k' := by
  have key : ∀ d : List (α × β), k ∈ d.map Prod.fst →
      dictGet (d.map fun p => if p.1 = k then (k, v) else p) k' =
        if k' = k then .ok v else dictGet d k' := by
    intro d
    induction d with
    | nil => intro h; simp at h
    | cons a d ih =>
      intro h
      simp only [dictGet, List.map_cons, List.find?_cons]
      by_cases ha : a.1 = k
      · simp only [ha, if_true]
        by_cases hk : k' = k
        · simp [hk]
        · have hk2 : ¬ k = k' := fun e => hk e.symm
          simp only [hk2, hk, decide_false, if_false]
          clear ih h
          have : ∀ d : List (α × β), (d.map fun p => if p.1 = k then (k, v) else p).find?
              (fun p => decide (p.1 = k')) = d.find? (fun p => decide (p.1 = k')) := by
            intro d
            induction d with
            | nil => rfl
            | cons b d ih =>
              simp only [List.map_cons, List.find?_cons, ih]
              by_cases hb : b.1 = k
              · have : ¬ b.1 = k' := fun e => hk (e.symm.trans hb)
                simp [hb, hk2]
              · simp [hb]
          rw [this]
      · have h' : k ∈ d.map Prod.fst := by
          rcases List.mem_cons.1 h with h | h
          · exact absurd h.symm ha
          · exact h
        have := ih h'
        simp only [dictGet] at this
        simp only [ha, if_false]
        by_cases hk : a.1 = k'
        · have : ¬ k' = k := fun e => ha (hk.trans e)
          simp [hk, this]
        · simp only [hk, decide_false]
          exact this
  unfold dictSet
  split_ifs with h1 h2 h2
  · rw [key d h1, if_pos h2]
  · rw [key d h1, if_neg h2]
  · subst h2
    simp only [dictGet, List.find?_append]
    have : d.find? (fun p => decide (p.1 = k')) = none := by
      rw [List.find?_eq_none]
      intro p hp
      simp only [decide_eq_true_eq]
      exact fun e => h1 (e ▸ List.mem_map_of_mem hp)
    simp [this]
  · have h3 : ¬ k = k' := fun e => h2 e.symm
    simp only [dictGet, List.find?_append]
    cases d.find? (fun p => decide (p.1 = k')) with
    | some p => simp
    | none => simp [h3]

theorem dictOf_append (ps : List (α × β)) (q : α × β) :
    dictOf (ps ++ [q]) = dictSet (dictOf ps) q.1 q.2 := by
  unfold dictOf
  rw [List.foldl_append]
  rfl

theorem mem_keys_dictSet (d : List (α × β)) (k k' : α) (v : β) :
    k' ∈ (dictSet d k v).map Prod.fst ↔ k' ∈ d.map Prod.fst ∨ k' = k := by
  unfold dictSet
  split_ifs with h
  · have : (d.map fun p => if p.1 = k then (k, v) else p).map Prod.fst = d.map Prod.fst := by
      rw [List.map_map]
      apply List.map_congr_left
      intro p _
      simp only [Function.comp]
      split_ifs with h
      · exact h.symm
      · rfl
    rw [this]
    constructor
    · exact Or.inl
    · rintro (h' | rfl)
      · exact h'
      · exact h
  · simp

theorem nodup_keys_dictSet (d : List (α × β)) (k : α) (v : β) (hd : (d.map Prod.fst).Nodup) :
    ((dictSet d k v).map Prod.fst).Nodup := by
  unfold dictSet
  split_ifs with h
  · have : (d.map fun p => if p.1 = k then (k, v) else p).map Prod.fst = d.map Prod.fst := by
      rw [List.map_map]
      apply List.map_congr_left
      intro p _
      simp only [Function.comp]
      split_ifs with h
      · exact h.symm
      · rfl
    rwa [this]
  · rw [List.map_append, List.nodup_append]
    refine ⟨hd, by simp, ?_⟩
    intro a ha b hb
    simp only [List.map_cons, List.map_nil, List.mem_singleton] at hb
    subst hb
    rintro rfl
    exact h ha

/-- Keys of `dict(pairs)`. -/
theorem dictOf_keys (ps : List (α × β)) :
    ((dictOf ps).map Prod.fst).Nodup ∧ ∀ k, k ∈ (dictOf ps).map Prod.fst ↔ k ∈ ps.map Prod.fst := by
  induction ps using List.reverseRecOn with
  | nil => simp [dictOf]
  | append_singleton ps q ih =>
    rw [dictOf_append]
    refine ⟨nodup_keys_dictSet _ _ _ ih.1, fun k => ?_⟩
    rw [mem_keys_dictSet, ih.2]
    simp

/-- Looking up a key of `dict(pairs)`: the last pair with that key. -/
theorem dictGet_dictOf (ps : List (α × β)) (k : α) (v : β) (i : ℕ) (hi : i < ps.length)
    (hk : ps[i] = (k, v)) (hlast : ∀ j (hj : j < ps.length), i < j → ps[j].1 = k → ps[j].2 = v) :
    dictGet (dictOf ps) k = .ok v := by
  induction ps using List.reverseRecOn with
  | nil => simp at hi
  | append_singleton ps q ih =>
    rw [dictOf_append, dictGet_dictSet]
    split_ifs with h
    · by_cases hil : i < ps.length
      · have := hlast ps.length (by simp) hil (by simp [h])
        simp only [List.getElem_append_right (le_refl _), Nat.sub_self, List.getElem_cons_zero] at this
        rw [this]
      · have : i = ps.length := by simp at hi; omega
        subst this
        simp at hk
        simp [hk]
    · have hil : i < ps.length := by
        by_contra hc
        have : i = ps.length := by simp at hi; omega
        subst this
        simp only [List.getElem_append_right (le_refl _), Nat.sub_self, List.getElem_cons_zero] at hk
        exact h (by rw [hk])
      refine ih hil (by rw [List.getElem_append_left hil] at hk; exact hk) fun j hj hij => ?_
      have := hlast j (by simp; omega) hij
      rwa [List.getElem_append_left hj] at this

end Dict

/-! ### Order statistics -/

section Order
variable {K : Type} [Field K] [LinearOrder K] [IsStrictOrderedRing K]

omit [IsStrictOrderedRing K] in
theorem getD_mono {s : List K} (hs : s.Pairwise (· ≤ ·)) {i j : ℕ} (hij : i ≤ j) (hj : j < s.length) :
    s.getD i 0 ≤ s.getD j 0 := by
  rw [List.getD_eq_getElem _ _ hj, List.getD_eq_getElem _ _ (lt_of_le_of_lt hij hj)]
  rcases Nat.lt_or_eq_of_le hij with h | rfl
  · exact List.pairwise_iff_getElem.1 hs i j _ hj h
  · exact le_rfl

variable [FloorRing K]

/-- Position and fraction behind a percentile. -/
theorem percentileAt_repr (s : List K) (hs : s ≠ []) (p : K) (h0 : 0 ≤ p) (h1 : p ≤ 100) :
    ∃ (k : ℕ) (t : K), k < s.length ∧ 0 ≤ t ∧ t < 1 ∧ (t = 0 ∨ k + 1 < s.length) ∧
      p / 100 * ((s.length : K) - 1) = k + t ∧
      percentileAt s p = (1 - t) * s.getD k 0 + t * s.getD (k + 1) 0 := by
  have hn : 0 < s.length := List.length_pos_iff.2 hs
  have hN : (0 : K) ≤ (s.length : K) - 1 := by
    have : (1 : K) ≤ s.length := by exact_mod_cast hn
    linarith
  have hp0 : 0 ≤ p / 100 := by positivity
  have hp1 : p / 100 ≤ 1 := by rw [div_le_one (by norm_num)]; exact h1
  set h := ((s.length : K) - 1) * (p / 100) with hh
  have hh0 : 0 ≤ h := mul_nonneg hN hp0
  have hhN : h ≤ (s.length : K) - 1 := mul_le_of_le_one_right hN hp1
  have hf0 : 0 ≤ ⌊h⌋ := Int.floor_nonneg.2 hh0
  obtain ⟨k, hk⟩ := Int.eq_ofNat_of_zero_le hf0
  have hkK : ((⌊h⌋ : ℤ) : K) = (k : K) := by rw [hk]; simp
  have hkle : (k : K) ≤ h := by rw [← hkK]; exact Int.floor_le h
  have hlt : h < (k : K) + 1 := by rw [← hkK]; exact Int.lt_floor_add_one h
  have hkn : k < s.length := by
    have : (k : K) < s.length := by linarith
    exact_mod_cast this
  have hnext : h - k = 0 ∨ k + 1 < s.length := by
    rcases Nat.lt_or_ge (k + 1) s.length with h2 | h2
    · exact Or.inr h2
    · left
      have : (s.length : K) = k + 1 := by
        have : s.length = k + 1 := by omega
        rw [this]; push_cast; ring
      linarith
  refine ⟨k, h - k, hkn, by linarith, by linarith, hnext, by rw [hh]; ring, ?_⟩
  unfold percentileAt
  simp only
  rw [← hh, hkK]
  have hj : ⌊h⌋.toNat = k := by rw [hk]; rfl
  rw [hj]
  rcases hnext with h2 | h2
  · rw [h2]; ring
  · rw [min_eq_left (by omega)]; ring

theorem isPercentile_percentileAt (data : List K) (hd : data ≠ []) (p : K) (h0 : 0 ≤ p)
    (h1 : p ≤ 100) : IsPercentile data p (percentileAt (data.insertionSort (· ≤ ·)) p) := by
  have hp : (data.insertionSort (· ≤ ·)).Perm data := List.perm_insertionSort _ _
  have hs : data.insertionSort (· ≤ ·) ≠ [] := fun h => hd (by rw [h] at hp; exact hp.nil_eq.symm)
  obtain ⟨k, t, a, b, c, d, e, f⟩ := percentileAt_repr _ hs p h0 h1
  exact ⟨_, k, t, hp, List.pairwise_insertionSort _ _, a, b, c.le, d, e, f⟩

omit [FloorRing K] in
/-- There is at most one value for each percentile. -/
theorem isPercentile_unique {data : List K} {p v w : K} (hv : IsPercentile data p v)
    (hw : IsPercentile data p w) : v = w := by
  obtain ⟨s, k, t, a1, a2, a3, a4, a5, a6, a7, rfl⟩ := hv
  obtain ⟨s', k', t', b1, b2, b3, b4, b5, b6, b7, rfl⟩ := hw
  have : s = s' := (a1.trans b1.symm).eq_of_pairwise (fun _ _ _ _ h1 h2 => le_antisymm h1 h2) a2 b2
  subst this
  rw [a7] at b7
  rcases Nat.lt_trichotomy k k' with h | h | h
  · have : (k : K) + 1 ≤ k' := by exact_mod_cast h
    have ht : t = 1 := by linarith
    have ht' : t' = 0 := by linarith
    have hk : (k' : K) = k + 1 := by linarith
    have hk : k' = k + 1 := by exact_mod_cast hk
    subst ht ht' hk
    ring
  · subst h
    have : t = t' := by linarith
    rw [this]
  · have : (k' : K) + 1 ≤ k := by exact_mod_cast h
    have ht : t' = 1 := by linarith
    have ht' : t = 0 := by linarith
    have hk : (k : K) = k' + 1 := by linarith
    have hk : k = k' + 1 := by exact_mod_cast hk
    subst ht ht' hk
    ring

omit [FloorRing K] in
/-- Percentiles do not decrease. -/
theorem isPercentile_mono {data : List K} {p q v w : K} (hpq : p ≤ q) (hv : IsPercentile data p v)
    (hw : IsPercentile data q w) : v ≤ w := by
  obtain ⟨s, k, t, a1, a2, a3, a4, a5, a6, a7, rfl⟩ := hv
  obtain ⟨s', k', t', b1, b2, b3, b4, b5, b6, b7, rfl⟩ := hw
  have : s = s' := (a1.trans b1.symm).eq_of_pairwise (fun _ _ _ _ h1 h2 => le_antisymm h1 h2) a2 b2
  subst this
  have hn : (1 : K) ≤ s.length := by
    have : 1 ≤ s.length := by omega
    exact_mod_cast this
  have hle : (k : K) + t ≤ k' + t' := by
    rw [← a7, ← b7]
    exact mul_le_mul_of_nonneg_right (div_le_div_of_nonneg_right hpq (by norm_num)) (by linarith)
  have low : ∀ j (r : K), j < s.length → 0 ≤ r → r ≤ 1 → (r = 0 ∨ j + 1 < s.length) →
      s.getD j 0 ≤ (1 - r) * s.getD j 0 + r * s.getD (j + 1) 0 := by
    intro j r hj h0 h1 hor
    rcases hor with rfl | hor
    · linarith
    · have := getD_mono a2 (Nat.le_succ j) hor
      nlinarith
  have high : ∀ j (r : K), j + 1 < s.length → 0 ≤ r → r ≤ 1 →
      (1 - r) * s.getD j 0 + r * s.getD (j + 1) 0 ≤ s.getD (j + 1) 0 := by
    intro j r hj h0 h1
    have := getD_mono a2 (Nat.le_succ j) hj
    nlinarith
  rcases Nat.lt_trichotomy k k' with h | h | h
  · have h1 : k + 1 < s.length := by omega
    calc _ ≤ s.getD (k + 1) 0 := high k t h1 a4 a5
      _ ≤ s.getD k' 0 := getD_mono a2 (by omega) b3
      _ ≤ _ := low k' t' b3 b4 b5 b6
  · subst h
    have ht : t ≤ t' := by linarith
    rcases b6 with rfl | b6
    · have : t = 0 := le_antisymm ht a4
      rw [this]
    · have := getD_mono a2 (Nat.le_succ k) b6
      nlinarith
  · have : (k' : K) + 1 ≤ k := by exact_mod_cast h
    have ht : t' = 1 := by linarith
    have ht' : t = 0 := by linarith
    have hk : (k : K) = k' + 1 := by linarith
    have hk : k = k' + 1 := by exact_mod_cast hk
    subst ht ht' hk
    linarith

end Order

/-! ### Interpolation -/

section Interp
variable {K : Type} [Field K] [LinearOrder K] [IsStrictOrderedRing K]

/-- Points with abscissae and ordinates that do not decrease. -/
def Increasing (l : List (K × K)) : Prop := l.Pairwise fun a b => a.1 ≤ b.1 ∧ a.2 ≤ b.2

/-- The value lies between the first and any upper bound of the ordinates. -/
theorem interp_bounds (x : K) : ∀ (a f : K) (l : List (K × K)), Increasing ((a, f) :: l) →
    ∃ v, interp x ((a, f) :: l) = .ok v ∧ f ≤ v ∧ ∀ M, (∀ q ∈ (a, f) :: l, q.2 ≤ M) → v ≤ M
  | a, f, [], _ => ⟨f, rfl, le_rfl, fun M hM => hM (a, f) (by simp)⟩
  | a, f, (b, g) :: rest, h => by
    have hab := (List.pairwise_cons.1 h).1 (b, g) (by simp)
    have htail := (List.pairwise_cons.1 h).2
    simp only at hab
    obtain ⟨v, hv, h1, h2⟩ := interp_bounds x b g rest htail
    rw [interp]
    split_ifs with ha hb
    · exact ⟨f, rfl, le_rfl, fun M hM => hM (a, f) (by simp)⟩
    · exact ⟨v, hv, hab.2.trans h1, fun M hM => h2 M fun q hq => hM q (by
        rcases List.mem_cons.1 hq with h | h <;> simp [h])⟩
    · push Not at ha hb
      have hpos : 0 < b - a := by linarith
      have hs : 0 ≤ (g - f) / (b - a) := div_nonneg (by linarith [hab.2]) hpos.le
      refine ⟨_, rfl, by nlinarith, fun M hM => ?_⟩
      have hg := hM (b, g) (by simp)
      have : (g - f) / (b - a) * (x - a) ≤ (g - f) / (b - a) * (b - a) :=
        mul_le_mul_of_nonneg_left (by linarith) hs
      rw [div_mul_cancel₀ _ hpos.ne'] at this
      simp only at hg
      linarith

theorem interp_mono (x y : K) (hxy : x ≤ y) : ∀ (a f : K) (l : List (K × K)),
    Increasing ((a, f) :: l) → ∀ v w, interp x ((a, f) :: l) = .ok v →
      interp y ((a, f) :: l) = .ok w → v ≤ w
  | a, f, [], _, v, w, hv, hw => by
    simp only [interp] at hv hw
    cases hv; cases hw; exact le_rfl
  | a, f, (b, g) :: rest, h, v, w, hv, hw => by
    have hab := (List.pairwise_cons.1 h).1 (b, g) (by simp)
    have htail := (List.pairwise_cons.1 h).2
    simp only at hab
    obtain ⟨w', hw', hw1, -⟩ := interp_bounds y a f _ h
    rw [hw] at hw'
    cases hw'
    obtain ⟨w2, hw2, hw3, -⟩ := interp_bounds y b g rest htail
    rw [interp] at hv hw
    split_ifs at hv with ha hb
    · cases hv; exact hw1
    · have n1 : ¬ y < a := by linarith
      have n2 : b ≤ y := by linarith
      rw [if_neg n1, if_pos n2] at hw
      exact interp_mono x y hxy b g rest htail v w hv hw
    · push Not at ha hb
      have n1 : ¬ y < a := by linarith
      rw [if_neg n1] at hw
      have hpos : 0 < b - a := by linarith
      have hs : 0 ≤ (g - f) / (b - a) := div_nonneg (by linarith [hab.2]) hpos.le
      cases hv
      split_ifs at hw with hby
      · rw [hw] at hw2
        cases hw2
        have : (g - f) / (b - a) * (x - a) ≤ (g - f) / (b - a) * (b - a) :=
          mul_le_mul_of_nonneg_left (by linarith) hs
        rw [div_mul_cancel₀ _ hpos.ne'] at this
        linarith
      · cases hw
        have : (g - f) / (b - a) * (x - a) ≤ (g - f) / (b - a) * (y - a) :=
          mul_le_mul_of_nonneg_left (by linarith) hs
        linarith

/-- Skip the points up to the one at or before `x`. -/
theorem interp_skip (x : K) : ∀ (A : List (K × K)) (a f : K) (l : List (K × K)),
    (A ++ (a, f) :: l).Pairwise (fun p q => p.1 ≤ q.1) → a ≤ x →
    interp x (A ++ (a, f) :: l) = interp x ((a, f) :: l)
  | [], _, _, _, _, _ => rfl
  | [(b, g)], a, f, l, h, hx => by
    have hba : b ≤ a := (List.pairwise_cons.1 h).1 (a, f) (by simp)
    show interp x ((b, g) :: (a, f) :: l) = _
    rw [interp, if_neg (by linarith), if_pos hx]
  | (b, g) :: (c, k) :: A, a, f, l, h, hx => by
    have hba : b ≤ a := (List.pairwise_cons.1 h).1 (a, f) (by simp)
    have hca : c ≤ a := (List.pairwise_cons.1 (List.pairwise_cons.1 h).2).1 (a, f) (by simp)
    have ih := interp_skip x ((c, k) :: A) a f l (List.pairwise_cons.1 h).2 hx
    simp only [List.cons_append] at ih ⊢
    rw [interp, if_neg (by linarith), if_pos (by linarith), ih]

/-- At a point, and on the segment to the next one. -/
theorem interp_segment (x : K) (A : List (K × K)) (a f b g : K) (l : List (K × K))
    (h : (A ++ (a, f) :: (b, g) :: l).Pairwise (fun p q => p.1 < q.1)) (hax : a ≤ x) (hxb : x ≤ b) :
    interp x (A ++ (a, f) :: (b, g) :: l) = .ok ((g - f) / (b - a) * (x - a) + f) := by
  rw [interp_skip x A a f _ (h.imp fun h => h.le) hax, interp, if_neg (by linarith)]
  have h' := (List.pairwise_append.1 h).2.1
  have hab : a < b := (List.pairwise_cons.1 h').1 (b, g) (by simp)
  split_ifs with hb
  · obtain rfl : x = b := le_antisymm hxb hb
    rw [div_mul_cancel₀ _ (by linarith : x - a ≠ 0), sub_add_cancel]
    cases l with
    | nil => rfl
    | cons c l =>
      obtain ⟨c, k⟩ := c
      have : x < c := (List.pairwise_cons.1 (List.pairwise_cons.1 h').2).1 (c, k) (by simp)
      rw [interp, if_neg (by simp), if_neg (by linarith), sub_self, mul_zero, zero_add]
  · rfl

/-! ### Knots -/

omit [LinearOrder K] [IsStrictOrderedRing K] in
theorem knots_append (T : K) : ∀ (A B : List (K × K)) (acc : K),
    knots T acc (A ++ B) = knots T acc A ++ knots T (acc + (A.map Prod.fst).sum) B
  | [], B, acc => by simp [knots]
  | (w, d) :: A, B, acc => by
    simp only [List.cons_append, knots, knots_append T A B, List.map_cons, List.sum_cons, add_assoc]

omit [LinearOrder K] [IsStrictOrderedRing K] in
theorem knots_ordinates (T : K) : ∀ (A : List (K × K)) (acc : K),
    (knots T acc A).map Prod.snd = A.map Prod.snd
  | [], acc => rfl
  | (w, d) :: A, acc => by simp only [knots, List.map_cons, knots_ordinates T A]

theorem knots_ge (T : K) (hT : 0 < T) : ∀ (A : List (K × K)) (acc : K), (∀ p ∈ A, 0 ≤ p.1) →
    ∀ q ∈ knots T acc A, acc / T ≤ q.1
  | [], acc, _, q, hq => by simp [knots] at hq
  | (w, d) :: A, acc, hw, q, hq => by
    have h0 := hw (w, d) (by simp)
    simp only [knots, List.mem_cons] at hq
    simp only at h0
    rcases hq with rfl | hq
    · exact div_le_div_of_nonneg_right (by linarith) hT.le
    · exact le_trans (div_le_div_of_nonneg_right (by linarith) hT.le)
        (knots_ge T hT A (acc + w) (fun p hp => hw p (by simp [hp])) q hq)

theorem knots_increasing (T : K) (hT : 0 < T) : ∀ (A : List (K × K)) (acc : K),
    (∀ p ∈ A, 0 ≤ p.1) → A.Pairwise (fun p q => p.2 ≤ q.2) → Increasing (knots T acc A)
  | [], acc, _, _ => List.Pairwise.nil
  | (w, d) :: A, acc, hw, hs => by
    have h0 := hw (w, d) (by simp)
    simp only at h0
    refine List.pairwise_cons.2 ⟨fun q hq => ⟨?_, ?_⟩, knots_increasing T hT A _
      (fun p hp => hw p (by simp [hp])) (List.pairwise_cons.1 hs).2⟩
    · refine le_trans ?_ (knots_ge T hT A (acc + w) (fun p hp => hw p (by simp [hp])) q hq)
      exact div_le_div_of_nonneg_right (by linarith) hT.le
    · have : q.2 ∈ (knots T (acc + w) A).map Prod.snd := List.mem_map_of_mem hq
      rw [knots_ordinates] at this
      obtain ⟨r, hr, hr'⟩ := List.mem_map.1 this
      rw [← hr']
      exact (List.pairwise_cons.1 hs).1 r hr

theorem knots_strict (T : K) (hT : 0 < T) : ∀ (A : List (K × K)) (acc : K),
    (∀ p ∈ A, 0 < p.1) → (knots T acc A).Pairwise (fun p q => p.1 < q.1)
  | [], acc, _ => List.Pairwise.nil
  | (w, d) :: A, acc, hw => by
    have h0 := hw (w, d) (by simp)
    simp only at h0
    refine List.pairwise_cons.2 ⟨fun q hq => ?_, knots_strict T hT A _ (fun p hp => hw p (by simp [hp]))⟩
    refine lt_of_lt_of_le ?_
      (knots_ge T hT A (acc + w) (fun p hp => (hw p (by simp [hp])).le) q hq)
    exact div_lt_div_of_pos_right (by linarith) hT

omit [IsStrictOrderedRing K] in
/-- The pairs in the order of an argsort: a rearrangement, sorted by data. -/
theorem argsort_pairs {data weights : List K} {order : List ℕ} (hlen : data.length = weights.length)
    (h : IsArgsortOf data order) :
    (order.map fun i => (weights.getD i 0, data.getD i 0)).Perm (weights.zip data) ∧
    (order.map fun i => (weights.getD i 0, data.getD i 0)).Pairwise (fun p q => p.2 ≤ q.2) := by
  constructor
  · have h1 := h.1.map fun i => (weights.getD i 0, data.getD i 0)
    have h2 : (List.range data.length).map (fun i => (weights.getD i 0, data.getD i 0)) =
        weights.zip data := by
      apply List.ext_getElem
      · simp [hlen]
      · intro i hi1 hi2
        simp only [List.length_map, List.length_range] at hi1
        have hw : i < weights.length := hlen ▸ hi1
        simp only [List.getElem_map, List.getElem_range, List.getElem_zip,
          List.getD_eq_getElem _ _ hi1, List.getD_eq_getElem _ _ hw]
    rwa [h2] at h1
  · have := h.2
    rw [List.pairwise_map] at this ⊢
    exact this

end Interp

end Verif
