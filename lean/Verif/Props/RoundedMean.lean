import Verif.Lemmas.FloatMean
import Mathlib.Tactic.NormNum
import Mathlib.Tactic.FieldSimp

/-!
# Means in floating-point arithmetic (C138)

`fl` is any correct rounding to `p` binary digits (53 for a Python float), applied after each operation of `np.mean`.
The order of the additions is any binary tree over the data, unless said otherwise.
-/

namespace Verif

variable {K : Type} [Field K] [LinearOrder K] [IsStrictOrderedRing K] [FloorRing K] {p : ℕ} {fl : K → K}

theorem meanFl_err (h : RoundsTo p fl) (t : SumOrder K) :
    |npMeanFl fl t - t.leaves.sum / t.leaves.length|
      ≤ ((1 + ulp p) ^ (t.depth + 1) - 1) * ((t.leaves.map abs).sum / t.leaves.length) := by
  have hu : (0 : K) < ulp p := ulp_pos p
  obtain ⟨h1, h2⟩ := sumFl_err h t
  have hn : (0 : K) < t.leaves.length := by exact_mod_cast t.leaves_pos
  unfold npMeanFl
  set n : K := (t.leaves.length : K)
  set P : K := (1 + ulp p) ^ t.depth with hP
  set S := (t.leaves.map abs).sum
  set s := t.sumFl fl
  set e := t.leaves.sum
  have a1 : |s / n - e / n| ≤ (P - 1) * (S / n) := by
    rw [← sub_div, abs_div, abs_of_pos hn, ← mul_div_assoc]
    exact div_le_div_of_nonneg_right h1 hn.le
  have a2 : |s / n| ≤ P * (S / n) := by
    have a3 : |e / n| ≤ S / n := by
      rw [abs_div, abs_of_pos hn]
      exact div_le_div_of_nonneg_right h2 hn.le
    have : s / n = (s / n - e / n) + e / n := by ring
    rw [this]
    refine (abs_add_le _ _).trans ?_
    linarith
  have a4 := h.err (s / n)
  have a5 := mul_le_mul_of_nonneg_left a2 hu.le
  have : fl (s / n) - e / n = (fl (s / n) - s / n) + (s / n - e / n) := by ring
  rw [this]
  refine (abs_add_le _ _).trans ?_
  rw [pow_succ, ← hP]
  linarith

/-- **C138**: whatever the order of the additions, the mean of `n` data is within `(1 + u) ^ n - 1` times the mean of
their sizes of the exact mean, with `u = 2 ^ -p` the rounding unit. -/
theorem C138_accuracy (h : RoundsTo p fl) {data : List K} {t : SumOrder K} (ht : t.leaves.Perm data) :
    |npMeanFl fl t - data.sum / data.length|
      ≤ ((1 + ulp p) ^ data.length - 1) * ((data.map abs).sum / data.length) := by
  have := meanFl_err h t
  rw [ht.sum_eq, (ht.map abs).sum_eq, ht.length_eq] at this
  refine this.trans (mul_le_mul_of_nonneg_right ?_ ?_)
  · have hd := t.depth_lt
    rw [ht.length_eq] at hd
    have := pow_le_pow_right₀ (a := (1 + ulp p : K)) (by linarith [ulp_pos (K := K) p])
      (Nat.succ_le_of_lt hd)
    rw [Nat.succ_eq_add_one] at this
    linarith
  · refine div_nonneg (List.sum_nonneg ?_) (by positivity)
    intro x hx
    obtain ⟨y, -, rfl⟩ := List.mem_map.1 hx
    exact abs_nonneg y

/-- **C138**: in the order numpy uses for an array of floats, up to `2 ^ m` data are as accurate as `m + 20` roundings
(40 for a million). -/
theorem C138_accuracy_numpy (h : RoundsTo p fl) {data : List K} (hne : data ≠ []) {m : ℕ} (hm : 6 ≤ m)
    (hlen : data.length ≤ 2 ^ m) :
    ∃ t, numpyOrder data = some t ∧ t.leaves.Perm data ∧
      |npMeanFl fl t - data.sum / data.length|
        ≤ ((1 + ulp p) ^ (m + 20) - 1) * ((data.map abs).sum / data.length) := by
  obtain ⟨k, rfl⟩ : ∃ k, m = k + 6 := ⟨m - 6, by omega⟩
  obtain ⟨t, h1, h2, h3⟩ := numpyOrder_spec k data hne (by rw [pow_add] at hlen; norm_num at hlen; omega)
  refine ⟨t, h1, h2, ?_⟩
  have := meanFl_err h t
  rw [h2.sum_eq, (h2.map abs).sum_eq, h2.length_eq] at this
  refine this.trans (mul_le_mul_of_nonneg_right ?_ ?_)
  · have := pow_le_pow_right₀ (a := (1 + ulp p : K)) (by linarith [ulp_pos (K := K) p])
      (show t.depth + 1 ≤ k + 6 + 20 by omega)
    linarith
  · refine div_nonneg (List.sum_nonneg ?_) (by positivity)
    intro x hx
    obtain ⟨y, -, rfl⟩ := List.mem_map.1 hx
    exact abs_nonneg y

/-- **C138**: despite rounding, the mean does not decrease when some of the data increase (added up in the same
order). -/
theorem C138_monotone (h : RoundsTo p fl) {ι : Type} (t : SumOrder ι) (x y : ι → K) (hxy : ∀ i, x i ≤ y i) :
    npMeanFl fl (t.map x) ≤ npMeanFl fl (t.map y) := by
  unfold npMeanFl
  rw [map_leaves, map_leaves, List.length_map, List.length_map]
  exact h.mono (div_le_div_of_nonneg_right (sumFl_mono h t x y fun i _ => hxy i) (by positivity))

/-- **C138, partial.** Full statement: the mean lies between the smallest and the largest of the data.  Missing: positive
data only, and up to the rounding errors; see `C138_between_fails`. -/
theorem C138_between_partial (h : RoundsTo p fl) {data : List K} {t : SumOrder K}
    (ht : t.leaves.Perm data) {lo hi : K} (h0 : 0 ≤ lo) (hb : ∀ x ∈ data, lo ≤ x ∧ x ≤ hi) :
    lo - ((1 + ulp p) ^ data.length - 1) * hi ≤ npMeanFl fl t ∧ npMeanFl fl t ≤ (1 + ulp p) ^ data.length * hi := by
  have hn : (0 : K) < data.length := by
    have := t.leaves_pos
    rw [ht.length_eq] at this
    exact_mod_cast this
  have key := C138_accuracy h ht
  have hab : (data.map abs).sum = data.sum := by
    have : data.map abs = data.map id := List.map_congr_left fun x hx => abs_of_nonneg (h0.trans (hb x hx).1)
    rw [this, List.map_id]
  rw [hab] at key
  have s1 : data.length • lo ≤ data.sum := List.card_nsmul_le_sum data lo fun x hx => (hb x hx).1
  have s2 : data.sum ≤ data.length • hi := List.sum_le_card_nsmul data hi fun x hx => (hb x hx).2
  rw [nsmul_eq_mul] at s1 s2
  have m1 : lo ≤ data.sum / data.length := by rw [le_div_iff₀ hn]; linarith
  have m2 : data.sum / data.length ≤ hi := by rw [div_le_iff₀ hn]; linarith
  have hP : (1 : K) ≤ (1 + ulp p) ^ data.length := one_le_pow₀ (by linarith [ulp_pos (K := K) p])
  set P : K := (1 + ulp p) ^ data.length
  have := mul_le_mul_of_nonneg_left m2 (sub_nonneg.2 hP)
  obtain ⟨k1, k2⟩ := abs_le.1 key
  constructor <;> linarith

/-- **C138 is violated by the code**: the mean of three times the Python number `0.1` is not `0.1` but larger, in
whichever order they are added. -/
theorem C138_between_fails : ∃ c : ℚ, IsFloat 53 c ∧ ∀ t : SumOrder ℚ, t.leaves.Perm [c, c, c] →
    c < npMeanFl (roundBits 53) t := by
  refine ⟨3602879701896397 / 2 ^ 55, ⟨3602879701896397, -55, by norm_num, by norm_num⟩, fun t ht => ?_⟩
  have hl : t.leaves.length = 3 := ht.length_eq
  have hall : ∀ x ∈ t.leaves, x = (3602879701896397 / 2 ^ 55 : ℚ) := by
    intro x hx
    have := ht.mem_iff.1 hx
    simpa using this
  unfold npMeanFl
  rw [hl]
  have one : ∀ u : SumOrder ℚ, u.leaves.length = 1 → (∀ x ∈ u.leaves, x = (3602879701896397 / 2 ^ 55 : ℚ)) →
      u.sumFl (roundBits 53) = 3602879701896397 / 2 ^ 55 := by
    intro u hu hx
    rcases u with x | ⟨l, r⟩
    · exact hx x (by simp [SumOrder.leaves])
    · have h1 := l.leaves_pos
      have h2 := r.leaves_pos
      simp only [SumOrder.leaves, List.length_append] at hu
      omega
  have two : ∀ u : SumOrder ℚ, u.leaves.length = 2 → (∀ x ∈ u.leaves, x = (3602879701896397 / 2 ^ 55 : ℚ)) →
      u.sumFl (roundBits 53) = 3602879701896397 / 2 ^ 54 := by
    intro u hu hx
    rcases u with x | ⟨l, r⟩
    · simp [SumOrder.leaves] at hu
    · have h1 := l.leaves_pos
      have h2 := r.leaves_pos
      simp only [SumOrder.leaves, List.length_append] at hu
      simp only [SumOrder.sumFl]
      rw [one l (by omega) fun x h => hx x (by simp [SumOrder.leaves, h]),
        one r (by omega) fun x h => hx x (by simp [SumOrder.leaves, h])]
      decide +kernel
  have three : t.sumFl (roundBits 53) = roundBits 53 (3602879701896397 / 2 ^ 54 + 3602879701896397 / 2 ^ 55) := by
    rcases t with x | ⟨l, r⟩
    · simp [SumOrder.leaves] at hl
    · have h1 := l.leaves_pos
      have h2 := r.leaves_pos
      simp only [SumOrder.leaves, List.length_append] at hl
      simp only [SumOrder.sumFl]
      have hL : ∀ x ∈ l.leaves, x = (3602879701896397 / 2 ^ 55 : ℚ) := fun x h => hall x (by simp [SumOrder.leaves, h])
      have hR : ∀ x ∈ r.leaves, x = (3602879701896397 / 2 ^ 55 : ℚ) := fun x h => hall x (by simp [SumOrder.leaves, h])
      rcases (show l.leaves.length = 1 ∧ r.leaves.length = 2 ∨ l.leaves.length = 2 ∧ r.leaves.length = 1 by omega)
        with ⟨a, b⟩ | ⟨a, b⟩
      · rw [one l a hL, two r b hR, add_comm]
      · rw [two l a hL, one r b hR]
  rw [three]
  decide +kernel

/-! ## Relative frequencies -/

/-- How numpy adds up a list: some order, for every list with at least one number. -/
def AddsUp (order : List K → SumOrder K) : Prop := ∀ xs, xs ≠ [] → (order xs).leaves.Perm xs

/-- **C138**: the answer of `bayesnet` to a yes/no question is the correctly rounded relative frequency among the
events that meet the condition; it fails exactly when there are none. -/
theorem C138_frequency (h : RoundsTo p fl) {α : Type} {order : List K → SumOrder K} (ho : AddsUp order)
    (find cond : α → Bool) (events : List α) (hn : events.length ≤ 2 ^ p) :
    bayesAnswerFl fl order find cond events =
      if events.countP cond = 0 then .error .valueError
      else .ok (fl ((events.countP fun e => cond e && find e) / (events.countP cond : K))) := by
  unfold bayesAnswerFl
  simp only
  rw [← List.countP_eq_length_filter]
  by_cases hc : events.countP cond = 0
  · rw [if_pos (by omega), if_pos hc]
  · rw [if_neg (by omega), if_neg hc]
    congr 1
    unfold npMeanFl
    set data : List K := (events.filter cond).map fun e => if find e then 1 else 0 with hd
    have hlen : data.length = events.countP cond := by
      rw [hd, List.length_map, List.countP_eq_length_filter]
    have hperm := ho data (by rw [← List.length_pos_iff_ne_nil]; omega)
    have h01 : ∀ x ∈ (order data).leaves, x = 0 ∨ x = 1 := by
      intro x hx
      have := hperm.mem_iff.1 hx
      rw [hd] at this
      obtain ⟨e, -, rfl⟩ := List.mem_map.1 this
      cases find e <;> simp
    rw [sumFl_ints h _ h01 (by
      rw [hperm.length_eq, hlen]
      exact List.countP_le_length.trans hn), hperm.count_eq, hperm.length_eq, hlen]
    congr 3
    rw [hd, List.count, List.countP_map, List.countP_filter]
    refine List.countP_congr fun e _ => ?_
    by_cases hf : find e = true <;> by_cases hcc : cond e = true <;> simp [hf, hcc]

/-- **C138**: so the answer is between 0 and 1, is 0 only if the event never happened and 1 only if it always happened,
and is within one rounding of the relative frequency. -/
theorem C138_probability (h : RoundsTo p fl) (hp : 1 ≤ p) {α : Type} {order : List K → SumOrder K} (ho : AddsUp order)
    (find cond : α → Bool) (events : List α) (hn : events.length ≤ 2 ^ p) {v : K}
    (hv : bayesAnswerFl fl order find cond events = .ok v) :
    0 ≤ v ∧ v ≤ 1 ∧ (v = 0 ↔ ∀ e ∈ events, cond e = true → find e = false) ∧
    (v = 1 ↔ ∀ e ∈ events, cond e = true → find e = true) ∧
    |v - (events.countP fun e => cond e && find e) / (events.countP cond : K)|
      ≤ ulp p * ((events.countP fun e => cond e && find e) / (events.countP cond : K)) := by
  rw [C138_frequency h ho find cond events hn] at hv
  split at hv
  · simp at hv
  rename_i hc
  have hv' := (Except.ok.inj hv).symm
  have hle : (events.countP fun e => cond e && find e) ≤ events.countP cond :=
    List.countP_mono_left fun e _ he => by simp at he; exact he.1
  have hN : events.countP cond ≤ 2 ^ p := List.countP_le_length.trans hn
  have hNpos : (0 : K) < (events.countP cond : ℕ) := by exact_mod_cast Nat.pos_of_ne_zero hc
  have e0 : (∀ e ∈ events, cond e = true → find e = false) ↔ (events.countP fun e => cond e && find e) = 0 := by
    rw [List.countP_eq_zero]
    refine forall₂_congr fun e _ => ?_
    cases cond e <;> cases find e <;> simp
  have e1 : (∀ e ∈ events, cond e = true → find e = true) ↔
      (events.countP fun e => cond e && find e) = events.countP cond := by
    rw [List.countP_eq_length_filter, List.countP_eq_length_filter]
    have hff : events.filter (fun e => cond e && find e) = (events.filter cond).filter find := by
      rw [List.filter_filter]
      exact List.filter_congr fun e _ => Bool.and_comm _ _
    rw [hff, List.length_filter_eq_length_iff]
    simp only [List.mem_filter, and_imp]
  rw [e0, e1]
  set k := events.countP fun e => cond e && find e
  set N := events.countP cond
  have hk : (k : K) ≤ N := by exact_mod_cast hle
  have hq0 : (0 : K) ≤ (k : K) / N := by positivity
  have hq1 : (k : K) / N ≤ 1 := by rw [div_le_one hNpos]; exact hk
  have v0 : 0 ≤ v := by rw [hv']; exact h.nonneg hq0
  have v1 : v ≤ 1 := by rw [hv']; exact h.le_of_le (isFloat_one p) hq1
  refine ⟨v0, v1, ⟨fun hz => ?_, fun hz => ?_⟩, ⟨fun hz => ?_, fun hz => ?_⟩, ?_⟩
  · by_contra hk0
    have : (0 : K) < (k : K) / N := div_pos (by exact_mod_cast Nat.pos_of_ne_zero hk0) hNpos
    have := h.pos hp this
    rw [← hv', hz] at this
    exact absurd this (lt_irrefl _)
  · rw [hv', hz]; simp [h.zero]
  · by_contra hkN
    have hlt : k + 1 ≤ N := by omega
    -- the next float below one
    have hf : IsFloat p (1 - 1 / 2 ^ p : K) := by
      refine ⟨2 ^ p - 1, -(p : ℤ), ?_, ?_⟩
      · have : (0 : ℤ) < 2 ^ p := by positivity
        rw [abs_of_nonneg (by omega)]; omega
      · push_cast
        rw [zpow_neg, zpow_natCast]
        field_simp
    have hlt' : (k : K) + 1 ≤ N := by exact_mod_cast hlt
    have hNK : (N : K) ≤ 2 ^ p := by exact_mod_cast hN
    have hle2 : (k : K) / N ≤ 1 - 1 / 2 ^ p := by
      have h1 : (1 : K) / 2 ^ p ≤ 1 / N := one_div_le_one_div_of_le hNpos hNK
      have h2 : (k : K) / N ≤ 1 - 1 / N := by
        rw [div_le_iff₀ hNpos, sub_mul, one_div, inv_mul_cancel₀ hNpos.ne']
        linarith
      linarith
    have := h.le_of_le hf hle2
    rw [← hv', hz] at this
    have : (0 : K) < 1 / 2 ^ p := by positivity
    linarith
  · rw [hv', hz, div_self hNpos.ne', h.one]
  · rw [hv']
    simpa [abs_of_nonneg hq0] using h.err ((k : K) / N)

/-- **C138**: a question that is answered yes in more of the events does not get a smaller answer. -/
theorem C138_inclusion (h : RoundsTo p fl) {α : Type} {order : List K → SumOrder K} (ho : AddsUp order)
    (find find' cond : α → Bool) (events : List α) (hn : events.length ≤ 2 ^ p)
    (hsub : ∀ e ∈ events, find e = true → find' e = true) {v v' : K}
    (hv : bayesAnswerFl fl order find cond events = .ok v) (hv' : bayesAnswerFl fl order find' cond events = .ok v') :
    v ≤ v' := by
  rw [C138_frequency h ho _ cond events hn] at hv hv'
  split at hv
  · simp at hv
  rename_i hc
  rw [if_neg hc] at hv'
  rw [← Except.ok.inj hv, ← Except.ok.inj hv']
  refine h.mono (div_le_div_of_nonneg_right ?_ (by positivity))
  have : (events.countP fun e => cond e && find e) ≤ events.countP fun e => cond e && find' e :=
    List.countP_mono_left fun e he h2 => by
      simp only [Bool.and_eq_true] at h2 ⊢
      exact ⟨h2.1, hsub e he h2.2⟩
  exact_mod_cast this

/-! ### Examples -/

/-- Adding from left to right is such an order. -/
example : AddsUp (K := ℚ) fun xs => match xs with
    | [] => .one 0
    | x :: xs => SumOrder.run (.one x) xs := by
  intro xs hne
  rcases xs with _ | ⟨x, xs⟩
  · exact absurd rfl hne
  · simp only [SumOrder.run_leaves, SumOrder.leaves]
    exact .refl _

/-- One of three events, with 4 binary digits: 11/32 instead of 1/3. -/
example : bayesAnswerFl (roundBits (K := ℚ) 4) (fun xs => match xs with
    | [] => .one 0
    | x :: xs => SumOrder.run (.one x) xs) (fun e : ℕ => decide (e = 7)) (fun e => decide (5 < e)) [1, 7, 6, 2, 8]
    = .ok (11 / 32) := by decide +kernel

example : numpyOrder [(1 : ℚ), 2, 4] = some (.add (.add (.one 1) (.one 2)) (.one 4)) := by
  rw [numpyOrder]; rfl

/-- 300 numbers go through at most 27 additions each. -/
example : ∃ t, numpyOrder (List.range 300) = some t ∧ t.leaves.Perm (List.range 300) ∧ t.depth ≤ 27 :=
  numpyOrder_spec 2 _ (by decide) (by simp)

end Verif
