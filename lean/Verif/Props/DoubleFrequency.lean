import Verif.Model.DoubleFrequency
import Verif.Props.DoubleMean

/-!
# C183: relative frequencies with floats of bounded size
-/

namespace Verif

open Spec

variable {K : Type} [Field K] [LinearOrder K] [IsStrictOrderedRing K] [FloorRing K] {f : FloatFormat} {fl : K → K}

omit [FloorRing K] in
theorem inFormat_nat (hl : f.low ≤ 0) {n : ℕ} (hn : n ≤ 2 ^ f.p) : InFormat f (n : K) := by
  refine ⟨?_, (n : ℤ) * 2 ^ (-f.low).toNat, ?_⟩
  · have := isFloat_int (K := K) (p := f.p) (z := (n : ℤ)) (by
      rw [abs_of_nonneg (by omega)]; exact_mod_cast hn)
    simpa using this
  · push_cast
    rw [mul_assoc, ← zpow_natCast, ← zpow_add₀ two_ne_zero, Int.toNat_of_nonneg (by omega)]
    simp

omit [FloorRing K] in
/-- Numbers of events are counted exactly. -/
theorem sumX_ints (h : RoundsDouble f fl) (hl : f.low ≤ 0) (htop : (f.p : ℤ) < f.top) (t : SumOrder K)
    (h01 : ∀ x ∈ t.leaves, x = 0 ∨ x = 1) (hn : t.leaves.length ≤ 2 ^ f.p) :
    (t.sumX f fl).Is ((t.leaves.count 1 : ℕ) : K) := by
  induction t with
  | one x =>
    rcases h01 x (by simp [SumOrder.leaves]) with rfl | rfl <;> simp [SumOrder.sumX, SumOrder.leaves, XVal.Is, XVal.val?]
  | add l r ihl ihr =>
    simp only [SumOrder.leaves, List.length_append] at hn
    have h1 := ihl (fun x hx => h01 x (by simp [SumOrder.leaves, hx])) (by omega)
    have h2 := ihr (fun x hx => h01 x (by simp [SumOrder.leaves, hx])) (by omega)
    have c1 := List.count_le_length (a := (1 : K)) (l := l.leaves)
    have c2 := List.count_le_length (a := (1 : K)) (l := r.leaves)
    have hc : l.leaves.count 1 + r.leaves.count 1 ≤ 2 ^ f.p := by omega
    have e := h.exact (inFormat_nat (K := K) hl hc)
    simp only [SumOrder.sumX, SumOrder.leaves, List.count_append]
    have := toDouble_is_of h (XVal.add_is h1 h2) (by
      rw [← Nat.cast_add, e, Nat.abs_cast]
      calc ((l.leaves.count 1 + r.leaves.count 1 : ℕ) : K) ≤ ((2 ^ f.p : ℕ) : K) := by exact_mod_cast hc
        _ = 2 ^ (f.p : ℤ) := by push_cast; rw [zpow_natCast]
        _ < 2 ^ f.top := zpow_lt_zpow_right₀ one_lt_two htop)
    rwa [← Nat.cast_add, e] at this

omit [FloorRing K] in
/-- **C183.** The answer of `bayesnet` to a yes/no question is finite and the correctly rounded relative frequency among the
events that meet the condition, in whichever order they are counted; it fails exactly when there are none. -/
theorem C183_frequency (h : RoundsDouble f fl) (hu : f.Usual) (htop : (f.p : ℤ) < f.top) {α : Type}
    {order : List K → SumOrder K} (ho : AddsUp order) (find cond : α → Bool) (events : List α)
    (hn : events.length ≤ 2 ^ f.p) :
    (bayesAnswerX f fl order find cond events).map XVal.val? =
      if events.countP cond = 0 then .error .valueError
      else .ok (some (fl ((events.countP fun e => cond e && find e) / (events.countP cond : K)))) := by
  unfold bayesAnswerX
  simp only
  rw [← List.countP_eq_length_filter]
  by_cases hc : events.countP cond = 0
  · rw [if_pos (by omega), if_pos hc]
    rfl
  rw [if_neg (by omega), if_neg hc]
  simp only [Except.map]
  congr 1
  have hlow : f.low ≤ 0 := by have := hu.fine; omega
  set data : List K := (events.filter cond).map fun e => if find e then 1 else 0 with hd
  have hlen : data.length = events.countP cond := by
    rw [hd, List.length_map, List.countP_eq_length_filter]
  have hperm := ho data (by rw [← List.length_pos_iff_ne_nil]; omega)
  have h01 : ∀ x ∈ (order data).leaves, x = 0 ∨ x = 1 := by
    intro x hx
    have := hperm.mem_iff.1 hx
    rw [hd] at this
    obtain ⟨e, -, rfl⟩ := List.mem_map.1 this
    cases find e <;> simp
  have hs := sumX_ints h hlow htop (order data) h01 (by
    rw [hperm.length_eq, hlen]
    exact List.countP_le_length.trans hn)
  have hk : data.count 1 = events.countP fun e => cond e && find e := by
    rw [hd, List.count, List.countP_map, List.countP_filter]
    refine List.countP_congr fun e _ => ?_
    by_cases hf : find e = true <;> by_cases hcc : cond e = true <;> simp [hf, hcc]
  rw [hperm.count_eq, hk] at hs
  have hN : (0 : K) < (events.countP cond : ℕ) := by exact_mod_cast Nat.pos_of_ne_zero hc
  have hle : ((events.countP fun e => cond e && find e : ℕ) : K) ≤ (events.countP cond : ℕ) := by
    exact_mod_cast List.countP_mono_left fun e _ he => by simp at he; exact he.1
  unfold npMeanX
  rw [hperm.length_eq, hlen]
  refine toDouble_is_of h (XVal.div_is hs hN.ne') ?_
  have hq : |((events.countP fun e => cond e && find e : ℕ) : K) / (events.countP cond : ℕ)| ≤ 2 ^ (0 : ℤ) := by
    rw [zpow_zero, abs_of_nonneg (by positivity), div_le_one hN]
    exact hle
  refine (h.abs_le (by have := hu.digits; omega) (by have := hu.fine; omega) hq).trans_lt ?_
  exact zpow_lt_zpow_right₀ one_lt_two (by have := hu.large; omega)

/-- **C183**: so the answer is between 0 and 1, is 0 only if the event never happened and 1 only if it always happened,
and is within one rounding of the relative frequency; relative frequencies are never subnormal. -/
theorem C183_probability (h : RoundsDouble f fl) (hu : f.Usual) (htop : (f.p : ℤ) < f.top)
    (hfine : f.low + 2 * f.p ≤ 1) {α : Type} {order : List K → SumOrder K} (ho : AddsUp order)
    (find cond : α → Bool) (events : List α) (hn : events.length ≤ 2 ^ f.p) {w : XVal K}
    (hw : bayesAnswerX f fl order find cond events = .ok w) :
    ∃ v, w.val? = some v ∧ 0 ≤ v ∧ v ≤ 1 ∧ (v = 0 ↔ ∀ e ∈ events, cond e = true → find e = false) ∧
      (v = 1 ↔ ∀ e ∈ events, cond e = true → find e = true) ∧
      |v - (events.countP fun e => cond e && find e) / (events.countP cond : K)|
        ≤ ulp f.p * ((events.countP fun e => cond e && find e) / (events.countP cond : K)) := by
  have hp : 1 ≤ f.p := by have := hu.digits; omega
  obtain ⟨fl', h', he⟩ := h.unlimited hp
  have key := C183_frequency h hu htop ho find cond events hn
  have key' := C138_frequency h' ho find cond events hn
  rw [hw] at key
  by_cases hc : events.countP cond = 0
  · rw [if_pos hc] at key
    simp [Except.map] at key
  rw [if_neg hc] at key key'
  simp only [Except.map, Except.ok.injEq] at key
  refine ⟨_, key, ?_⟩
  have e : fl ((events.countP fun e => cond e && find e) / (events.countP cond : K)) =
      fl' ((events.countP fun e => cond e && find e) / (events.countP cond : K)) := by
    refine he _ ?_
    rcases Nat.eq_zero_or_pos (events.countP fun e => cond e && find e) with h0 | h0
    · left
      rw [h0]
      simpa using onGrid_zero
    · right
      have hN : (0 : K) < (events.countP cond : ℕ) := by exact_mod_cast Nat.pos_of_ne_zero hc
      have h1 : (1 : K) ≤ (events.countP fun e => cond e && find e : ℕ) := by exact_mod_cast h0
      have h2 : ((events.countP cond : ℕ) : K) ≤ 2 ^ (f.p : ℤ) := by
        rw [zpow_natCast]
        exact_mod_cast List.countP_le_length.trans hn
      rw [abs_of_nonneg (by positivity), le_div_iff₀ hN]
      calc (2 : K) ^ (f.low + f.p - 1) * (events.countP cond : ℕ)
          ≤ 2 ^ (f.low + f.p - 1) * 2 ^ (f.p : ℤ) := by gcongr
        _ = 2 ^ (f.low + 2 * f.p - 1) := by rw [← zpow_add₀ two_ne_zero]; congr 1; ring
        _ ≤ 2 ^ (0 : ℤ) := zpow_le_zpow_right₀ one_le_two (by omega)
        _ ≤ _ := by simpa using h1
  rw [e]
  exact C138_probability h' hp ho find cond events hn key'

/-- Python floats meet the hypotheses on the format; one of three events is answered with the float nearest to 1/3. -/
example : binary64.Usual ∧ (binary64.p : ℤ) < binary64.top ∧ binary64.low + 2 * binary64.p ≤ 1 ∧
    RoundsDouble binary64 (roundDouble (K := ℚ) binary64) ∧
    bayesAnswerX binary64 (roundDouble (K := ℚ) binary64) (fun xs => match xs with
      | [] => .one 0
      | x :: xs => SumOrder.run (.one x) xs) (fun e : ℕ => decide (e = 7)) (fun e => decide (5 < e)) [1, 7, 6, 2, 8]
      = .ok (.fin (6004799503160661 / 2 ^ 54)) :=
  ⟨binary64_usual, by decide, by decide, roundDouble_rounds (by decide), by decide +kernel⟩

/-- Counting from left to right is such an order. -/
example : AddsUp (K := ℚ) fun xs => match xs with
    | [] => .one 0
    | x :: xs => SumOrder.run (.one x) xs := by
  intro xs hne
  rcases xs with _ | ⟨x, xs⟩
  · exact absurd rfl hne
  · simp only [SumOrder.run_leaves, SumOrder.leaves]
    exact .refl _

end Verif
