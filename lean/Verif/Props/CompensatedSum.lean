import Verif.Lemmas.CompensatedSum
import Verif.Props.RoundedLeftover

/-!
# C174: weights with the `sum` of Python 3.12 and later
-/

namespace Verif

variable {K : Type} [Field K] [LinearOrder K] [IsStrictOrderedRing K] [FloorRing K] {p : ℕ} {fl : K → K}

/-- **C174.** The sum of floats that are not negative has a relative error of one rounding and `6 (n 2^(-p))²`. -/
theorem C174_sum (h : RoundsTo p fl) (hp : 1 ≤ p) {xs : List K} (hx : ∀ x ∈ xs, 0 ≤ x ∧ IsFloat p x)
    (hn : xs.length * ulp p ≤ (1 / 2 : K)) :
    |sumComp fl xs - xs.sum| ≤ (ulp p + 6 * (xs.length * ulp p) ^ 2) * xs.sum := by
  obtain ⟨y, h1, h2⟩ := sumComp_eq h hp hx hn
  rw [h1]
  have hT : 0 ≤ xs.sum := List.sum_nonneg fun x hx' => (hx x hx').1
  have hu := ulp_pos (K := K) p
  have hu2 := ulp_le_half (K := K) hp
  have e1 := h.err y
  set v : K := xs.length * ulp p
  have e2 : |y| ≤ |y - xs.sum| + xs.sum := by
    have := abs_add_le (y - xs.sum) xs.sum
    rwa [sub_add_cancel, abs_of_nonneg hT] at this
  have e3 := abs_sub_le (fl y) y xs.sum
  have e4 : ulp p * |y| ≤ ulp p * (4 * v ^ 2 * xs.sum + xs.sum) := mul_le_mul_of_nonneg_left (by linarith) hu.le
  have e5 : ulp p * (4 * v ^ 2 * xs.sum) ≤ 1 / 2 * (4 * v ^ 2 * xs.sum) :=
    mul_le_mul_of_nonneg_right hu2 (by positivity)
  nlinarith

/-- The relative error of a sum of `n` floats. -/
theorem compErr_le {n : ℕ} (hn0 : 0 < n) (hn : n * ulp p ≤ (1 / 100000 : K)) :
    (ulp p : K) ≤ ulp p + 6 * (n * ulp p) ^ 2 ∧ ulp p + 6 * (n * ulp p) ^ 2 ≤ (2 / 100000 : K) := by
  have hu := ulp_le_of_length hn0 hn
  have h0 : (0 : K) ≤ n * ulp p := mul_nonneg (Nat.cast_nonneg _) (ulp_pos p).le
  constructor <;> nlinarith [sq_nonneg ((n : K) * ulp p)]

theorem sumComp_bounds (h : RoundsTo p fl) (hp : 1 ≤ p) {xs : List K} (hx : ∀ x ∈ xs, 0 ≤ x ∧ IsFloat p x) {n : ℕ}
    (hl : xs.length ≤ n) (hn0 : 0 < n) (hn : n * ulp p ≤ (1 / 100000 : K)) :
    (1 - 2 / 100000) * xs.sum ≤ sumComp fl xs ∧ sumComp fl xs ≤ (1 + 2 / 100000) * xs.sum := by
  have hT : 0 ≤ xs.sum := List.sum_nonneg fun x hx' => (hx x hx').1
  have hu := ulp_pos (K := K) p
  have hle : (xs.length : K) * ulp p ≤ n * ulp p := mul_le_mul_of_nonneg_right (by exact_mod_cast hl) hu.le
  have h0 : (0 : K) ≤ xs.length * ulp p := mul_nonneg (Nat.cast_nonneg _) hu.le
  have h1 := C174_sum h hp hx (by linarith)
  have h2 : ulp p + 6 * (xs.length * ulp p) ^ 2 ≤ (2 / 100000 : K) := by
    refine le_trans ?_ (compErr_le hn0 hn).2
    nlinarith
  have h3 := h1.trans (mul_le_mul_of_nonneg_right h2 hT)
  rw [abs_le] at h3
  constructor <;> linarith

/-- **C174.** `normalize`: the shares have a relative error of four roundings and `24 (n 2^(-p))²`, however many there
are, and they sum to 1 up to the same error. -/
theorem C174_normalize (h : RoundsTo p fl) (hp : 1 ≤ p) {xs : List K} (hx : ∀ x ∈ xs, 0 ≤ x ∧ IsFloat p x)
    (hpos : 0 < xs.sum) (hn : xs.length * ulp p ≤ (1 / 100000 : K)) :
    ∃ ws, normalizeBy fl (sumComp fl) xs = .ok ws ∧ ws.length = xs.length ∧ (∀ w ∈ ws, 0 ≤ w ∧ IsFloat p w) ∧
      List.Forall₂ (fun x w => |w - x / xs.sum| ≤ 4 * (ulp p + 6 * (xs.length * ulp p) ^ 2) * (x / xs.sum)) xs ws ∧
      |ws.sum - 1| ≤ 4 * (ulp p + 6 * (xs.length * ulp p) ^ 2) := by
  have hlen : 0 < xs.length := by
    rcases xs with _ | ⟨y, ys⟩
    · simp at hpos
    · simp
  have hsum := C174_sum h hp hx (hn.trans (by norm_num))
  obtain ⟨ha1, ha2⟩ := compErr_le hlen hn
  set a : K := ulp p + 6 * (xs.length * ulp p) ^ 2
  set S := sumComp fl xs with hS
  rw [abs_le] at hsum
  have ha0 : 0 ≤ a := (ulp_pos p).le.trans ha1
  have h1 : (1 - a) * xs.sum ≤ S := by linarith
  have h2 : S ≤ (1 + 2 * a) * xs.sum := by nlinarith
  have hSp : 0 < S := lt_of_lt_of_le (mul_pos (by linarith) hpos) h1
  have hstep : ∀ x ∈ xs, |fl (x / S) - x / xs.sum| ≤ 4 * a * (x / xs.sum) := fun x hx' =>
    normalize_step h ha1 (by linarith) hpos h1 h2 (hx x hx').1
  refine ⟨xs.map fun x => fl (x / S), ?_, by simp, ?_, ?_, ?_⟩
  · unfold normalizeBy
    rw [← hS, if_neg (fun hc => hSp.ne' hc.2)]
  · intro w hw
    obtain ⟨x, hxm, rfl⟩ := List.mem_map.1 hw
    exact ⟨h.nonneg (div_nonneg (hx x hxm).1 hSp.le), h.float _⟩
  · rw [List.forall₂_map_right_iff]
    exact List.forall₂_same.2 hstep
  · have hl : ∀ l : List K, (∀ x ∈ l, |fl (x / S) - x / xs.sum| ≤ 4 * a * (x / xs.sum)) →
        |(l.map fun x => fl (x / S)).sum - l.sum / xs.sum| ≤ 4 * a * (l.sum / xs.sum) := by
      intro l hl
      induction l with
      | nil => simp
      | cons x l ih =>
        have e1 := hl x (by simp)
        have e2 := ih fun y hy => hl y (by simp [hy])
        simp only [List.map_cons, List.sum_cons, add_div]
        have := abs_add_le (fl (x / S) - x / xs.sum) ((l.map fun x => fl (x / S)).sum - l.sum / xs.sum)
        have e3 : fl (x / S) + (l.map fun x => fl (x / S)).sum - (x / xs.sum + l.sum / xs.sum) =
          fl (x / S) - x / xs.sum + ((l.map fun x => fl (x / S)).sum - l.sum / xs.sum) := by ring
        rw [e3]
        linarith
    have := hl xs hstep
    rwa [div_self hpos.ne', mul_one] at this

/-- **C174** (the documented tolerance): weights that sum to between 0.9901 and 1.0099 are accepted; those that are zero are
dropped with their values. -/
theorem C174_accepted (h : RoundsTo p fl) (hp : 1 ≤ p) {ι : Type} {ws : List K} {vals : List ι}
    (hl : ws.length = vals.length) (hw : ∀ w ∈ ws, 0 ≤ w ∧ IsFloat p w)
    (hlo : 9901 / 10000 ≤ ws.sum) (hhi : ws.sum ≤ 10099 / 10000) (hn : vals.length * ulp p ≤ (1 / 100000 : K)) :
    processBy fl (sumComp fl) (.weights ws) vals = .ok (((ws.zip vals).filter (fun x => x.1 ≠ 0)).map Prod.fst,
      ((ws.zip vals).filter (fun x => x.1 ≠ 0)).map Prod.snd) := by
  have hne : 0 < vals.length := by
    rcases Nat.eq_zero_or_pos vals.length with h0 | h0
    · have : ws = [] := List.length_eq_zero_iff.1 (hl.trans h0)
      subst this
      norm_num at hlo
    · exact h0
  obtain ⟨h1, h2⟩ := sumComp_bounds h hp hw hl.le hne hn
  obtain ⟨b1, -, -, b4⟩ := near_bounds h (ulp_le_of_length hne hn)
  unfold processBy processBy.finish
  rw [if_neg (List.ne_nil_of_length_pos hne)]
  simp only
  rw [if_neg (fun hc => by omega), if_neg (fun hc => by rcases hc with hc | hc <;> linarith),
    if_neg (fun hc => hc hl), keepPositive_eq ws vals hl, if_pos fun w hw' => (hw w hw').1]

/-- **C174**: weights that sum to at most 0.9899 or at least 1.0101 are refused, unless one weight is missing. -/
theorem C174_refused (h : RoundsTo p fl) (hp : 1 ≤ p) {ι : Type} {ws : List K} {vals : List ι}
    (hl : ws.length ≤ vals.length) (hl' : ws.length + 1 ≠ vals.length) (hw : ∀ w ∈ ws, 0 ≤ w ∧ IsFloat p w)
    (hsum : ws.sum ≤ 9899 / 10000 ∨ 10101 / 10000 ≤ ws.sum) (hn : vals.length * ulp p ≤ (1 / 100000 : K)) :
    processBy fl (sumComp fl) (.weights ws) vals = .error .valueError := by
  unfold processBy processBy.finish
  by_cases hv : vals = []
  · rw [if_pos hv]
  rw [if_neg hv]
  have hne : 0 < vals.length := List.length_pos_iff.2 hv
  obtain ⟨h1, h2⟩ := sumComp_bounds h hp hw hl hne hn
  obtain ⟨-, b2, b3, -⟩ := near_bounds h (ulp_le_of_length hne hn)
  simp only
  rw [if_neg (fun hc => hl' hc.1), if_pos]
  rcases hsum with hs' | hs'
  · left; linarith
  · right; linarith

/-- A number above `1 - 2^(-p) / 2` rounds to at least 1. -/
theorem RoundsTo.one_le (h : RoundsTo p fl) (hp : 1 ≤ p) {y : K} (hy : 1 - ulp p / 2 < y) : 1 ≤ fl y := by
  by_contra hc
  push Not at hc
  have h1 := h.nearest y 1 (isFloat_one p)
  have hu := ulp_pos (K := K) p
  -- between `1 - ulp` and 1 there is no float
  have hgap : fl y ≤ 1 - ulp p := by
    obtain ⟨m, e, hm, he⟩ := h.float y
    have h2 : (0 : K) < 2 ^ e := by positivity
    rcases le_or_gt (0 : ℤ) (e + p) with hep | hep
    · obtain ⟨n, hn⟩ := Int.eq_ofNat_of_zero_le hep
      have e1 : (2 : K) ^ e = 2 ^ n * ulp p := by
        unfold ulp
        rw [show e = (n : ℤ) - (p : ℤ) by omega, zpow_sub₀ two_ne_zero, zpow_natCast, zpow_natCast]
        ring
      have e2 : (1 : K) = 2 ^ p * ulp p := by
        unfold ulp
        field_simp
      rw [he, e1, ← mul_assoc] at hc ⊢
      have e3 : ((m * 2 ^ n : ℤ) : K) * ulp p < ((2 ^ p : ℤ) : K) * ulp p := by
        push_cast
        linarith
      have e4 : m * 2 ^ n < 2 ^ p := by
        have := lt_of_mul_lt_mul_right e3 hu.le
        exact_mod_cast this
      have e5 : ((m * 2 ^ n : ℤ) : K) ≤ ((2 ^ p - 1 : ℤ) : K) := Int.cast_le.2 (Int.le_sub_one_of_lt e4)
      push_cast at e5
      nlinarith
    · have e1 : (2 : K) ^ e ≤ 2 ^ (-(p : ℤ) - 1) := zpow_le_zpow_right₀ (by norm_num) (by omega)
      have e2 : (2 : K) ^ (-(p : ℤ) - 1) = ulp p / 2 := by
        unfold ulp
        rw [zpow_sub_one₀ two_ne_zero, zpow_neg, zpow_natCast]
        ring
      have e3 : (m : K) ≤ 2 ^ p := by exact_mod_cast (abs_le.1 hm).2
      have e4 : (m : K) * 2 ^ e ≤ 2 ^ p * 2 ^ e := mul_le_mul_of_nonneg_right e3 h2.le
      have e5 : (2 : K) ^ p * 2 ^ e ≤ 2 ^ p * (ulp p / 2) := mul_le_mul_of_nonneg_left (e1.trans e2.le) (by positivity)
      have e6 : (2 : K) ^ p * (ulp p / 2) = 1 / 2 := by
        unfold ulp
        field_simp
      have e7 := ulp_le_half (K := K) hp
      rw [he]
      linarith
  rcases le_or_gt y 1 with hy1 | hy1
  · rw [abs_sub_comm, abs_of_nonneg (by linarith), abs_of_nonneg (by linarith)] at h1
    linarith
  · rw [abs_sub_comm, abs_of_pos (by linarith), abs_sub_comm, abs_of_pos (by linarith)] at h1
    linarith

/-- A number below `1 - 2^(-p) / 2` rounds to less than 1. -/
theorem RoundsTo.lt_one (h : RoundsTo p fl) {y : K} (hy : y < 1 - ulp p / 2) : fl y < 1 := by
  have hu := ulp_pos (K := K) p
  have hf : IsFloat p (1 - ulp p : K) := by
    refine ⟨2 ^ p - 1, -(p : ℤ), ?_, ?_⟩
    · rw [abs_of_nonneg (by have := one_le_pow₀ (show (1 : ℤ) ≤ 2 by norm_num) (n := p); linarith)]
      linarith
    · unfold ulp
      rw [zpow_neg, zpow_natCast]
      push_cast
      field_simp
  rcases le_or_gt y (1 - ulp p) with h1 | h1
  · exact (h.le_of_le hf h1).trans_lt (by linarith)
  · by_contra hc
    push Not at hc
    have h2 := h.nearest y _ hf
    rw [abs_of_pos (by linarith), abs_sub_comm, abs_of_pos (by linarith)] at h2
    linarith

/-- **C174**: one value more than weights, and weights that sum to 1 or more: the call is refused, without any margin
(compare `C165_leftover_fails`). -/
theorem C174_leftover (h : RoundsTo p fl) (hp : 1 ≤ p) {ι : Type} {ws : List K} {vals : List ι}
    (hl : ws.length + 1 = vals.length) (hw : ∀ w ∈ ws, 0 ≤ w ∧ IsFloat p w) (hn : 8 * vals.length ^ 2 * ulp p < (1 : K))
    (hsum : 1 ≤ ws.sum) : processBy fl (sumComp fl) (.weights ws) vals = .error .valueError := by
  have hu := ulp_pos (K := K) p
  have hnK : (ws.length : K) + 1 = vals.length := by exact_mod_cast hl
  have hn0 : (0 : K) ≤ ws.length := Nat.cast_nonneg _
  have hn1 : (ws.length : K) * ulp p ≤ 1 / 2 := by nlinarith
  obtain ⟨y, h1, h2⟩ := sumComp_eq h hp hw hn1
  have hv : (ws.length * ulp p : K) ^ 2 < ulp p / 8 := by
    have e1 : (ws.length : K) ^ 2 ≤ vals.length ^ 2 := by nlinarith
    have e2 : (ws.length : K) ^ 2 * ulp p ≤ vals.length ^ 2 * ulp p := mul_le_mul_of_nonneg_right e1 hu.le
    rw [mul_pow]
    nlinarith
  have hu2 := ulp_le_half (K := K) hp
  have hs : 1 ≤ sumComp fl ws := by
    rw [h1]
    refine h.one_le hp ?_
    have := (abs_le.1 h2).1
    nlinarith
  have hne : vals ≠ [] := List.ne_nil_of_length_pos (by omega)
  unfold processBy processBy.finish
  rw [if_neg hne]
  simp only
  rw [if_neg (fun hc => absurd hc.2 (not_lt.2 hs))]
  split_ifs with h3 h4
  · rfl
  · rfl
  · omega

/-- Dropping the zero weights and processing the rest once more changes nothing. -/
theorem comp_again (h : RoundsTo p fl) (hp : 1 ≤ p) {ι : Type} {ws : List K} {vals : List ι}
    (hl : ws.length = vals.length) (hw : ∀ w ∈ ws, 0 ≤ w ∧ IsFloat p w)
    (hlo : 9901 / 10000 ≤ ws.sum) (hhi : ws.sum ≤ 10099 / 10000)
    (hn : vals.length * ulp p ≤ (1 / 100000 : K)) {ws' : List K} {vs' : List ι}
    (he : keepPositive ws vals = .ok (ws', vs')) : processBy fl (sumComp fl) (.weights ws') vs' = .ok (ws', vs') := by
  rw [keepPositive_eq ws vals hl, if_pos fun w hw' => (hw w hw').1] at he
  set f := (ws.zip vals).filter (fun x => x.1 ≠ 0) with hf
  simp only [Except.ok.injEq, Prod.mk.injEq] at he
  obtain ⟨rfl, rfl⟩ := he
  have hsum : ∀ l : List (K × ι), ((l.filter fun x => x.1 ≠ 0).map Prod.fst).sum = (l.map Prod.fst).sum := by
    intro l
    induction l with
    | nil => rfl
    | cons x l ih =>
      by_cases hx : x.1 = 0
      · simp only [ne_eq, decide_not] at ih
        simp [hx, ih]
      · simp only [ne_eq, decide_not] at ih
        simp [hx, ih]
  have hs : (f.map Prod.fst).sum = ws.sum := by
    rw [hf, hsum, List.map_fst_zip hl.le]
  have hlen : f.length ≤ vals.length := by
    rw [hf]
    refine (List.length_filter_le _ _).trans ?_
    rw [List.length_zip]
    exact min_le_right _ _
  have key := C174_accepted h hp (ws := f.map Prod.fst) (vals := f.map Prod.snd) (by simp)
    (fun w hw' => by
      obtain ⟨x, hx, rfl⟩ := List.mem_map.1 hw'
      exact hw _ (List.of_mem_zip (List.mem_of_mem_filter hx)).1)
    (by rw [hs]; exact hlo) (by rw [hs]; exact hhi)
    (by
      refine le_trans (mul_le_mul_of_nonneg_right ?_ (ulp_pos p).le) hn
      rw [List.length_map]
      exact_mod_cast hlen)
  have hz : (f.map Prod.fst).zip (f.map Prod.snd) = f := (List.zip_of_prod rfl rfl).symm
  have hff : f.filter (fun x => x.1 ≠ 0) = f := by
    rw [hf, List.filter_filter]
    simp
  rw [hz, hff] at key
  exact key

/-- **C174**: when the last weight is left out and the others sum to at most `1 - 2^(-p)`, the value left over gets the
remainder up to three roundings; the completed weights are accepted again when the mixture is sampled. -/
theorem C174_remainder (h : RoundsTo p fl) (hp : 1 ≤ p) {ι : Type} {ws : List K} {vals : List ι}
    (hl : ws.length + 1 = vals.length) (hw : ∀ w ∈ ws, 0 < w ∧ IsFloat p w) (hn : vals.length * ulp p ≤ (1 / 100000 : K))
    (hn2 : 8 * vals.length ^ 2 * ulp p < (1 : K)) (hsum : ws.sum ≤ 1 - ulp p) :
    ∃ x : K, 0 < x ∧ |x - (1 - ws.sum)| ≤ 3 * ulp p ∧
      processBy fl (sumComp fl) (.weights ws) vals = .ok (ws ++ [x], vals) ∧
      processBy fl (sumComp fl) (.weights (ws ++ [x])) vals = .ok (ws ++ [x], vals) := by
  have hw0 : ∀ w ∈ ws, 0 ≤ w ∧ IsFloat p w := fun w hw' => ⟨(hw w hw').1.le, (hw w hw').2⟩
  have hu := ulp_pos (K := K) p
  have hne : 0 < vals.length := by omega
  have hus := ulp_le_of_length hne hn
  have hnK : (ws.length : K) + 1 = vals.length := by exact_mod_cast hl
  have hn0 : (0 : K) ≤ ws.length := Nat.cast_nonneg _
  have hn1 : (ws.length : K) * ulp p ≤ 1 / 2 := by nlinarith
  have hT : 0 ≤ ws.sum := List.sum_nonneg fun w hw' => (hw0 w hw').1
  obtain ⟨y, h1, h2⟩ := sumComp_eq h hp hw0 hn1
  have h3 := C174_sum h hp hw0 hn1
  have hv : (ws.length * ulp p : K) ^ 2 < ulp p / 8 := by
    have e1 : (ws.length : K) ^ 2 ≤ vals.length ^ 2 := by nlinarith
    have e2 : (ws.length : K) ^ 2 * ulp p ≤ vals.length ^ 2 * ulp p := mul_le_mul_of_nonneg_right e1 hu.le
    rw [mul_pow]
    nlinarith
  have hs : sumComp fl ws < 1 := by
    rw [h1]
    refine h.lt_one ?_
    have := (abs_le.1 h2).2
    nlinarith
  have hS0 : 0 ≤ sumComp fl ws := by
    have := (sumComp_bounds h hp hw0 (n := vals.length) (by omega) hne hn).1
    nlinarith
  set v : K := (ws.length * ulp p : K) ^ 2
  have hv0 : 0 ≤ v := sq_nonneg _
  set S := sumComp fl ws
  have hpos : 0 < fl (1 - S) := h.pos hp (by linarith)
  have hclose : |fl (1 - S) - (1 - ws.sum)| ≤ 3 * ulp p := by
    have e1 := h.err (1 - S)
    rw [abs_of_pos (by linarith : 0 < 1 - S)] at e1
    have e2 := abs_add_le (fl (1 - S) - (1 - S)) (ws.sum - S)
    rw [show fl (1 - S) - (1 - S) + (ws.sum - S) = fl (1 - S) - (1 - ws.sum) by ring, abs_sub_comm ws.sum S] at e2
    nlinarith
  have hall : ∀ w ∈ ws ++ [fl (1 - S)], 0 < w ∧ IsFloat p w := by
    intro w hw'
    rcases List.mem_append.1 hw' with hw' | hw'
    · exact hw w hw'
    · rw [List.mem_singleton.1 hw']
      exact ⟨hpos, h.float _⟩
  have hl' : (ws ++ [fl (1 - S)]).length = vals.length := by simpa using hl
  have hkp : keepPositive (ws ++ [fl (1 - S)]) vals = .ok (ws ++ [fl (1 - S)], vals) := by
    rw [keepPositive_eq _ _ hl', if_pos fun w hw' => (hall w hw').1.le]
    have hf : ((ws ++ [fl (1 - S)]).zip vals).filter (fun x => x.1 ≠ 0) = (ws ++ [fl (1 - S)]).zip vals := by
      rw [List.filter_eq_self]
      intro x hx
      simpa using (hall _ (List.of_mem_zip hx).1).1.ne'
    rw [hf, List.map_fst_zip hl'.le, List.map_snd_zip hl'.ge]
  have htot : |(ws ++ [fl (1 - S)]).sum - 1| ≤ 3 * ulp p := by
    rw [List.sum_append, List.sum_singleton]
    rwa [show ws.sum + fl (1 - S) - 1 = fl (1 - S) - (1 - ws.sum) by ring]
  refine ⟨_, hpos, hclose, ?_, ?_⟩
  · unfold processBy processBy.finish
    rw [if_neg (List.ne_nil_of_length_pos hne)]
    simp only
    rw [if_pos ⟨hl, hs⟩, hkp]
  · have := abs_le.1 htot
    exact comp_again h hp hl' (fun w hw' => ⟨(hall w hw').1.le, (hall w hw').2⟩) (by linarith) (by linarith) hn hkp

/-- **C174**: relative weights that are not negative and not all zero are accepted, and the weights they become are accepted
again when the mixture is sampled. -/
theorem C174_relative (h : RoundsTo p fl) (hp : 1 ≤ p) {ι : Type} {ws : List K} {vals : List ι}
    (hl : ws.length = vals.length) (hw : ∀ w ∈ ws, 0 ≤ w ∧ IsFloat p w) (hpos : 0 < ws.sum)
    (hn : vals.length * ulp p ≤ (1 / 100000 : K)) :
    ∃ ws' vs', processBy fl (sumComp fl) (.relative ws) vals = .ok (ws', vs') ∧
      processBy fl (sumComp fl) (.weights ws') vs' = .ok (ws', vs') := by
  have hne : vals ≠ [] := by
    rintro rfl
    rw [List.length_eq_zero_iff.1 hl] at hpos
    simp at hpos
  obtain ⟨nw, e1, e2, e3, -, e5⟩ := C174_normalize h hp hw hpos (by rw [hl]; exact hn)
  have hl' : nw.length = vals.length := e2.trans hl
  have hk := keepPositive_eq nw vals hl'
  rw [if_pos fun w hw' => (e3 w hw').1] at hk
  rw [hl] at e5
  have e6 := (compErr_le (p := p) (K := K) (List.length_pos_iff.2 hne) hn).2
  have e7 := abs_le.1 e5
  refine ⟨_, _, ?_, comp_again h hp hl' e3 (by linarith) (by linarith) hn hk⟩
  unfold processBy
  rw [if_neg hne]
  simp only [e1, Bind.bind, Except.bind]
  rw [if_neg (fun hc => hc hl'), hk]

/-- **C174**: without weights every non-empty list of values is accepted, and every value keeps the same positive
weight. -/
theorem C174_default (h : RoundsTo p fl) (hp : 1 ≤ p) {ι : Type} {vals : List ι} (hv : vals ≠ [])
    (hn : vals.length * ulp p ≤ (1 / 100000 : K)) :
    processBy fl (sumComp fl) .absent vals = .ok (List.replicate vals.length (fl (1 / vals.length)), vals) := by
  have hne : 0 < vals.length := List.length_pos_iff.2 hv
  have hne' : (0 : K) < vals.length := by exact_mod_cast hne
  have hu := ulp_le_of_length hne hn
  have hpos : 0 < fl (1 / (vals.length : K)) := h.pos hp (by positivity)
  have hsum : (List.replicate vals.length (fl (1 / (vals.length : K)))).sum =
      vals.length * fl (1 / (vals.length : K)) := by
    rw [List.sum_replicate, nsmul_eq_mul]
  have e1 := h.le_mul (x := 1 / (vals.length : K)) (by positivity)
  have e2 := h.ge_mul (x := 1 / (vals.length : K)) (by positivity)
  have e3 : (vals.length : K) * (1 / vals.length) = 1 := by field_simp
  have key := C174_accepted h hp (ws := List.replicate vals.length (fl (1 / (vals.length : K))))
    (vals := vals) (by simp)
    (fun w hw => by rw [(List.mem_replicate.1 hw).2]; exact ⟨hpos.le, h.float _⟩)
    (by rw [hsum]; nlinarith [mul_le_mul_of_nonneg_left e2 hne'.le])
    (by rw [hsum]; nlinarith [mul_le_mul_of_nonneg_left e1 hne'.le]) hn
  have hf : ((List.replicate vals.length (fl (1 / (vals.length : K)))).zip vals).filter
      (fun x => x.1 ≠ 0) = (List.replicate vals.length (fl (1 / (vals.length : K)))).zip vals := by
    rw [List.filter_eq_self]
    intro x hx
    have := (List.mem_replicate.1 (List.of_mem_zip hx).1).2
    rw [this]
    exact decide_eq_true hpos.ne'
  rw [hf, List.map_fst_zip (by simp), List.map_snd_zip (by simp)] at key
  rw [← key]
  simp [processBy, hv]

/-! ### Concrete cases -/

/-- Ten doubles of 0.1: Python 3.11 gets `1 - 2^(-53)`, Python 3.12 gets 1. -/
theorem C174_versions_differ :
    sumFl (roundBits 53) (List.replicate 10 (roundBits 53 (1 / 10 : ℚ))) = 1 - 1 / 2 ^ 53 ∧
    sumComp (roundBits 53) (List.replicate 10 (roundBits 53 (1 / 10 : ℚ))) = 1 := by
  constructor <;> decide +kernel

/-- Ten weights of 0.1 and eleven values. -/
example : processBy (roundBits 53) (sumComp (roundBits 53)) (.weights (List.replicate 10 (roundBits 53 (1 / 10 : ℚ))))
    (List.range 11) = .error .valueError :=
  C174_leftover (roundBits_roundsTo (by norm_num)) (by norm_num) (by simp)
    (fun w hw => by
      rw [(List.mem_replicate.1 hw).2]
      exact ⟨by decide +kernel, roundBits_float _⟩)
    (by unfold ulp; norm_num) (by decide +kernel)

/-- Nine weights of 0.1 and ten values. -/
example : ∃ x, 0 < x ∧ |x - (1 - (List.replicate 9 (roundBits 53 (1 / 10 : ℚ))).sum)| ≤ 3 * ulp 53 ∧
    processBy (roundBits 53) (sumComp (roundBits 53)) (.weights (List.replicate 9 (roundBits 53 (1 / 10 : ℚ))))
      (List.range 10) = .ok (List.replicate 9 (roundBits 53 (1 / 10 : ℚ)) ++ [x], List.range 10) := by
  obtain ⟨x, h1, h2, h3, -⟩ := C174_remainder (roundBits_roundsTo (K := ℚ) (p := 53) (by norm_num)) (by norm_num)
    (ws := List.replicate 9 (roundBits 53 (1 / 10 : ℚ))) (vals := List.range 10) (by simp)
    (fun w hw => by
      rw [(List.mem_replicate.1 hw).2]
      exact ⟨by decide +kernel, roundBits_float _⟩)
    (by unfold ulp; norm_num) (by unfold ulp; norm_num) (by decide +kernel)
  exact ⟨x, h1, h2, h3⟩

/-- The digits lost in `2^60 + 100 + 100` are kept. -/
example : sumFl (roundBits 53) [2 ^ 60, 100, (100 : ℚ)] = 2 ^ 60 ∧
    sumComp (roundBits 53) [2 ^ 60, 100, (100 : ℚ)] = 2 ^ 60 + 2 ^ 8 := by
  constructor <;> decide +kernel

end Verif
