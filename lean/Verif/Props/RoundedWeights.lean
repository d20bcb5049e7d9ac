import Verif.Lemmas.FloatSum
import Verif.Lemmas.Weights

/-!
# Weights in floating-point arithmetic (C115, C116)

`fl` is any correct rounding to `p` binary digits (53 for a Python float).
-/

namespace Verif

variable {K : Type} [Field K] [LinearOrder K] [IsStrictOrderedRing K] [FloorRing K] {p : ℕ} {fl : K → K}

theorem normalize_step (h : RoundsTo p fl) {a S T x : K} (ha : ulp p ≤ a) (ha2 : a ≤ 1 / 2) (hT : 0 < T)
    (h1 : (1 - a) * T ≤ S) (h2 : S ≤ (1 + 2 * a) * T) (hx : 0 ≤ x) :
    |fl (x / S) - x / T| ≤ 4 * a * (x / T) := by
  have ha0 : 0 < a := (ulp_pos p).trans_le ha
  have hS : 0 < S := lt_of_lt_of_le (mul_pos (by linarith) hT) h1
  set q := x / S with hq
  set t := x / T with ht
  have hq0 : 0 ≤ q := div_nonneg hx hS.le
  have ht0 : 0 ≤ t := div_nonneg hx hT.le
  have hxq : x = q * S := by rw [hq, div_mul_cancel₀ _ hS.ne']
  have e1 : t ≤ q * (1 + 2 * a) := by
    rw [ht, div_le_iff₀ hT, hxq, mul_assoc]
    exact mul_le_mul_of_nonneg_left h2 hq0
  have e2 : q * (1 - a) ≤ t := by
    rw [ht, le_div_iff₀ hT, hxq, mul_assoc]
    exact mul_le_mul_of_nonneg_left h1 hq0
  have up : fl q ≤ (1 + a) * q := (h.le_mul hq0).trans (mul_le_mul_of_nonneg_right (by linarith) hq0)
  have lo : (1 - a) * q ≤ fl q := le_trans (mul_le_mul_of_nonneg_right (by linarith) hq0) (h.ge_mul hq0)
  have hf := h.nonneg hq0
  have key : 0 ≤ q * (a - 2 * a * a) := mul_nonneg hq0 (by nlinarith)
  rw [abs_le]
  constructor
  · rcases le_or_gt (4 * a) 1 with h4 | h4
    · have : t * (1 - 4 * a) ≤ q * (1 + 2 * a) * (1 - 4 * a) := mul_le_mul_of_nonneg_right e1 (by linarith)
      nlinarith
    · nlinarith
  · have : q * (1 - a) * (1 + 4 * a) ≤ t * (1 + 4 * a) := mul_le_mul_of_nonneg_right e2 (by linarith)
    nlinarith

/-- **C115**: in floating-point arithmetic `normalize` of numbers that are not negative and not all zero
returns shares between 0 and 1; each differs from the exact share by a fraction of at most `4 n 2^(-p)` of
itself, and they sum to 1 up to `4 n 2^(-p)`. -/
theorem C115_normalize (h : RoundsTo p fl) (hp : 1 ≤ p) {xs : List K}
    (hx : ∀ x ∈ xs, 0 ≤ x ∧ IsFloat p x) (hpos : 0 < xs.sum) (hn : xs.length * ulp p ≤ (1 / 2 : K)) :
    ∃ ws, normalizeFl fl xs = .ok ws ∧ ws.length = xs.length ∧ (∀ w ∈ ws, 0 ≤ w ∧ w ≤ 1 ∧ IsFloat p w) ∧
      List.Forall₂ (fun x w => |w - x / xs.sum| ≤ 4 * (xs.length * ulp p) * (x / xs.sum)) xs ws ∧
      |ws.sum - 1| ≤ 4 * (xs.length * ulp p) := by
  have hx0 : ∀ x ∈ xs, 0 ≤ x := fun x hx' => (hx x hx').1
  obtain ⟨h1, h2⟩ := sumFl_bounds h hp hx0 le_rfl hn
  set a : K := xs.length * ulp p with ha
  set S := sumFl fl xs with hS
  have hlen : 1 ≤ xs.length := by
    rcases xs with _ | ⟨y, ys⟩
    · simp at hpos
    · simp
  have hua : ulp p ≤ a := by
    have : (1 : K) ≤ xs.length := by exact_mod_cast hlen
    nlinarith [ulp_pos (K := K) p]
  have hSp : 0 < S := lt_of_lt_of_le (mul_pos (by linarith) hpos) h1
  have hstep : ∀ x ∈ xs, |fl (x / S) - x / xs.sum| ≤ 4 * a * (x / xs.sum) := fun x hx' =>
    normalize_step h hua hn hpos h1 h2 (hx0 x hx')
  refine ⟨xs.map fun x => fl (x / S), ?_, by simp, ?_, ?_, ?_⟩
  · unfold normalizeFl
    rw [← hS, if_neg (fun hc => hSp.ne' hc.2)]
  · intro w hw
    obtain ⟨x, hxm, rfl⟩ := List.mem_map.1 hw
    refine ⟨h.nonneg (div_nonneg (hx0 x hxm) hSp.le), h.le_of_le (isFloat_one p) ?_, h.float _⟩
    rw [div_le_one hSp]
    exact sumFl_ge_mem h hx hxm
  · rw [List.forall₂_map_right_iff]
    exact List.forall₂_same.2 hstep
  · have hsum : ∀ l : List K, (∀ x ∈ l, |fl (x / S) - x / xs.sum| ≤ 4 * a * (x / xs.sum)) →
        |(l.map fun x => fl (x / S)).sum - l.sum / xs.sum| ≤ 4 * a * (l.sum / xs.sum) := by
      intro l hl
      induction l with
      | nil => simp
      | cons x l ih =>
        have e1 := hl x (by simp)
        have e2 := ih fun y hy => hl y (by simp [hy])
        simp only [List.map_cons, List.sum_cons, add_div]
        have := abs_add_le (fl (x / S) - x / xs.sum) ((l.map fun x => fl (x / S)).sum - l.sum / xs.sum)
        have e3 : fl (x / S) + (l.map fun x => fl (x / S)).sum - (x / xs.sum + l.sum / xs.sum) =
          fl (x / S) - x / xs.sum + ((l.map fun x => fl (x / S)).sum - l.sum / xs.sum) := by ring
        rw [e3]
        linarith
    have := hsum xs hstep
    rwa [div_self hpos.ne', mul_one] at this

omit [FloorRing K] in
theorem not_isFloat_third (p : ℕ) : ¬ IsFloat p (1 / 3 : K) := by
  rintro ⟨m, e, -, he⟩
  have h3 : (3 : K) ≠ 0 := by norm_num
  have h1 : (3 * m : K) * 2 ^ e = 1 := by
    rw [mul_assoc, ← he]
    norm_num
  rcases le_or_gt 0 e with h0 | h0
  · obtain ⟨k, rfl⟩ := Int.eq_ofNat_of_zero_le h0
    have h2 : (3 * m) * 2 ^ k = 1 := by
      rw [zpow_natCast] at h1
      exact_mod_cast h1
    have : (3 : ℤ) ∣ 1 := ⟨m * 2 ^ k, by rw [← h2]; ring⟩
    omega
  · obtain ⟨k, hk⟩ := Int.eq_ofNat_of_zero_le (show 0 ≤ -e by omega)
    have he' : e = -(k : ℤ) := by omega
    rw [he', zpow_neg, zpow_natCast] at h1
    have h2 : (3 * m : K) = 2 ^ k := by
      have : (2 : K) ^ k ≠ 0 := by positivity
      field_simp at h1
      exact h1
    have h3 : 3 * m = 2 ^ k := by exact_mod_cast h2
    have h4 : ∀ j : ℕ, (2 : ℤ) ^ j % 3 = 1 ∨ (2 : ℤ) ^ j % 3 = 2 := by
      intro j
      induction j with
      | zero => simp
      | succ j ih => rw [pow_succ]; omega
    have h5 := h4 k
    omega

/-- **C115** (the bound is needed): in no floating-point arithmetic do the three shares that `normalize`
computes for `[1, 1, 1]` sum to exactly 1. -/
theorem C115_not_exact (h : RoundsTo p fl) (hp : 2 ≤ p) :
    ∃ ws, normalizeFl fl [1, 1, 1] = .ok ws ∧ ws.sum ≠ 1 := by
  have h2 : fl 2 = 2 := by
    have : IsFloat p ((2 : ℤ) : K) := isFloat_int (by
      have : (2 : ℤ) ^ 2 ≤ 2 ^ p := pow_le_pow_right₀ (by norm_num) hp
      simp only [abs_of_pos (show (0 : ℤ) < 2 by norm_num)]
      linarith)
    exact_mod_cast h.exact this
  have h3 : fl 3 = 3 := by
    have : IsFloat p ((3 : ℤ) : K) := isFloat_int (by
      have : (2 : ℤ) ^ 2 ≤ 2 ^ p := pow_le_pow_right₀ (by norm_num) hp
      simp only [abs_of_pos (show (0 : ℤ) < 3 by norm_num)]
      linarith)
    exact_mod_cast h.exact this
  have hs : sumFl fl [1, 1, 1] = 3 := by
    simp only [sumFl, List.foldl_cons, List.foldl_nil, zero_add, h.one]
    rw [show (1 : K) + 1 = 2 by norm_num, h2, show (2 : K) + 1 = 3 by norm_num, h3]
  refine ⟨[fl (1 / 3), fl (1 / 3), fl (1 / 3)], ?_, ?_⟩
  · simp [normalizeFl, hs]
  · intro hc
    simp only [List.sum_cons, List.sum_nil] at hc
    have : fl (1 / 3) = (1 / 3 : K) := by linarith
    exact not_isFloat_third p (this ▸ h.float (1 / 3 : K))

/-! ## C116 -/

theorem near_bounds (h : RoundsTo p fl) (hu : ulp p ≤ (1 / 100000 : K)) :
    fl (99 / 100) < 9901 / 10000 - 1 / 20000 ∧ 9899 / 10000 + 1 / 20000 < fl (99 / 100) ∧
    fl (101 / 100) < 10101 / 10000 - 1 / 20000 ∧ 10099 / 10000 + 1 / 20000 < fl (101 / 100) := by
  have a1 := h.le_mul (x := 99 / 100) (by norm_num)
  have a2 := h.ge_mul (x := 99 / 100) (by norm_num)
  have a3 := h.le_mul (x := 101 / 100) (by norm_num)
  have a4 := h.ge_mul (x := 101 / 100) (by norm_num)
  refine ⟨?_, ?_, ?_, ?_⟩ <;> linarith

theorem ulp_le_of_length {n : ℕ} (hn0 : 0 < n) (hn : n * ulp p ≤ (1 / 100000 : K)) :
    ulp p ≤ (1 / 100000 : K) := by
  have h1 : (1 : K) ≤ n := by exact_mod_cast hn0
  nlinarith [ulp_pos (K := K) p]

/-- **C116** (the documented tolerance): weights that are not negative are accepted when they sum to between
0.9901 and 1.0099, however the additions are rounded; those that are zero are dropped with their values. -/
theorem C116_accepted (h : RoundsTo p fl) (hp : 1 ≤ p) {ι : Type} {ws : List K} {vals : List ι}
    (hl : ws.length = vals.length) (hw : ∀ w ∈ ws, 0 ≤ w)
    (hlo : 9901 / 10000 ≤ ws.sum) (hhi : ws.sum ≤ 10099 / 10000)
    (hn : vals.length * ulp p ≤ (1 / 100000 : K)) :
    processFl fl (.weights ws) vals = .ok (((ws.zip vals).filter (fun x => x.1 ≠ 0)).map Prod.fst,
      ((ws.zip vals).filter (fun x => x.1 ≠ 0)).map Prod.snd) := by
  have hne : 0 < vals.length := by
    rcases Nat.eq_zero_or_pos vals.length with h0 | h0
    · have : ws = [] := List.length_eq_zero_iff.1 (hl.trans h0)
      subst this
      norm_num at hlo
    · exact h0
  obtain ⟨h1, h2⟩ := sumFl_bounds h hp hw hl.le (hn.trans (by norm_num))
  obtain ⟨b1, -, -, b4⟩ := near_bounds h (ulp_le_of_length hne hn)
  set a : K := vals.length * ulp p with ha
  have ha0 : 0 ≤ a := mul_nonneg (Nat.cast_nonneg _) (ulp_pos p).le
  have hS1 : fl (99 / 100) < sumFl fl ws := by nlinarith
  have hS2 : sumFl fl ws < fl (101 / 100) := by nlinarith
  unfold processFl processFl.finish
  rw [if_neg (List.ne_nil_of_length_pos hne)]
  simp only
  rw [if_neg (fun hc => by omega), if_neg (fun hc => by rcases hc with hc | hc <;> linarith),
    if_neg (fun hc => hc hl), keepPositive_eq ws vals hl, if_pos hw]

/-- **C116**: weights that sum to at most 0.9899 or at least 1.0101 are refused, unless one weight is missing. -/
theorem C116_refused (h : RoundsTo p fl) (hp : 1 ≤ p) {ι : Type} {ws : List K} {vals : List ι}
    (hl : ws.length ≤ vals.length) (hl' : ws.length + 1 ≠ vals.length) (hw : ∀ w ∈ ws, 0 ≤ w)
    (hsum : ws.sum ≤ 9899 / 10000 ∨ 10101 / 10000 ≤ ws.sum)
    (hn : vals.length * ulp p ≤ (1 / 100000 : K)) :
    processFl fl (.weights ws) vals = .error .valueError := by
  unfold processFl processFl.finish
  by_cases hv : vals = []
  · rw [if_pos hv]
  rw [if_neg hv]
  have hne : 0 < vals.length := List.length_pos_iff.2 hv
  obtain ⟨h1, h2⟩ := sumFl_bounds h hp hw hl (hn.trans (by norm_num))
  obtain ⟨-, b2, b3, -⟩ := near_bounds h (ulp_le_of_length hne hn)
  set a : K := vals.length * ulp p with ha
  have ha0 : 0 ≤ a := mul_nonneg (Nat.cast_nonneg _) (ulp_pos p).le
  have hs := List.sum_nonneg hw
  simp only
  rw [if_neg (fun hc => hl' hc.1), if_pos]
  rcases hsum with hs' | hs'
  · left; nlinarith
  · right; nlinarith

/-- **C116**: without weights every non-empty list of values is accepted, and every value keeps the same
positive weight. -/
theorem C116_default (h : RoundsTo p fl) (hp : 1 ≤ p) {ι : Type} {vals : List ι} (hv : vals ≠ [])
    (hn : vals.length * ulp p ≤ (1 / 100000 : K)) :
    processFl fl .absent vals = .ok (List.replicate vals.length (fl (1 / vals.length)), vals) ∧
      processFl fl (.weights (List.replicate vals.length (fl (1 / vals.length)))) vals =
        .ok (List.replicate vals.length (fl (1 / vals.length)), vals) := by
  have hne : 0 < vals.length := List.length_pos_iff.2 hv
  have hne' : (0 : K) < vals.length := by exact_mod_cast hne
  have hu := ulp_le_of_length hne hn
  have hpos : 0 < fl (1 / (vals.length : K)) := h.pos hp (by positivity)
  have hsum : (List.replicate vals.length (fl (1 / (vals.length : K)))).sum =
      vals.length * fl (1 / (vals.length : K)) := by
    rw [List.sum_replicate, nsmul_eq_mul]
  have e1 := h.le_mul (x := 1 / (vals.length : K)) (by positivity)
  have e2 := h.ge_mul (x := 1 / (vals.length : K)) (by positivity)
  have e3 : (vals.length : K) * (1 / vals.length) = 1 := by field_simp
  have key := C116_accepted h hp (ws := List.replicate vals.length (fl (1 / (vals.length : K))))
    (vals := vals) (by simp) (fun w hw => by rw [(List.mem_replicate.1 hw).2]; exact hpos.le)
    (by rw [hsum]; nlinarith [mul_le_mul_of_nonneg_left e2 hne'.le])
    (by rw [hsum]; nlinarith [mul_le_mul_of_nonneg_left e1 hne'.le]) hn
  have hf : ((List.replicate vals.length (fl (1 / (vals.length : K)))).zip vals).filter
      (fun x => x.1 ≠ 0) = (List.replicate vals.length (fl (1 / (vals.length : K)))).zip vals := by
    rw [List.filter_eq_self]
    intro x hx
    have := (List.mem_replicate.1 (List.of_mem_zip hx).1).2
    rw [this]
    exact decide_eq_true hpos.ne'
  rw [hf, List.map_fst_zip (by simp), List.map_snd_zip (by simp)] at key
  refine ⟨?_, key⟩
  rw [← key]
  simp [processFl]

/-- Dropping the zero weights and processing the rest once more changes nothing. -/
theorem process_again (h : RoundsTo p fl) (hp : 1 ≤ p) {ι : Type} {ws : List K} {vals : List ι}
    (hl : ws.length = vals.length) (hw : ∀ w ∈ ws, 0 ≤ w)
    (hlo : 9901 / 10000 ≤ ws.sum) (hhi : ws.sum ≤ 10099 / 10000)
    (hn : vals.length * ulp p ≤ (1 / 100000 : K)) {ws' : List K} {vs' : List ι}
    (he : keepPositive ws vals = .ok (ws', vs')) : processFl fl (.weights ws') vs' = .ok (ws', vs') := by
  rw [keepPositive_eq ws vals hl, if_pos hw] at he
  set f := (ws.zip vals).filter (fun x => x.1 ≠ 0) with hf
  simp only [Except.ok.injEq, Prod.mk.injEq] at he
  obtain ⟨rfl, rfl⟩ := he
  have hsum : ∀ l : List (K × ι), ((l.filter fun x => x.1 ≠ 0).map Prod.fst).sum = (l.map Prod.fst).sum := by
    intro l
    induction l with
    | nil => rfl
    | cons x l ih =>
      by_cases hx : x.1 = 0
      · simp only [ne_eq, decide_not] at ih
        simp [hx, ih]
      · simp only [ne_eq, decide_not] at ih
        simp [hx, ih]
  have hs : (f.map Prod.fst).sum = ws.sum := by
    rw [hf, hsum, List.map_fst_zip hl.le]
  have hlen : f.length ≤ vals.length := by
    rw [hf]
    refine (List.length_filter_le _ _).trans ?_
    rw [List.length_zip]
    exact min_le_right _ _
  have key := C116_accepted h hp (ws := f.map Prod.fst) (vals := f.map Prod.snd) (by simp)
    (fun w hw' => by
      obtain ⟨x, hx, rfl⟩ := List.mem_map.1 hw'
      exact hw _ (List.of_mem_zip (List.mem_of_mem_filter hx)).1)
    (by rw [hs]; exact hlo) (by rw [hs]; exact hhi)
    (by
      refine le_trans (mul_le_mul_of_nonneg_right ?_ (ulp_pos p).le) hn
      rw [List.length_map]
      exact_mod_cast hlen)
  have hz : (f.map Prod.fst).zip (f.map Prod.snd) = f := (List.zip_of_prod rfl rfl).symm
  have hff : f.filter (fun x => x.1 ≠ 0) = f := by
    rw [hf, List.filter_filter]
    simp
  rw [hz, hff] at key
  exact key

/-- **C116**: relative weights that are not negative and not all zero are accepted; the weights they become
are accepted again when the mixture is sampled, which processes them a second time. -/
theorem C116_relative (h : RoundsTo p fl) (hp : 1 ≤ p) {ι : Type} {ws : List K} {vals : List ι}
    (hl : ws.length = vals.length) (hw : ∀ w ∈ ws, 0 ≤ w ∧ IsFloat p w) (hpos : 0 < ws.sum)
    (hn : vals.length * ulp p ≤ (1 / 100000 : K)) :
    ∃ ws' vs', processFl fl (.relative ws) vals = .ok (ws', vs') ∧
      processFl fl (.weights ws') vs' = .ok (ws', vs') := by
  obtain ⟨nw, e1, e2, e3, -, e5⟩ := C115_normalize h hp hw hpos (by rw [hl]; exact hn.trans (by norm_num))
  have hne : vals ≠ [] := by
    rintro rfl
    rw [List.length_eq_zero_iff.1 hl] at hpos
    simp at hpos
  have hl' : nw.length = vals.length := e2.trans hl
  have hnw : ∀ w ∈ nw, 0 ≤ w := fun w hw' => (e3 w hw').1
  have hk := keepPositive_eq nw vals hl'
  rw [if_pos hnw] at hk
  refine ⟨_, _, ?_, process_again h hp hl' hnw ?_ ?_ hn hk⟩
  · unfold processFl
    rw [if_neg hne]
    simp only [e1, Bind.bind, Except.bind]
    rw [if_neg (fun hc => hc hl'), hk]
  · have := (abs_le.1 e5).1
    rw [hl] at this
    linarith
  · have := (abs_le.1 e5).2
    rw [hl] at this
    linarith

/-- **C116**: when the last weight is left out and the others sum (in floating-point arithmetic) to less than
1, the remainder is positive and all values are kept; the completed weights are accepted again. -/
theorem C116_missing (h : RoundsTo p fl) (hp : 1 ≤ p) {ι : Type} {ws : List K} {vals : List ι}
    (hl : ws.length + 1 = vals.length) (hw : ∀ w ∈ ws, 0 < w) (hs : sumFl fl ws < 1)
    (hn : vals.length * ulp p ≤ (1 / 100000 : K)) :
    0 < fl (1 - sumFl fl ws) ∧
      processFl fl (.weights ws) vals = .ok (ws ++ [fl (1 - sumFl fl ws)], vals) ∧
      processFl fl (.weights (ws ++ [fl (1 - sumFl fl ws)])) vals =
        .ok (ws ++ [fl (1 - sumFl fl ws)], vals) ∧
      |(ws ++ [fl (1 - sumFl fl ws)]).sum - 1| ≤ 4 * (vals.length * ulp p) := by
  have hw0 : ∀ w ∈ ws, 0 ≤ w := fun w hw' => (hw w hw').le
  have hne : 0 < vals.length := by omega
  have hvne : vals ≠ [] := List.ne_nil_of_length_pos hne
  obtain ⟨h1, h2⟩ := sumFl_bounds h hp hw0 (n := vals.length) (by omega) (hn.trans (by norm_num))
  have hu := ulp_le_of_length hne hn
  have hua : ulp p ≤ (vals.length : K) * ulp p := by
    have : (1 : K) ≤ vals.length := by exact_mod_cast hne
    nlinarith [ulp_pos (K := K) p]
  set a : K := vals.length * ulp p with ha
  set S := sumFl fl ws with hS
  have ha0 : 0 ≤ a := mul_nonneg (Nat.cast_nonneg _) (ulp_pos p).le
  have hsum0 := List.sum_nonneg hw0
  have hsum1 : ws.sum ≤ 2 := by nlinarith
  have hS0 : 0 ≤ S := le_trans (mul_nonneg (by linarith) hsum0) h1
  have hpos : 0 < fl (1 - S) := h.pos hp (by linarith)
  have f1 := h.le_mul (x := 1 - S) (by linarith)
  have f2 := h.ge_mul (x := 1 - S) (by linarith)
  have hup := ulp_pos (K := K) p
  have hS3 : ws.sum ≤ 1001 / 1000 := by nlinarith
  have htot : |(ws ++ [fl (1 - S)]).sum - 1| ≤ 4 * a := by
    rw [List.sum_append, List.sum_singleton, abs_le]
    constructor <;> nlinarith
  have hall : ∀ w ∈ ws ++ [fl (1 - S)], 0 < w := by
    intro w hw'
    rcases List.mem_append.1 hw' with hw' | hw'
    · exact hw w hw'
    · rw [List.mem_singleton.1 hw']; exact hpos
  have hl' : (ws ++ [fl (1 - S)]).length = vals.length := by simpa using hl
  have hkp : keepPositive (ws ++ [fl (1 - S)]) vals = .ok (ws ++ [fl (1 - S)], vals) := by
    rw [keepPositive_eq _ _ hl', if_pos fun w hw' => (hall w hw').le]
    have hf : ((ws ++ [fl (1 - S)]).zip vals).filter (fun x => x.1 ≠ 0) = (ws ++ [fl (1 - S)]).zip vals := by
      rw [List.filter_eq_self]
      intro x hx
      simpa using (hall _ (List.of_mem_zip hx).1).ne'
    rw [hf, List.map_fst_zip hl'.le, List.map_snd_zip hl'.ge]
  refine ⟨hpos, ?_, ?_, htot⟩
  · unfold processFl processFl.finish
    rw [if_neg hvne]
    simp only
    rw [if_pos ⟨hl, hs⟩, hkp]
  · have := abs_le.1 htot
    exact process_again h hp hl' (fun w hw' => (hall w hw').le) (by linarith) (by linarith) hn hkp

/-! ### Concrete cases -/

/-- Doubles. -/
example : RoundsTo 53 (roundBits 53 : ℚ → ℚ) := roundBits_roundsTo (by norm_num)

/-- `normalize([1, 2, 5])`. -/
example : ∃ ws, normalizeFl (roundBits 53) [1, 2, (5 : ℚ)] = .ok ws ∧ |ws.sum - 1| ≤ 12 * ulp 53 := by
  have hf : ∀ n : ℤ, |n| ≤ 2 ^ 53 → IsFloat 53 (n : ℚ) := fun n hn => isFloat_int hn
  obtain ⟨ws, h1, -, -, -, h2⟩ := C115_normalize (roundBits_roundsTo (K := ℚ) (p := 53) (by norm_num)) (by norm_num)
    (xs := [1, 2, 5])
    (by
      intro x hx
      simp only [List.mem_cons, List.not_mem_nil, or_false] at hx
      rcases hx with rfl | rfl | rfl
      · exact ⟨by norm_num, by exact_mod_cast hf 1 (by norm_num)⟩
      · exact ⟨by norm_num, by exact_mod_cast hf 2 (by norm_num)⟩
      · exact ⟨by norm_num, by exact_mod_cast hf 5 (by norm_num)⟩)
    (by norm_num) (by unfold ulp; norm_num)
  refine ⟨ws, h1, h2.trans (le_of_eq ?_)⟩
  unfold ulp
  norm_num

/-- Ten weights of a tenth, which do not sum to 1 exactly in floating-point arithmetic, are accepted. -/
example : processFl (roundBits 53) (.weights (List.replicate 10 (roundBits 53 (1 / 10 : ℚ)))) (List.range 10) =
    .ok (List.replicate 10 (roundBits 53 (1 / 10 : ℚ)), List.range 10) := by
  have := (C116_default (roundBits_roundsTo (K := ℚ) (p := 53) (by norm_num)) (by norm_num)
    (vals := List.range 10) (by simp [List.range_succ]) (by unfold ulp; norm_num)).2
  simpa using this

/-- Weights of a half and two fifths are refused. -/
example : processFl (roundBits 53) (.weights [1 / 2, (2 / 5 : ℚ)]) [0, 1] = .error .valueError :=
  C116_refused (roundBits_roundsTo (by norm_num)) (by norm_num) (by norm_num) (by norm_num)
    (by intro w hw; simp only [List.mem_cons, List.not_mem_nil, or_false] at hw
        rcases hw with rfl | rfl <;> norm_num)
    (Or.inl (by norm_num)) (by unfold ulp; norm_num)

end Verif
