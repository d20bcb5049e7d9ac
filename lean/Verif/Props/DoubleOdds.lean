import Verif.Model.DoubleOdds
import Verif.Lemmas.CompensatedSum
import Verif.Props.DoubleBayes
import Verif.Props.RoundedHelpers

/-!
# C178: odds and probabilities with floats of any size
-/

namespace Verif

open Spec

variable {K : Type} [Field K] [LinearOrder K] [IsStrictOrderedRing K] {f : FloatFormat} {fl fl' : K → K} {p : ℕ}

/-- The last digit of a float of a given size. -/
theorem float_grid {x : K} (hx : IsFloat p x) {k : ℤ} (hk : (2 : K) ^ k ≤ |x|) : ∃ j : ℤ, x = j * (2 : K) ^ (k - p) := by
  obtain ⟨m, e, hm, rfl⟩ := hx
  have h2 : (0 : K) < 2 ^ e := by positivity
  have hm' : |(m : K)| ≤ 2 ^ p := by exact_mod_cast hm
  rw [abs_mul, abs_of_pos h2] at hk
  have h3 : (2 : K) ^ k ≤ 2 ^ ((p : ℤ) + e) := by
    rw [zpow_add₀ two_ne_zero, zpow_natCast]
    exact hk.trans (mul_le_mul_of_nonneg_right hm' h2.le)
  have h4 := (zpow_le_zpow_iff_right₀ (one_lt_two (α := K))).1 h3
  exact grid_of_le (by omega)

/-- The float below a power of 2. -/
theorem float_lt_two_zpow {x : K} (hx : IsFloat p x) {k : ℤ} (hk : (2 : K) ^ (k - 1) ≤ x) (hl : x < 2 ^ k) :
    x ≤ 2 ^ k - 2 ^ (k - 1 - p) := by
  have h0 : (0 : K) < 2 ^ (k - 1) := by positivity
  obtain ⟨j, hj⟩ := float_grid hx (k := k - 1) (by rwa [abs_of_pos (h0.trans_le hk)])
  have h2 : (0 : K) < 2 ^ (k - 1 - (p : ℤ)) := by positivity
  have e : (2 : K) ^ k = ((2 ^ (p + 1) : ℤ) : K) * 2 ^ (k - 1 - (p : ℤ)) := by
    push_cast
    rw [← zpow_natCast, ← zpow_add₀ two_ne_zero]
    congr 1
    push_cast
    ring
  rw [hj, e] at hl
  have h3 : (j : K) < ((2 ^ (p + 1) : ℤ) : K) := lt_of_mul_lt_mul_right hl h2.le
  have h4 : j ≤ 2 ^ (p + 1) - 1 := by
    have : j < 2 ^ (p + 1) := by exact_mod_cast h3
    omega
  have h5 : (j : K) ≤ ((2 ^ (p + 1) : ℤ) : K) - 1 := by exact_mod_cast h4
  rw [hj, e]
  nlinarith

theorem RoundsTo.add_tiny (h : RoundsTo p fl) {x : K} (h0 : 0 < x) (hx : x < 2 ^ (-(p : ℤ) - 1)) : fl (1 + x) = 1 := by
  have h1 : 1 ≤ fl (1 + x) := h.le_of_ge (isFloat_one p) (by linarith)
  have hn := h.nearest (1 + x) 1 (isFloat_one p)
  rw [show (1 : K) - (1 + x) = -x by ring, abs_neg, abs_of_pos h0] at hn
  have h2 := (abs_le.1 hn).2
  obtain ⟨j, hj⟩ := float_grid (h.float (1 + x)) (k := 0) (by rw [zpow_zero, abs_of_pos (by linarith)]; exact h1)
  rw [zero_sub] at hj
  have e1 : (2 : K) ^ (-(p : ℤ)) = 2 * 2 ^ (-(p : ℤ) - 1) := by
    rw [zpow_sub_one₀ two_ne_zero]
    ring
  have hg : (0 : K) < 2 ^ (-(p : ℤ)) := by positivity
  have e2 : (1 : K) = ((2 ^ p : ℤ) : K) * 2 ^ (-(p : ℤ)) := by
    push_cast
    rw [zpow_neg, zpow_natCast, mul_inv_cancel₀ (by positivity)]
  have h3 : (j : K) < ((2 ^ p : ℤ) : K) + 1 := by
    refine lt_of_mul_lt_mul_right ?_ hg.le
    rw [← hj, add_mul, ← e2]
    linarith
  have h4 : ((2 ^ p : ℤ) : K) ≤ j := by
    refine le_of_mul_le_mul_right ?_ hg
    rw [← hj, ← e2]
    exact h1
  have h5 : j < 2 ^ p + 1 := by exact_mod_cast h3
  have h6 : 2 ^ p ≤ j := by exact_mod_cast h4
  rw [hj, show j = 2 ^ p by omega, ← e2]

theorem RoundsTo.sub_tiny (h : RoundsTo p fl) {x : K} (h0 : 0 < x) (hx : x < 2 ^ (-(p : ℤ) - 2)) : fl (1 - x) = 1 := by
  have h1 : fl (1 - x) ≤ 1 := h.le_of_le (isFloat_one p) (by linarith)
  refine le_antisymm h1 ?_
  by_contra hc
  push Not at hc
  have hn := h.nearest (1 - x) 1 (isFloat_one p)
  rw [show (1 : K) - (1 - x) = x by ring, abs_of_pos h0] at hn
  have h2 := (abs_le.1 hn).1
  have e1 : (2 : K) ^ (-(p : ℤ) - 1) = 2 * 2 ^ (-(p : ℤ) - 2) := by
    rw [show -(p : ℤ) - 2 = -(p : ℤ) - 1 - 1 by ring, zpow_sub_one₀ two_ne_zero (-(p : ℤ) - 1)]
    ring
  have h3 : (2 : K) ^ (-(p : ℤ) - 2) ≤ 1 / 4 := by
    have : (2 : K) ^ (-(p : ℤ) - 2) ≤ 2 ^ (-2 : ℤ) := zpow_le_zpow_right₀ one_le_two (by omega)
    norm_num at this ⊢
    exact this
  have := float_lt_two_zpow (h.float (1 - x)) (k := 0) (by norm_num; linarith) (by simpa using hc)
  rw [zero_sub, zpow_zero, show (-1 : ℤ) - p = -(p : ℤ) - 1 by ring] at this
  linarith

variable [FloorRing K]

/-- `p_to_odds` of every float is as with unlimited exponents. -/
theorem pToOddsX_eq (hp : 1 ≤ f.p) (hlow : f.low + 2 * f.p + 1 ≤ 0) (htop : f.p + 2 ≤ f.top) (h : RoundsDouble f fl)
    (h' : RoundsTo f.p fl') (he : ∀ x, Unharmed f x → fl x = fl' x) {q : K} (hq : InFormat f q) (h0 : 0 < q)
    (h1 : q < 1) : pToOddsX f fl q = .ok (.fin (fl' (q / fl' (1 - q)))) ∧ InFormat f (fl' (q / fl' (1 - q))) ∧
      fl' (q / fl' (1 - q)) < 2 ^ f.top := by
  have eC : fl (1 - q) = fl' (1 - q) := he _ (.inl (OnGrid.sub (onGrid_one (by omega)) hq.2))
  have c1 : fl' (1 - q) ≤ 1 := h'.le_of_le (isFloat_one _) (by linarith)
  have c0 : (2 : K) ^ (-(f.p : ℤ) - 1) ≤ fl' (1 - q) := by
    refine h'.le_of_ge ?_ ?_
    · have := isFloat_mul_zpow (isFloat_one (K := K) f.p) (-(f.p : ℤ) - 1)
      rwa [one_mul] at this
    · rcases le_or_gt (1 / 2) q with hc | hc
      · have := float_lt_two_zpow hq.1 (k := 0) (by norm_num; linarith) (by simpa using h1)
        rw [zero_sub, zpow_zero, show (-1 : ℤ) - f.p = -(f.p : ℤ) - 1 by ring] at this
        linarith
      · have : (2 : K) ^ (-(f.p : ℤ) - 1) ≤ 2 ^ (-1 : ℤ) := zpow_le_zpow_right₀ one_le_two (by omega)
        norm_num at this ⊢
        linarith
  have cp : 0 < fl' (1 - q) := lt_of_lt_of_le (by positivity) c0
  have hqc : q ≤ q / fl' (1 - q) := (le_div_iff₀ cp).2 (by nlinarith)
  have eO : fl (q / fl' (1 - q)) = fl' (q / fl' (1 - q)) := by
    refine he _ ?_
    rcases le_or_gt ((2 : K) ^ (f.low + f.p - 1)) q with hc | hc
    · exact .inr (by rw [abs_of_pos (h0.trans_le hqc)]; exact hc.trans hqc)
    · left
      rw [h'.sub_tiny h0 (hc.trans_le (zpow_le_zpow_right₀ one_le_two (by omega))), div_one]
      exact hq.2
  have big : fl' (q / fl' (1 - q)) < 2 ^ f.top := by
    refine lt_of_le_of_lt (b := (2 : K) ^ ((f.p : ℤ) + 1)) (h'.le_of_le ?_ ?_)
      (zpow_lt_zpow_right₀ one_lt_two (by omega))
    · have := isFloat_mul_zpow (isFloat_one (K := K) f.p) ((f.p : ℤ) + 1)
      rwa [one_mul] at this
    · rw [div_le_iff₀ cp]
      have e : (1 : K) = 2 ^ ((f.p : ℤ) + 1) * 2 ^ (-(f.p : ℤ) - 1) := by
        rw [← zpow_add₀ two_ne_zero, show (f.p : ℤ) + 1 + (-(f.p : ℤ) - 1) = 0 by ring, zpow_zero]
      have := mul_le_mul_of_nonneg_left c0 (show (0 : K) ≤ 2 ^ ((f.p : ℤ) + 1) by positivity)
      linarith
  have t1 : (1 : K) < 2 ^ f.top := one_lt_zpow₀ one_lt_two (by omega)
  refine ⟨?_, by rw [← eO]; exact h.format _, big⟩
  unfold pToOddsX
  rw [if_neg (by push Not; exact ⟨h0, h1⟩)]
  have s1 : (XVal.fin (1 : K)).sub (.fin q) = .fin (1 - q) := by
    simp [XVal.sub, XVal.add, XVal.neg, XVal.signed, XVal.zero, XVal.val?, h0.ne', sub_eq_add_neg]
  rw [s1, toDouble_fin h (by linarith), eC, if_pos (lt_of_le_of_lt c1 t1)]
  have s2 : (XVal.fin q).div (.fin (fl' (1 - q))) = .fin (q / fl' (1 - q)) := by
    simp [XVal.div, XVal.val?, cp.ne', XVal.signed, h0.ne']
  rw [s2, toDouble_fin h (h0.le.trans hqc), eO, if_pos big]

/-- `odds_to_p` of every float is as with unlimited exponents. -/
theorem oddsToPX_eq (hp : 1 ≤ f.p) (hlow : f.low + 2 * f.p + 1 ≤ 0) (htop : f.p + 4 ≤ f.top) (h : RoundsDouble f fl)
    (h' : RoundsTo f.p fl') (he : ∀ x, Unharmed f x → fl x = fl' x) {o : K} (ho : IsDouble f o) (h0 : 0 < o) :
    oddsToPX f fl o = .ok (.fin (fl' (o / fl' (1 + o)))) := by
  obtain ⟨hf, ht⟩ := ho
  rw [abs_of_pos h0] at ht
  have eC : fl (1 + o) = fl' (1 + o) := he _ (.inl (OnGrid.add (onGrid_one (by omega)) hf.2))
  have c1 : o ≤ fl' (1 + o) := h'.le_of_ge hf.1 (by linarith)
  have cp : 0 < fl' (1 + o) := h0.trans_le c1
  have c2 : fl' (1 + o) ≤ o + 2 := by
    have hn := h'.nearest (1 + o) o hf.1
    rw [show o - (1 + o) = -1 by ring, abs_neg, abs_one] at hn
    linarith [(abs_le.1 hn).2]
  have big : fl' (1 + o) < 2 ^ f.top := by
    rcases le_or_gt ((2 : K) ^ (f.top - 1)) o with hc | hc
    · have h3 := float_lt_two_zpow hf.1 hc ht
      have h4 : (2 : K) ^ (2 : ℤ) ≤ 2 ^ (f.top - 1 - (f.p : ℤ)) := zpow_le_zpow_right₀ one_le_two (by omega)
      norm_num at h4
      linarith
    · have e : (2 : K) ^ f.top = 2 * 2 ^ (f.top - 1) := by rw [zpow_sub_one₀ two_ne_zero]; ring
      have h4 : (2 : K) ^ (2 : ℤ) ≤ 2 ^ (f.top - 1) := zpow_le_zpow_right₀ one_le_two (by omega)
      norm_num at h4
      linarith
  have q1 : o / fl' (1 + o) ≤ 1 := (div_le_one cp).2 c1
  have eO : fl (o / fl' (1 + o)) = fl' (o / fl' (1 + o)) := by
    refine he _ ?_
    rcases lt_or_ge o ((2 : K) ^ (-(f.p : ℤ) - 1)) with hc | hc
    · left
      rw [h'.add_tiny h0 hc, div_one]
      exact hf.2
    · right
      rw [abs_of_pos (div_pos h0 cp), le_div_iff₀ cp]
      have k1 : (2 : K) ^ (f.low + f.p - 1) ≤ 2 ^ (-(f.p : ℤ) - 1) / 2 := by
        rw [div_eq_mul_inv, ← zpow_sub_one₀ (two_ne_zero (α := K))]
        exact zpow_le_zpow_right₀ one_le_two (by omega)
      have k2 : (2 : K) ^ (-(f.p : ℤ) - 1) ≤ 2 ^ (-2 : ℤ) := zpow_le_zpow_right₀ one_le_two (by omega)
      norm_num at k2
      have k0 : (0 : K) < 2 ^ (f.low + f.p - 1) := by positivity
      rcases le_total o 1 with h1 | h1
      · have : fl' (1 + o) ≤ 2 := h'.le_of_le (by
          have := isFloat_mul_zpow (isFloat_one (K := K) f.p) 1
          simpa using this) (by linarith)
        nlinarith
      · nlinarith
  have t1 : (1 : K) < 2 ^ f.top := one_lt_zpow₀ one_lt_two (by omega)
  unfold oddsToPX
  rw [if_neg (not_le.2 h0)]
  have s1 : (XVal.fin (1 : K)).add (.fin o) = .fin (1 + o) := by simp [XVal.add, XVal.val?]
  rw [s1, toDouble_fin h (by linarith), eC, if_pos big]
  have s2 : (XVal.fin o).div (.fin (fl' (1 + o))) = .fin (o / fl' (1 + o)) := by
    simp [XVal.div, XVal.val?, cp.ne', XVal.signed, h0.ne']
  rw [s2, toDouble_fin h (div_pos h0 cp).le, eO, if_pos (lt_of_le_of_lt (h'.le_of_le (isFloat_one _) q1) t1)]

/-- **C178.** `p_to_odds` of every float between 0 and 1, subnormal ones included, is positive, finite and accurate to three
roundings. -/
theorem C178_odds (hp : 6 ≤ f.p) (hlow : f.low + 2 * f.p + 1 ≤ 0) (htop : f.p + 2 ≤ f.top) (h : RoundsDouble f fl) {q : K}
    (hq : IsDouble f q) (h0 : 0 < q) (h1 : q < 1) :
    ∃ o, pToOddsX f fl q = .ok (.fin o) ∧ 0 < o ∧ |o - q / (1 - q)| ≤ 3 * ulp f.p * (q / (1 - q)) := by
  obtain ⟨fl', h', he⟩ := h.unlimited (by omega)
  obtain ⟨o, e, r⟩ := C118_odds h' hp h0 h1
  unfold pToOddsFl at e
  rw [if_neg (by push Not; exact ⟨h0, h1⟩)] at e
  cases e
  exact ⟨_, (pToOddsX_eq (by omega) hlow htop h h' he hq.1 h0 h1).1, r⟩

/-- **C178**: `odds_to_p` of every positive float, up to the largest one, is a positive number of at most 1 and accurate to
three roundings. -/
theorem C178_prob (hp : 6 ≤ f.p) (hlow : f.low + 2 * f.p + 1 ≤ 0) (htop : f.p + 4 ≤ f.top) (h : RoundsDouble f fl) {o : K}
    (ho : IsDouble f o) (h0 : 0 < o) :
    ∃ q, oddsToPX f fl o = .ok (.fin q) ∧ 0 < q ∧ q ≤ 1 ∧ |q - o / (1 + o)| ≤ 3 * ulp f.p * (o / (1 + o)) := by
  obtain ⟨fl', h', he⟩ := h.unlimited (by omega)
  obtain ⟨q, e, r⟩ := C118_prob h' hp h0 ho.1.1
  unfold oddsToPFl at e
  rw [if_neg (not_le.2 h0)] at e
  cases e
  exact ⟨_, oddsToPX_eq (by omega) hlow htop h h' he ho h0, r⟩

/-- **C178** (round trip): for every float `q` between 0 and 1, `odds_to_p(p_to_odds(q))` is `q` up to seven roundings. -/
theorem C178_round_trip (hp : 6 ≤ f.p) (hlow : f.low + 2 * f.p + 1 ≤ 0) (htop : f.p + 4 ≤ f.top) (h : RoundsDouble f fl)
    {q : K} (hq : IsDouble f q) (h0 : 0 < q) (h1 : q < 1) :
    ∃ o q', pToOddsX f fl q = .ok (.fin o) ∧ oddsToPX f fl o = .ok (.fin q') ∧ |q' - q| ≤ 7 * ulp f.p * q := by
  obtain ⟨fl', h', he⟩ := h.unlimited (by omega)
  obtain ⟨o, q', e, e', r⟩ := C118_round_trip h' hp h0 h1
  obtain ⟨o2, e2, hpos, -⟩ := C118_odds h' hp h0 h1
  rw [e] at e2
  cases e2
  unfold pToOddsFl at e
  rw [if_neg (by push Not; exact ⟨h0, h1⟩)] at e
  cases e
  unfold oddsToPFl at e'
  rw [if_neg (not_le.2 hpos)] at e'
  cases e'
  obtain ⟨x1, x2, x3⟩ := pToOddsX_eq (by omega) hlow (by omega) h h' he hq.1 h0 h1
  exact ⟨_, _, x1, oddsToPX_eq (by omega) hlow htop h h' he ⟨x2, by rwa [abs_of_pos hpos]⟩ hpos, r⟩

/-- The hypotheses are met for Python floats: the smallest positive float and the largest. -/
example : 6 ≤ binary64.p ∧ binary64.low + 2 * binary64.p + 1 ≤ 0 ∧ binary64.p + 4 ≤ binary64.top ∧
    pToOddsX binary64 (roundDouble binary64) (1 / 2 ^ 1074 : ℚ) = .ok (.fin (1 / 2 ^ 1074)) ∧
    oddsToPX binary64 (roundDouble binary64) ((2 ^ 53 - 1) * 2 ^ 971 : ℚ) = .ok (.fin 1) ∧
    RoundsDouble binary64 (roundDouble (K := ℚ) binary64) :=
  ⟨by decide, by decide, by decide, by decide +kernel, by decide +kernel, roundDouble_rounds (by decide)⟩

end Verif
