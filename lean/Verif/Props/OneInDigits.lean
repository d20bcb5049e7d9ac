import Verif.Model.OneInDigits
import Verif.Spec.OneInDigits
import Verif.Props.OneIn
import Verif.Props.SciText

/-!
# C166: the text of `one_in` with digits
-/

namespace Verif

theorem readDigits_toDigits (n : ℕ) : readDigits (Nat.toDigits 10 n) = n := by
  have h := Nat.ofDigitChars_ten_toDigits (n := n)
  rw [Nat.ofDigitChars_eq_foldl] at h
  exact h

theorem readDigits_append (a b : List Char) : readDigits (a ++ b) = readDigits a * 10 ^ b.length + readDigits b := by
  induction b using List.reverseRecOn with
  | nil => simp [readDigits]
  | append_singleton b c ih =>
    rw [← List.append_assoc, readDigits_snoc, readDigits_snoc, ih, List.length_append, List.length_singleton, pow_succ]
    ring

theorem filter_commas (l : List Char) (h : ∀ c ∈ l, c ≠ ',') : (commas l).filter (· ≠ ',') = l := by
  induction l using commas.induct with
  | case1 a b c d rest ih =>
    have ha : a ≠ ',' := h a (by simp)
    have hb : b ≠ ',' := h b (by simp)
    have hc : c ≠ ',' := h c (by simp)
    have := ih fun x hx => h x (by simp only [List.mem_cons] at hx ⊢; tauto)
    rw [commas]
    simp only [ne_eq, decide_not] at this ⊢
    simp [ha, hb, hc, this]
  | case2 l hl =>
    have hc : commas l = l := by
      rcases l with _ | ⟨a, _ | ⟨b, _ | ⟨c, _ | ⟨d, rest⟩⟩⟩⟩
      · rfl
      · rfl
      · rfl
      · rfl
      · exact absurd rfl (hl a b c d rest)
    rw [hc, List.filter_eq_self]
    simpa using h

theorem dropZeros_spec (r : List Char) :
    readDigits r.reverse = readDigits (r.dropWhile (· == '0')).reverse * 10 ^ (r.length - (r.dropWhile (· == '0')).length)
    ∧ (r.dropWhile (· == '0')).length ≤ r.length := by
  induction r with
  | nil => simp
  | cons c r ih =>
    by_cases hc : c = '0'
    · subst hc
      have e : (('0' :: r).dropWhile (· == '0')) = r.dropWhile (· == '0') := by simp
      rw [e, List.reverse_cons, readDigits_snoc, ih.1, List.length_cons,
        show r.length + 1 - (r.dropWhile (· == '0')).length = (r.length - (r.dropWhile (· == '0')).length) + 1 by
          have := ih.2; omega, pow_succ]
      refine ⟨?_, by have := ih.2; omega⟩
      simp only [Char.reduceToNat, Nat.sub_self, add_zero]
      ring
    · have e : ((c :: r).dropWhile (· == '0')) = c :: r := by simp [hc]
      rw [e]; simp

/-- What trimming keeps: the value as a fraction, digits, at least one, no zero at the end of two or more. -/
theorem trimZeros_spec {cs : List Char} (h0 : cs ≠ []) (hd : ∀ c ∈ cs, c.isDigit = true) :
    readDigits cs = readDigits (trimZeros cs) * 10 ^ (cs.length - (trimZeros cs).length) ∧
    1 ≤ (trimZeros cs).length ∧ (trimZeros cs).length ≤ cs.length ∧ (∀ c ∈ trimZeros cs, c.isDigit = true) ∧
    (trimZeros cs = ['0'] ∨ (trimZeros cs).getLast? ≠ some '0') := by
  obtain ⟨h1, h2⟩ := dropZeros_spec cs.reverse
  have hlen : 1 ≤ cs.length := List.length_pos_of_ne_nil h0
  have hsub : ∀ c ∈ cs.reverse.dropWhile (· == '0'), c ∈ cs := fun c hc =>
    List.mem_reverse.1 ((List.dropWhile_suffix _).subset hc)
  have hhead : ∀ c r, cs.reverse.dropWhile (· == '0') = c :: r → c ≠ '0' := by
    intro c r he hc
    have := List.head_dropWhile_not (p := (· == '0')) (l := cs.reverse) (by rw [he]; simp)
    simp only [he, List.head_cons, hc] at this
    simp at this
  rw [List.reverse_reverse, List.length_reverse] at h1
  rw [List.length_reverse] at h2
  unfold trimZeros
  cases hr : cs.reverse.dropWhile (· == '0') with
  | nil =>
    rw [hr] at h1
    simp only
    refine ⟨?_, by simp, by simpa using hlen, by simp, .inl trivial⟩
    rw [h1]
    simp [readDigits]
  | cons c r =>
    rw [hr] at h1 h2 hsub
    simp only
    refine ⟨by simpa using h1, by simp, by simpa using h2, ?_, .inr ?_⟩
    · intro x hx
      exact hd x (hsub x (List.mem_reverse.1 hx))
    · have := hhead c r hr
      simpa using this

variable {K : Type} [Field K] [LinearOrder K] [IsStrictOrderedRing K] [FloorRing K]

theorem thousands_grouped (n : ℕ) : IsGrouped (Nat.toDigits 10 n) (thousands n) ∧
    (thousands n).filter (· ≠ ',') = Nat.toDigits 10 n := by
  have hth : thousands (n : ℤ) = (commas (Nat.toDigits 10 n).reverse).reverse := by simp [thousands]
  have hdig : ∀ c ∈ Nat.toDigits 10 n, c.isDigit = true := fun c hc =>
    Nat.isDigit_of_mem_toDigits (by omega) (by omega) hc
  constructor
  · have h := commas_grouped (Nat.toDigits 10 n).reverse (by simp)
    rwa [List.reverse_reverse, ← hth] at h
  · rw [hth, List.filter_reverse, filter_commas _ fun c hc => digit_ne (hdig c (List.mem_reverse.1 hc)) (by decide),
      List.reverse_reverse]

/-- How a reader expects a decimal number with at most `k` decimals: digits in groups of three, a point, one to `k`
digits, and no zero at the end except in `.0`. -/
def IsDecimal (k : ℕ) (t : List Char) : Prop :=
  ∃ (n : ℕ) (whole fraction : List Char), t = whole ++ '.' :: fraction ∧ IsGrouped (Nat.toDigits 10 n) whole ∧
    1 ≤ fraction.length ∧ fraction.length ≤ k ∧ (∀ c ∈ fraction, c.isDigit = true) ∧
    (fraction = ['0'] ∨ fraction.getLast? ≠ some '0')

theorem decimal_text {k m : ℕ} (hk : 1 ≤ k) :
    IsDecimal k (thousands (m / 10 ^ k : ℕ) ++ '.' :: trimZeros (fixedDigits k (m % 10 ^ k))) ∧
    readGrouped (K := K) (thousands (m / 10 ^ k : ℕ) ++ '.' :: trimZeros (fixedDigits k (m % 10 ^ k)))
      = (m : K) / 10 ^ k := by
  have hlen := fixedDigits_length k (m % 10 ^ k)
  obtain ⟨h1, h2, h3, h4, h5⟩ := trimZeros_spec (cs := fixedDigits k (m % 10 ^ k))
    (List.ne_nil_of_length_pos (by omega)) (fixedDigits_isDigit _ _)
  rw [readDigits_fixed _ _ (Nat.mod_lt _ (by positivity)), hlen] at h1
  rw [hlen] at h3
  obtain ⟨g1, g2⟩ := thousands_grouped (m / 10 ^ k)
  set f := trimZeros (fixedDigits k (m % 10 ^ k))
  set w := thousands (m / 10 ^ k : ℕ)
  refine ⟨⟨_, w, f, rfl, g1, h2, h3, h4, h5⟩, ?_⟩
  have hf : f.filter (· ≠ ',') = f := by
    rw [List.filter_eq_self]
    intro c hc
    simpa using digit_ne (h4 c hc) (x := ',') (by decide)
  have hbody : (w ++ '.' :: f).filter (· ≠ ',') = Nat.toDigits 10 (m / 10 ^ k) ++ '.' :: f := by
    rw [List.filter_append, g2, List.filter_cons_of_pos (by decide), hf]
  unfold readGrouped
  simp only
  rw [hbody]
  obtain ⟨t1, t2⟩ := takeWhile_digits (cs := Nat.toDigits 10 (m / 10 ^ k)) (rest := f) (c := '.') fun c hc =>
    digit_ne (Nat.isDigit_of_mem_toDigits (by omega) (by omega) hc) (by decide)
  rw [t1, t2, List.tail_cons, readDigits_append, readDigits_toDigits]
  have e : m = (m / 10 ^ k * 10 ^ f.length + readDigits f) * 10 ^ (k - f.length) := by
    rw [add_mul, ← h1, mul_assoc, ← pow_add, Nat.add_sub_cancel' h3]
    exact (Nat.div_add_mod' m (10 ^ k)).symm
  have e2 : (m : K) = ((m / 10 ^ k * 10 ^ f.length + readDigits f : ℕ) : K) * 10 ^ (k - f.length) := by
    exact_mod_cast e
  rw [e2, div_eq_div_iff (by positivity) (by positivity), mul_assoc, ← pow_add, Nat.sub_add_cancel h3]

/-- **C166.** For every probability and number of digits (at most 15 significant ones), the text is `1 in ` and a
decimal number, in the usual form, that reads as the number `one_in(p, digits, verbose=False)`, which is the multiple
of `10^(-k)` nearest to `1/p`; one over it is `p` up to the share `1/(2·10^k)`. -/
theorem C166_reads {p : K} (h0 : 0 < p) (h1 : p ≤ 1) {k : ℕ} (hk : 1 ≤ k) (hbig : 10 ^ k / p + 1 ≤ (10 : K) ^ 15) :
    ∃ (X : K) (t : List Char), oneIn p k = .ok (.flt X) ∧ |X - 1 / p| ≤ 1 / (2 * 10 ^ k) ∧
      |1 / X - p| ≤ p * (1 / (2 * 10 ^ k)) ∧
      oneInDigitsText p k = .ok ("1 in ".toList ++ t) ∧ IsDecimal k t ∧ readGrouped t = X := by
  have h10 : (0 : K) < 10 ^ k := by positivity
  have hge : (1 : K) ≤ 1 / p := by rw [le_div_iff₀ h0]; linarith
  set z := roundEven (1 / p * (10 : K) ^ k) with hz
  have hzge : (10 : ℤ) ^ k ≤ z := by
    have := roundEven_le (K := K) (x := ((10 ^ k : ℤ) : K)) (y := 1 / p * 10 ^ k) (by
      push_cast
      calc (10 : K) ^ k = 1 * 10 ^ k := (one_mul _).symm
        _ ≤ _ := mul_le_mul_of_nonneg_right hge h10.le)
    rwa [roundEven_intCast] at this
  have hz0 : 0 ≤ z := le_trans (by positivity) hzge
  obtain ⟨m, hm⟩ : ∃ m : ℕ, z = m := ⟨z.toNat, by omega⟩
  have hmge : 10 ^ k ≤ m := by rw [hm] at hzge; exact_mod_cast hzge
  have herr : |(m : K) - 1 / p * 10 ^ k| ≤ 1 / 2 := by
    have := abs_roundEven_sub_le (1 / p * (10 : K) ^ k)
    rw [← hz, hm] at this
    exact_mod_cast this
  have hmlt : m < 10 ^ 15 := by
    have h3 := (abs_le.1 herr).2
    have h4 : (1 : K) / p * 10 ^ k = 10 ^ k / p := by ring
    have : (m : K) < ((10 ^ 15 : ℕ) : K) := by push_cast; linarith
    exact_mod_cast this
  have hone : oneIn p (k : ℤ) = .ok (.flt ((m : K) / 10 ^ k)) := by
    have hk' : ¬ ((k : ℤ) ≤ 0) := by omega
    simp only [oneIn, h0.ne', if_false, roundScalar, Scalar.num?, Num.val, hk', zpow_natCast]
    rw [← hz, hm]
    simp
  have hXge : (1 : K) ≤ (m : K) / 10 ^ k := by
    rw [le_div_iff₀ h10, one_mul]
    exact_mod_cast hmge
  have hX : |(m : K) / 10 ^ k - 1 / p| ≤ 1 / (2 * 10 ^ k) := by
    have e : (m : K) / 10 ^ k - 1 / p = (m - 1 / p * 10 ^ k) / 10 ^ k := by field_simp
    rw [e, abs_div, abs_of_pos h10, div_le_div_iff₀ h10 (by positivity)]
    nlinarith
  refine ⟨(m : K) / 10 ^ k, thousands (m / 10 ^ k : ℕ) ++ '.' :: trimZeros (fixedDigits k (m % 10 ^ k)), hone, hX, ?_, ?_,
    (decimal_text (K := K) hk).1, (decimal_text hk).2⟩
  · generalize (m : K) / 10 ^ k = X at hXge hX
    have hX0 : 0 < X := by linarith
    have e : 1 / X - p = p / X * (1 / p - X) := by field_simp
    rw [e, abs_mul, abs_of_pos (div_pos h0 hX0), abs_sub_comm]
    exact mul_le_mul (div_le_self h0.le hXge) hX (abs_nonneg _) h0.le
  · unfold oneInDigitsText
    rw [hone]
    have hr : roundEven ((m : K) / 10 ^ k * 10 ^ (k : ℤ)) = m := by
      rw [zpow_natCast, div_mul_cancel₀ _ h10.ne']
      exact_mod_cast roundEven_intCast (K := K) (m : ℤ)
    have hf : floatText k m = .ok (thousands (m / 10 ^ k : ℕ) ++ '.' :: trimZeros (fixedDigits k (m % 10 ^ k))) := by
      unfold floatText
      rw [if_neg]
      push Not
      exact ⟨hmlt, fun _ => hmge.trans (Nat.le_mul_of_pos_right _ (by norm_num))⟩
    show (if p < 0 then _ else _) = _
    rw [if_neg (not_lt.2 h0.le), hr]
    simp only [Int.toNat_natCast]
    rw [hf]
    rfl

/-- **C166.** The texts of two probabilities agree only if their numbers do. -/
theorem C166_distinct {p q : K} (hp0 : 0 < p) (hp1 : p ≤ 1) (hq0 : 0 < q) (hq1 : q ≤ 1) {k : ℕ} (hk : 1 ≤ k)
    (hp : 10 ^ k / p + 1 ≤ (10 : K) ^ 15) (hq : 10 ^ k / q + 1 ≤ (10 : K) ^ 15)
    (h : oneInDigitsText p k = oneInDigitsText q k) : oneIn p k = oneIn q k := by
  obtain ⟨X, t, h1, -, -, h2, -, h3⟩ := C166_reads hp0 hp1 hk hp
  obtain ⟨Y, s, g1, -, -, g2, -, g3⟩ := C166_reads hq0 hq1 hk hq
  rw [h2, g2] at h
  have h4 : t = s := by simpa using h
  rw [h1, g1, ← h3, ← g3, h4]

omit [IsStrictOrderedRing K] in
/-- **C166.** With 0 or fewer digits it is the text of C108; the probability 0 is refused with any digits. -/
theorem C166_whole (p : K) (k : ℤ) (hk : k ≤ 0) : oneInDigitsText p k = oneInText p k := by
  unfold oneInDigitsText oneInText oneIn
  by_cases hp : p = 0
  · simp [hp]; rfl
  · simp only [hp, if_false, roundScalar, Scalar.num?, hk, if_true]
    rfl

omit [IsStrictOrderedRing K] in
/-- **C166.** -/
theorem C166_zero (k : ℤ) : oneInDigitsText (0 : K) k = .error .zeroDivisionError := by
  simp [oneInDigitsText, oneIn]; rfl

/-- `one_in(0.0003, digits=2)` is `1 in 3,333.33`; `one_in(0.1, digits=3)` is `1 in 10.0`. -/
example : oneInDigitsText (3 / 10000 : ℚ) 2 = .ok "1 in 3,333.33".toList ∧
    oneInDigitsText (1 / 10 : ℚ) 3 = .ok "1 in 10.0".toList ∧
    oneInDigitsText (4 / 5 : ℚ) 3 = .ok "1 in 1.25".toList := by decide +kernel

example : (0 : ℚ) < 3 / 10000 ∧ (3 / 10000 : ℚ) ≤ 1 ∧ 10 ^ 2 / (3 / 10000) + 1 ≤ (10 : ℚ) ^ 15 := by norm_num

end Verif
