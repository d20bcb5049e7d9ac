import Verif.Model.OneIn
import Verif.Props.DistMath

/-! # C108: `one_in` -/

namespace Verif

variable {K : Type} [Field K] [LinearOrder K] [FloorRing K] [IsStrictOrderedRing K]

theorem oneIn_zero (p : K) (hp : p ≠ 0) : oneIn p 0 = .ok (.int (roundEven (1 / p))) := by
  simp [oneIn, hp, roundScalar, Scalar.num?, Num.val, truncZ_intCast]

/-- **C108.** For every probability, `one_in(p, verbose=False)` is the integer nearest to `1/p` (the even one of
two), it is at least 1, and reading it back as `1/X` is off by at most the share `1/(2X)` of `p`. -/
theorem C108_value (p : K) (h0 : 0 < p) (h1 : p ≤ 1) :
    ∃ X : ℤ, oneIn p 0 = .ok (.int X) ∧ 1 ≤ X ∧ IsNearestInt (1 / p) X ∧
      |1 / (X : K) - p| ≤ p * (1 / (2 * X)) := by
  have hn := roundEven_nearest (1 / p)
  have hge : (1 : K) ≤ 1 / p := by rw [le_div_iff₀ h0]; linarith
  have h2 := abs_le.1 hn.1
  have hX : 1 ≤ roundEven (1 / p) := by
    have : (0 : K) < roundEven (1 / p) := by linarith
    have : (0 : ℤ) < roundEven (1 / p) := by exact_mod_cast this
    omega
  refine ⟨_, oneIn_zero p h0.ne', hX, hn, ?_⟩
  have hXp : (0 : K) < roundEven (1 / p) := by
    have : (1 : K) ≤ roundEven (1 / p) := by exact_mod_cast hX
    linarith
  generalize roundEven (1 / p) = X at *
  have e : 1 / (X : K) - p = p / X * (1 / p - X) := by field_simp
  rw [e, abs_mul, abs_of_pos (div_pos h0 hXp), abs_sub_comm]
  calc p / X * |(X : K) - 1 / p| ≤ p / X * (1 / 2) :=
        mul_le_mul_of_nonneg_left hn.1 (div_pos h0 hXp).le
    _ = p * (1 / (2 * X)) := by field_simp

/-- **C108.** The probability `1/m` is "1 in m", exactly. -/
theorem C108_exact (m : ℕ) (hm : 1 ≤ m) : oneIn (1 / (m : K)) 0 = .ok (.int m) := by
  have h : (0 : K) < m := by exact_mod_cast hm
  rw [oneIn_zero _ (by positivity), one_div_one_div]
  exact congrArg (fun z => Except.ok (Scalar.int z)) (by exact_mod_cast roundEven_intCast (K := K) (m : ℤ))

/-- **C108.** A larger probability never gets a larger number. -/
theorem C108_monotone (p q : K) (hp : 0 < p) (hpq : p ≤ q) :
    ∃ X Y : ℤ, oneIn p 0 = .ok (.int X) ∧ oneIn q 0 = .ok (.int Y) ∧ Y ≤ X := by
  refine ⟨_, _, oneIn_zero p hp.ne', oneIn_zero q (hp.trans_le hpq).ne', ?_⟩
  have h : 1 / q ≤ 1 / p := one_div_le_one_div_of_le hp hpq
  have n1 := roundEven_nearest (1 / q)
  have n2 := roundEven_nearest (1 / p)
  generalize roundEven (1 / q) = Y at *
  generalize roundEven (1 / p) = X at *
  by_contra hc
  have hc1 : X + 1 ≤ Y := by omega
  have hc2 : (X : K) + 1 ≤ Y := by exact_mod_cast hc1
  have b1 := abs_le.1 n1.1
  have b2 := abs_le.1 n2.1
  have e1 : (Y : K) - 1 / q = 1 / 2 := by linarith
  have e2 : (X : K) - 1 / p = -(1 / 2) := by linarith
  have e3 : Y = X + 1 := by
    have : (Y : K) ≤ X + 1 := by linarith
    have : Y ≤ X + 1 := by exact_mod_cast this
    omega
  have v1 := n1.2 (by rw [e1, abs_of_pos (by norm_num)])
  have v2 := n2.2 (by rw [e2, abs_neg, abs_of_pos (by norm_num)])
  rw [e3, Int.even_add_one] at v1
  exact v1 v2

/-- **C108.** Rounded to `k` digits it is a multiple of `10^(-k)` at most half of that away from `1/p`. -/
theorem C108_digits (p : K) (hp : p ≠ 0) (k : ℤ) :
    ∃ w X, oneIn p k = .ok w ∧ w.val? = some X ∧ IsRounded k (1 / p) X ∧ (k ≤ 0 → ∃ z, w = .int z) := by
  obtain ⟨w, r, h1, h2, h3, h4⟩ := roundScalar_rounded k (.flt (1 / p)) (1 / p) rfl
  exact ⟨w, r, by simpa [oneIn, hp] using h1, h2, h3, h4⟩

omit [IsStrictOrderedRing K] in
/-- **C108.** The probability 0 is refused. -/
theorem C108_zero (k : ℤ) : oneIn (0 : K) k = .error .zeroDivisionError := by simp [oneIn]

/-- How a reader groups digits: one to three, then groups of three with a comma before each. -/
def IsGrouped (digits text : List Char) : Prop :=
  ∃ (first : List Char) (groups : List (List Char)), 1 ≤ first.length ∧ first.length ≤ 3 ∧
    (∀ g ∈ groups, g.length = 3) ∧ digits = first ++ groups.flatten ∧
    text = first ++ groups.flatMap (',' :: ·)

theorem commas_grouped (l : List Char) : l ≠ [] → IsGrouped l.reverse (commas l).reverse := by
  induction l using commas.induct with
  | case1 a b c d rest ih =>
    intro _
    obtain ⟨first, groups, h1, h2, h3, h4, h5⟩ := ih (by simp)
    refine ⟨first, groups ++ [[c, b, a]], h1, h2, ?_, ?_, ?_⟩
    · intro g hg
      rcases List.mem_append.1 hg with hg | hg
      · exact h3 g hg
      · rw [List.mem_singleton.1 hg]; rfl
    · have : (a :: b :: c :: d :: rest).reverse = (d :: rest).reverse ++ [c, b, a] := by simp
      rw [this, h4]
      simp
    · rw [commas]
      have : (a :: b :: c :: ',' :: commas (d :: rest)).reverse
          = (commas (d :: rest)).reverse ++ [',', c, b, a] := by simp
      rw [this, h5]
      simp
  | case2 l hl =>
    intro hne
    have hc : commas l = l := by
      rcases l with _ | ⟨a, _ | ⟨b, _ | ⟨c, _ | ⟨d, rest⟩⟩⟩⟩
      · rfl
      · rfl
      · rfl
      · rfl
      · exact absurd rfl (hl a b c d rest)
    refine ⟨l.reverse, [], ?_, ?_, by simp, by simp, by simp [hc]⟩
    · rw [List.length_reverse]
      exact List.length_pos_of_ne_nil hne
    · rw [List.length_reverse]
      rcases l with _ | ⟨a, _ | ⟨b, _ | ⟨c, _ | ⟨d, rest⟩⟩⟩⟩
      · simp
      · simp
      · simp
      · simp
      · exact absurd rfl (hl a b c d rest)

/-- **C108.** The text of `one_in(p)` is `1 in ` followed by the decimal digits of the number above, in groups
of three. -/
theorem C108_text (p : K) (h0 : 0 < p) (h1 : p ≤ 1) :
    ∃ (X : ℕ) (t : List Char), oneIn p 0 = .ok (.int X) ∧ oneInText p 0 = .ok ("1 in ".toList ++ t) ∧
      IsGrouped (Nat.toDigits 10 X) t := by
  obtain ⟨X, hX, h2, -⟩ := C108_value p h0 h1
  obtain ⟨m, rfl⟩ : ∃ m : ℕ, X = m := ⟨X.toNat, by omega⟩
  refine ⟨m, thousands m, hX, ?_, ?_⟩
  · unfold oneInText
    rw [hX]
    rfl
  · have h := commas_grouped (Nat.toDigits 10 m).reverse (by simp)
    rw [List.reverse_reverse] at h
    have : thousands (m : ℤ) = (commas (Nat.toDigits 10 m).reverse).reverse := by
      simp [thousands]
    rw [this]
    exact h

/-- `one_in(1/1234567)` is `1 in 1,234,567`. -/
example : oneInText (1 / 1234567 : ℚ) 0 = .ok "1 in 1,234,567".toList := by decide +kernel

/-- Just above two thirds, "1 in 1" is as close as it gets. -/
example : oneIn (67 / 100 : ℚ) 0 = .ok (.int 1) ∧ oneIn (2 / 3 : ℚ) 0 = .ok (.int 2) := by decide +kernel

end Verif
