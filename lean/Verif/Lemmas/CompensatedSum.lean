import Verif.Model.CompensatedSum
import Verif.Props.RoundedDists

/-!
# What an addition loses can be computed exactly
-/

namespace Verif

variable {K : Type} [Field K] [LinearOrder K] [IsStrictOrderedRing K] [FloorRing K] {p : ℕ} {fl : K → K}

omit [LinearOrder K] [IsStrictOrderedRing K] [FloorRing K] in
theorem grid_of_le [CharZero K] {m e e' : ℤ} (he : e ≤ e') : ∃ k : ℤ, (m : K) * 2 ^ e' = k * 2 ^ e := by
  obtain ⟨n, hn⟩ := Int.eq_ofNat_of_zero_le (sub_nonneg.2 he)
  refine ⟨m * 2 ^ n, ?_⟩
  rw [show e' = n + e by omega, zpow_add₀ two_ne_zero, zpow_natCast]
  push_cast
  ring

omit [FloorRing K] in
/-- A multiple of a power of two that is no larger than a number of `p` digits on the same grid has `p` digits. -/
theorem isFloat_of_grid {j m e : ℤ} (hm : m ≤ 2 ^ p) (h : |(j : K) * 2 ^ e| ≤ m * 2 ^ e) :
    IsFloat p ((j : K) * 2 ^ e) := by
  refine ⟨j, e, ?_, rfl⟩
  have h2 : (0 : K) < 2 ^ e := by positivity
  rw [abs_mul, abs_of_pos h2] at h
  have h3 : |(j : K)| ≤ m := le_of_mul_le_mul_right h h2
  exact le_trans (by exact_mod_cast h3) hm

/-- The larger number minus the rounded sum, and then plus the smaller one, are exact: they give what the addition lost. -/
theorem RoundsTo.lost (h : RoundsTo p fl) (hp : 1 ≤ p) {a b : K} (ha : IsFloat p a) (hb : IsFloat p b) (hb0 : 0 ≤ b)
    (hab : b ≤ a) : fl (fl (a - fl (a + b)) + b) = a + b - fl (a + b) := by
  rcases hb0.eq_or_lt with rfl | hb1
  · simp only [add_zero, h.exact ha, sub_self, h.zero]
  have ha1 : 0 < a := hb1.trans_le hab
  have hta : a ≤ fl (a + b) := h.le_of_ge ha (by linarith)
  have ht2 : fl (a + b) ≤ 2 * a := by
    refine h.le_of_le ?_ (by linarith)
    have := isFloat_mul_zpow (K := K) (p := p) ha 1
    rw [zpow_one, mul_comm] at this
    exact this
  have hnear : |fl (a + b) - (a + b)| ≤ b := by
    have := h.nearest (a + b) a ha
    rwa [show a - (a + b) = -b by ring, abs_neg, abs_of_pos hb1] at this
  have htf := h.float (a + b)
  set t := fl (a + b) with ht
  obtain ⟨m, e, hm1, hm2, rfl⟩ := isFloat_normal hp ha ha1
  obtain ⟨mb, eb, hb3, hb4, rfl⟩ := isFloat_normal hp hb hb1
  obtain ⟨mt, et, ht3, ht4, hteq⟩ := isFloat_normal hp htf (ha1.trans_le hta)
  -- the rounded sum is on the grid of the larger number
  have hgrid : ∃ k : ℤ, t = k * (2 : K) ^ e := by
    rcases le_or_gt e et with he | he
    · rw [hteq]
      exact grid_of_le he
    · refine ⟨m, le_antisymm ?_ hta⟩
      rw [hteq]
      have h2 : (2 : K) ^ (p - 1) * 2 ^ e ≤ m * 2 ^ e :=
        mul_le_mul_of_nonneg_right (by exact_mod_cast hm1) (by positivity)
      have h3 : (mt : K) * 2 ^ et ≤ 2 ^ p * 2 ^ et := mul_le_mul_of_nonneg_right (by exact_mod_cast ht4) (by positivity)
      have h4 : (2 : K) ^ et ≤ 2 ^ (e - 1) := zpow_le_zpow_right₀ (by norm_num) (by omega)
      have h5 : (2 : K) ^ p * 2 ^ et ≤ 2 ^ p * 2 ^ (e - 1) := mul_le_mul_of_nonneg_left h4 (by positivity)
      have h6 : (2 : K) ^ p * 2 ^ (e - 1) = 2 ^ (p - 1) * 2 ^ e := by
        obtain ⟨q, rfl⟩ : ∃ q, p = q + 1 := ⟨p - 1, by omega⟩
        rw [Nat.add_sub_cancel, pow_succ, zpow_sub_one₀ two_ne_zero]
        field_simp
      linarith
  obtain ⟨k, hk⟩ := hgrid
  have hf1 : IsFloat p ((m : K) * 2 ^ e - t) := by
    have e1 : (m : K) * 2 ^ e - t = ((m - k : ℤ) : K) * 2 ^ e := by
      rw [hk]; push_cast; ring
    rw [e1]
    refine isFloat_of_grid hm2 ?_
    rw [← e1, abs_le]
    constructor <;> linarith
  rw [h.exact hf1]
  rw [show (m : K) * 2 ^ e - t + mb * 2 ^ eb = m * 2 ^ e + mb * 2 ^ eb - t by ring]
  refine h.exact ?_
  rw [abs_sub_comm] at hnear
  rcases le_or_gt eb e with he | he
  · obtain ⟨k1, hk1⟩ := grid_of_le (K := K) (m := m) he
    obtain ⟨k2, hk2⟩ := grid_of_le (K := K) (m := k) he
    have e1 : (m : K) * 2 ^ e + mb * 2 ^ eb - t = ((k1 + mb - k2 : ℤ) : K) * 2 ^ eb := by
      rw [hk, hk1, hk2]; push_cast; ring
    rw [e1]
    refine isFloat_of_grid hb4 ?_
    rw [← e1]
    exact hnear
  · obtain ⟨k1, hk1⟩ := grid_of_le (K := K) (m := mb) he.le
    have e1 : (m : K) * 2 ^ e + mb * 2 ^ eb - t = ((m + k1 - k : ℤ) : K) * 2 ^ e := by
      rw [hk, hk1]; push_cast; ring
    rw [e1]
    refine isFloat_of_grid hm2 ?_
    rw [← e1]
    exact hnear.trans hab

/-- One round of the loop, on numbers that are not negative: the digits lost are added to `c` with one rounding. -/
theorem compStep_eq (h : RoundsTo p fl) (hp : 1 ≤ p) {s c x : K} (hs : IsFloat p s) (hs0 : 0 ≤ s) (hx : IsFloat p x)
    (hx0 : 0 ≤ x) : compStep fl (s, c) x = (fl (s + x), fl (c + (s + x - fl (s + x)))) := by
  unfold compStep
  simp only [abs_of_nonneg hs0, abs_of_nonneg hx0]
  split_ifs with hc
  · rw [h.lost hp hs hx hx0 hc]
  · have := h.lost hp hx hs hs0 (not_le.1 hc).le
    rw [add_comm x s] at this
    rw [this]

/-- The running total plus the lost digits stay close to the exact sum. -/
theorem compFold (h : RoundsTo p fl) (hp : 1 ≤ p) {T : K} {N : ℕ} (hN : N * ulp p ≤ (1 / 2 : K)) :
    ∀ (xs : List K) (i : ℕ) (P s c : K), (∀ x ∈ xs, 0 ≤ x ∧ IsFloat p x) → 0 ≤ P → P + xs.sum = T → i + xs.length = N →
      IsFloat p s → 0 ≤ s → |P - s| ≤ 2 * (i * ulp p) * T → |c - (P - s)| ≤ 4 * (i * ulp p) ^ 2 * T →
      (xs.foldl (compStep fl) (s, c)).1 ≥ 0 ∧ IsFloat p (xs.foldl (compStep fl) (s, c)).1 ∧
      |(xs.foldl (compStep fl) (s, c)).2 - (T - (xs.foldl (compStep fl) (s, c)).1)| ≤ 4 * (N * ulp p) ^ 2 * T := by
  intro xs
  induction xs with
  | nil =>
    intro i P s c _ _ hT hi hs hs0 _ hc
    simp only [List.sum_nil, add_zero, List.length_nil] at hT hi
    subst hT hi
    exact ⟨hs0, hs, hc⟩
  | cons x xs ih =>
    intro i P s c hx hP hT hi hs hs0 h1 h2
    obtain ⟨hx0, hxf⟩ := hx x (by simp)
    have hrest : 0 ≤ xs.sum := List.sum_nonneg fun y hy => (hx y (by simp [hy])).1
    rw [List.sum_cons] at hT
    rw [List.length_cons] at hi
    have hT0 : 0 ≤ T := by linarith
    have hu := ulp_pos (K := K) p
    have hiN : (i : K) * ulp p ≤ 1 / 2 := by
      refine le_trans (mul_le_mul_of_nonneg_right ?_ hu.le) hN
      exact_mod_cast (by omega : i ≤ N)
    rw [List.foldl_cons, compStep_eq h hp hs hs0 hxf hx0]
    set v : K := i * ulp p with hv
    have hv0 : 0 ≤ v := mul_nonneg (Nat.cast_nonneg _) hu.le
    have hv1 : ((i + 1 : ℕ) : K) * ulp p = v + ulp p := by push_cast; ring
    have hsx : s + x ≤ 2 * T := by
      have := (abs_le.1 h1).1
      nlinarith
    have herr := h.err (s + x)
    rw [abs_of_nonneg (by linarith : 0 ≤ s + x)] at herr
    set t := fl (s + x) with ht
    have he : |s + x - t| ≤ 2 * ulp p * T := by
      rw [abs_sub_comm]
      nlinarith
    have hcerr := h.err (c + (s + x - t))
    have hc0 : |c + (s + x - t)| ≤ (4 * v + 2 * ulp p) * T := by
      have e1 : |c| ≤ |c - (P - s)| + |P - s| := by
        have := abs_add_le (c - (P - s)) (P - s)
        rwa [sub_add_cancel] at this
      have e2 := abs_add_le c (s + x - t)
      have e3 : 4 * v ^ 2 * T ≤ 2 * v * T := by
        refine mul_le_mul_of_nonneg_right ?_ hT0
        nlinarith
      nlinarith
    refine ih (i + 1) (P + x) t _ (fun y hy => hx y (by simp [hy])) (by linarith) (by linarith) (by omega)
      (h.float _) (h.nonneg (by linarith)) ?_ ?_
    · rw [hv1]
      have := abs_add_le (P - s) (s + x - t)
      rw [show P - s + (s + x - t) = P + x - t by ring] at this
      nlinarith
    · rw [hv1]
      set r := fl (c + (s + x - t))
      have e1 := abs_add_le (r - (c + (s + x - t))) (c - (P - s))
      rw [show r - (c + (s + x - t)) + (c - (P - s)) = r - (P + x - t) by ring] at e1
      have e2 : ulp p * |c + (s + x - t)| ≤ ulp p * ((4 * v + 2 * ulp p) * T) := mul_le_mul_of_nonneg_left hc0 hu.le
      have e3 : 0 ≤ v * ulp p * T := mul_nonneg (mul_nonneg hv0 hu.le) hT0
      have e4 : 0 ≤ ulp p ^ 2 * T := mul_nonneg (sq_nonneg _) hT0
      nlinarith

/-- The sum is the rounding of a number within `4 (n 2^(-p))²` of the exact sum. -/
theorem sumComp_eq (h : RoundsTo p fl) (hp : 1 ≤ p) {xs : List K} (hx : ∀ x ∈ xs, 0 ≤ x ∧ IsFloat p x)
    (hn : xs.length * ulp p ≤ (1 / 2 : K)) :
    ∃ y, sumComp fl xs = fl y ∧ |y - xs.sum| ≤ 4 * (xs.length * ulp p) ^ 2 * xs.sum := by
  obtain ⟨-, h2, h3⟩ := compFold h hp hn xs 0 0 0 0 hx le_rfl (zero_add _) (zero_add _) (isFloat_zero p) le_rfl
    (by simp) (by simp)
  refine ⟨(xs.foldl (compStep fl) (0, 0)).1 + (xs.foldl (compStep fl) (0, 0)).2, ?_, ?_⟩
  · unfold sumComp
    simp only
    split_ifs with hc
    · rw [hc, add_zero, h.exact h2]
    · rfl
  · rw [show ∀ a b c : K, a + b - c = b - (c - a) by intros; ring]
    exact h3

end Verif
