import Verif.Lemmas.Float
import Verif.Model.Rounded
import Mathlib.Algebra.Order.Ring.Pow
import Mathlib.Algebra.BigOperators.Group.List.Basic
import Mathlib.Algebra.Order.BigOperators.Group.List
import Mathlib.Tactic.Bound

/-! # Sums with rounding -/

namespace Verif

variable {K : Type} [Field K] [LinearOrder K] [IsStrictOrderedRing K] [FloorRing K] {p : ℕ} {fl : K → K}

theorem pow_up_le {u : K} (hu : 0 ≤ u) {n : ℕ} (h : n * u ≤ 1 / 2) : (1 + u) ^ n ≤ 1 + 2 * (n * u) := by
  rcases Nat.eq_zero_or_pos n with rfl | hn
  · simp
  have hn' : (1 : K) ≤ n := by exact_mod_cast hn
  have hu1 : u ≤ 1 := by nlinarith
  have h1 : 1 - n * u ≤ (1 - u) ^ n := by
    have := one_add_mul_le_pow (a := -u) (by linarith) n
    have h2 : (1 : K) + n * (-u) = 1 - n * u := by ring
    rw [h2] at this
    simpa [sub_eq_add_neg] using this
  have h2 : (1 + u) ^ n * (1 - u) ^ n ≤ 1 := by
    rw [← mul_pow]
    exact pow_le_one₀ (by nlinarith) (by nlinarith)
  have h3 : (0 : K) ≤ (1 + u) ^ n := by positivity
  have h4 : (1 + u) ^ n * (1 - n * u) ≤ 1 := (mul_le_mul_of_nonneg_left h1 h3).trans h2
  have h5 : (0 : K) ≤ n * u := by positivity
  by_contra hc
  push Not at hc
  have h6 : (1 + 2 * (n * u)) * (1 - n * u) < (1 + u) ^ n * (1 - n * u) :=
    mul_lt_mul_of_pos_right hc (by linarith)
  nlinarith

theorem pow_down_ge {u : K} (hu : u ≤ 1) (n : ℕ) : 1 - n * u ≤ (1 - u) ^ n := by
  have := one_add_mul_le_pow (a := -u) (by linarith) n
  have h2 : (1 : K) + n * (-u) = 1 - n * u := by ring
  rw [h2] at this
  simpa [sub_eq_add_neg] using this

/-- The loop of `sum` from `acc` on. -/
theorem foldFl_bounds (h : RoundsTo p fl) (hp : 1 ≤ p) (xs : List K) (hx : ∀ x ∈ xs, 0 ≤ x) (acc : K)
    (ha : 0 ≤ acc) :
    (1 - ulp p) ^ xs.length * (acc + xs.sum) ≤ xs.foldl (fun a x => fl (a + x)) acc ∧
    xs.foldl (fun a x => fl (a + x)) acc ≤ (1 + ulp p) ^ xs.length * (acc + xs.sum) := by
  induction xs generalizing acc with
  | nil => simp
  | cons x xs ih =>
    have hx0 := hx x (by simp)
    have hs : 0 ≤ xs.sum := List.sum_nonneg fun y hy => hx y (by simp [hy])
    have hax : 0 ≤ acc + x := add_nonneg ha hx0
    have hu := ulp_pos (K := K) p
    have hu2 := ulp_le_half (K := K) hp
    obtain ⟨h1, h2⟩ := ih (fun y hy => hx y (by simp [hy])) (fl (acc + x)) (h.nonneg hax)
    have lo := h.ge_mul hax
    have up := h.le_mul hax
    simp only [List.foldl_cons, List.length_cons, List.sum_cons]
    constructor
    · refine le_trans ?_ h1
      rw [pow_succ, mul_assoc]
      refine mul_le_mul_of_nonneg_left ?_ (pow_nonneg (by linarith) _)
      nlinarith
    · refine h2.trans ?_
      rw [pow_succ, mul_assoc]
      refine mul_le_mul_of_nonneg_left ?_ (pow_nonneg (by linarith) _)
      nlinarith

theorem sumFl_bounds (h : RoundsTo p fl) (hp : 1 ≤ p) {xs : List K} (hx : ∀ x ∈ xs, 0 ≤ x) {n : ℕ}
    (hlen : xs.length ≤ n) (hn : n * ulp p ≤ (1 / 2 : K)) :
    (1 - n * ulp p) * xs.sum ≤ sumFl fl xs ∧ sumFl fl xs ≤ (1 + 2 * (n * ulp p)) * xs.sum := by
  obtain ⟨h1, h2⟩ := foldFl_bounds h hp xs hx 0 le_rfl
  rw [zero_add] at h1 h2
  have hs : 0 ≤ xs.sum := List.sum_nonneg hx
  have hu := ulp_pos (K := K) p
  have hu2 := ulp_le_half (K := K) hp
  have hl : (xs.length : K) ≤ n := by exact_mod_cast hlen
  have hl' : (xs.length : K) * ulp p ≤ n * ulp p := mul_le_mul_of_nonneg_right hl hu.le
  constructor
  · refine le_trans (mul_le_mul_of_nonneg_right ?_ hs) h1
    have := pow_down_ge (u := (ulp p : K)) (by linarith) xs.length
    linarith
  · refine h2.trans (mul_le_mul_of_nonneg_right ?_ hs)
    have := pow_up_le hu.le (n := xs.length) (by linarith)
    linarith

theorem foldFl_float (h : RoundsTo p fl) (xs : List K) (acc : K) (ha : IsFloat p acc) :
    IsFloat p (xs.foldl (fun a x => fl (a + x)) acc) := by
  induction xs generalizing acc with
  | nil => exact ha
  | cons x xs ih => exact ih _ (h.float _)

theorem sumFl_float (h : RoundsTo p fl) (xs : List K) : IsFloat p (sumFl fl xs) :=
  foldFl_float h xs 0 (isFloat_zero p)

theorem foldFl_ge (h : RoundsTo p fl) (xs : List K) (hx : ∀ x ∈ xs, 0 ≤ x) (acc : K)
    (ha : IsFloat p acc) : acc ≤ xs.foldl (fun a x => fl (a + x)) acc := by
  induction xs generalizing acc with
  | nil => exact le_rfl
  | cons x xs ih =>
    have hx0 := hx x (by simp)
    exact (h.le_of_ge ha (by linarith)).trans (ih (fun y hy => hx y (by simp [hy])) _ (h.float _))

theorem foldFl_ge_mem (h : RoundsTo p fl) (xs : List K) (hx : ∀ x ∈ xs, 0 ≤ x ∧ IsFloat p x) (acc : K)
    (ha : 0 ≤ acc) {y : K} (hy : y ∈ xs) : y ≤ xs.foldl (fun a x => fl (a + x)) acc := by
  induction xs generalizing acc with
  | nil => simp at hy
  | cons x xs ih =>
    have hx0 := hx x (by simp)
    rcases List.mem_cons.1 hy with rfl | hy
    · exact (h.le_of_ge hx0.2 (by linarith)).trans
        (foldFl_ge h xs (fun z hz => (hx z (by simp [hz])).1) _ (h.float _))
    · exact ih (fun z hz => hx z (by simp [hz])) _ (h.nonneg (by linarith)) hy

/-- No summand exceeds the sum, even after rounding. -/
theorem sumFl_ge_mem (h : RoundsTo p fl) {xs : List K} (hx : ∀ x ∈ xs, 0 ≤ x ∧ IsFloat p x) {y : K}
    (hy : y ∈ xs) : y ≤ sumFl fl xs := foldFl_ge_mem h xs hx 0 le_rfl hy

theorem cumsumFlFrom_length (ws : List K) (acc : K) : (cumsumFlFrom fl acc ws).length = ws.length := by
  induction ws generalizing acc with
  | nil => rfl
  | cons w ws ih => simp [cumsumFlFrom, ih]

theorem cumsumFl_length (ws : List K) : (cumsumFl fl ws).length = ws.length := cumsumFlFrom_length ws 0

theorem cumsumFlFrom_getElem? (ws : List K) (acc : K) (i : ℕ) (hi : i < ws.length) :
    (cumsumFlFrom fl acc ws)[i]? = some ((ws.take (i + 1)).foldl (fun a x => fl (a + x)) acc) := by
  induction ws generalizing acc i with
  | nil => simp at hi
  | cons w ws ih =>
    cases i with
    | zero => simp [cumsumFlFrom]
    | succ i =>
      simp only [cumsumFlFrom, List.getElem?_cons_succ, List.take_succ_cons, List.foldl_cons]
      exact ih _ _ (by simpa using hi)

/-- The `i`-th entry of `np.cumsum` is the rounded sum of the first `i + 1` weights. -/
theorem cumsumFl_getElem? (ws : List K) {i : ℕ} (hi : i < ws.length) :
    (cumsumFl fl ws)[i]? = some (sumFl fl (ws.take (i + 1))) := cumsumFlFrom_getElem? ws 0 i hi

theorem cumsumFlFrom_sorted (h : RoundsTo p fl) (ws : List K) (hw : ∀ w ∈ ws, 0 ≤ w) (acc : K)
    (ha : IsFloat p acc) : (∀ c ∈ cumsumFlFrom fl acc ws, acc ≤ c) ∧
    (cumsumFlFrom fl acc ws).Pairwise (· ≤ ·) := by
  induction ws generalizing acc with
  | nil => simp [cumsumFlFrom]
  | cons w ws ih =>
    have hw0 := hw w (by simp)
    obtain ⟨h1, h2⟩ := ih (fun v hv => hw v (by simp [hv])) (fl (acc + w)) (h.float _)
    have h3 : acc ≤ fl (acc + w) := h.le_of_ge ha (by linarith)
    refine ⟨?_, ?_⟩
    · intro c hc
      rcases List.mem_cons.1 hc with rfl | hc
      · exact h3
      · exact h3.trans (h1 c hc)
    · exact List.pairwise_cons.2 ⟨h1, h2⟩

theorem cumsumFl_sorted (h : RoundsTo p fl) {ws : List K} (hw : ∀ w ∈ ws, 0 ≤ w) :
    (cumsumFl fl ws).Pairwise (· ≤ ·) := (cumsumFlFrom_sorted h ws hw 0 (isFloat_zero p)).2

/-- A number close to a floating-point number rounds to it. -/
theorem RoundsTo.eq_of_close (h : RoundsTo p fl) {x : K} {m e : ℤ} (hm : 2 ^ (p - 1) < m)
    (hm' : m ≤ 2 ^ p) (hp : 1 ≤ p) (hx : |x - m * (2 : K) ^ e| < 2 ^ e / 2) : fl x = m * (2 : K) ^ e := by
  have h2 : (0 : K) < 2 ^ e := by positivity
  have hm0 : 0 < m := lt_trans (by positivity) hm
  have hn := h.nearest x (m * (2 : K) ^ e) ⟨m, e, by rw [abs_of_pos hm0]; exact hm', rfl⟩
  rw [abs_sub_comm (_ * _)] at hn
  have hz : |fl x - m * (2 : K) ^ e| < 2 ^ e := by
    have := abs_sub_le (fl x) x (m * (2 : K) ^ e)
    linarith
  obtain ⟨m', e', hm1, hfl⟩ := h.float x
  have hm2 : (2 : K) ^ (p - 1) + 1 ≤ m := by exact_mod_cast hm
  have hlow : (2 : K) ^ ((p : ℤ) - 1 + e) < |fl x| := by
    have h3 : (2 : K) ^ ((p : ℤ) - 1 + e) = 2 ^ (p - 1) * 2 ^ e := by
      rw [zpow_add₀ two_ne_zero, ← zpow_natCast]
      congr 2
      omega
    rw [h3]
    have h4 := (abs_lt.1 hz).1
    have h5 := le_abs_self (fl x)
    have h6 : ((2 : K) ^ (p - 1) + 1) * 2 ^ e ≤ m * 2 ^ e := mul_le_mul_of_nonneg_right hm2 h2.le
    linarith
  have hup : |fl x| ≤ (2 : K) ^ ((p : ℤ) + e') := by
    rw [hfl, abs_mul, abs_of_pos (show (0 : K) < 2 ^ e' by positivity), zpow_add₀ two_ne_zero,
      zpow_natCast]
    exact mul_le_mul_of_nonneg_right (by exact_mod_cast hm1) (by positivity)
  have hee : e ≤ e' := by
    have := (zpow_lt_zpow_iff_right₀ (one_lt_two (α := K))).1 (hlow.trans_le hup)
    omega
  obtain ⟨k, hk⟩ := Int.eq_ofNat_of_zero_le (sub_nonneg.2 hee)
  have h5 : fl x = ((m' * 2 ^ k : ℤ) : K) * 2 ^ e := by
    rw [hfl]
    push_cast
    rw [mul_assoc, ← zpow_natCast (2 : K) k, ← zpow_add₀ two_ne_zero]
    congr 2
    omega
  rw [h5, ← sub_mul, abs_mul, abs_of_pos h2] at hz
  have h6 : |((m' * 2 ^ k : ℤ) : K) - m| < 1 := by
    by_contra hc
    push Not at hc
    nlinarith
  have h7 : |m' * 2 ^ k - m| < 1 := by exact_mod_cast h6
  have h8 : m' * 2 ^ k = m := by
    have := abs_lt.1 h7
    omega
  rw [h5, h8]

end Verif
