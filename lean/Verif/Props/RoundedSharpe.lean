import Verif.Model.RoundedSharpe
import Verif.Model.Forecast
import Verif.Props.RoundedMean
import Verif.Props.RoundedLognorm

/-!
# Standard deviations and Sharpe ratios in floating-point arithmetic (C158)

`fl` is any correct rounding to `p` binary digits (53 for a Python float); `order` is any order of additions.
-/

namespace Verif

variable {p : ℕ} {fl : ℝ → ℝ} {order : List ℝ → SumOrder ℝ}

theorem meanR_nonneg {xs : List ℝ} (h : ∀ x ∈ xs, 0 ≤ x) : 0 ≤ meanR xs :=
  div_nonneg (List.sum_nonneg h) (Nat.cast_nonneg _)

/-- Means of lists that are close, entry by entry, to non-negative numbers. -/
theorem meanR_close {ι : Type} (l : List ι) (f g : ι → ℝ) {c : ℝ} (h : ∀ i ∈ l, |f i - g i| ≤ c * g i) :
    |meanR (l.map f) - meanR (l.map g)| ≤ c * meanR (l.map g) := by
  have key : |(l.map f).sum - (l.map g).sum| ≤ c * (l.map g).sum := by
    induction l with
    | nil => simp
    | cons a l ih =>
      simp only [List.map_cons, List.sum_cons]
      exact rel_add (h a (by simp)) (ih fun i hi => h i (by simp [hi]))
  unfold meanR
  rw [List.length_map, List.length_map, ← sub_div, abs_div, Nat.abs_cast, ← mul_div_assoc]
  exact div_le_div_of_nonneg_right key (Nat.cast_nonneg _)

/-- The mean square deviation from any number. -/
theorem meanR_sq_dev {xs : List ℝ} (hne : xs ≠ []) (m : ℝ) :
    meanR (xs.map fun x => (x - m) ^ 2) = stdR xs ^ 2 + (m - meanR xs) ^ 2 := by
  have hn : (xs.length : ℝ) ≠ 0 := by
    have := List.length_pos_iff.2 hne
    exact_mod_cast this.ne'
  have hs : ∀ a : ℝ, (xs.map fun x => (x - a) ^ 2).sum
      = (xs.map fun x => x ^ 2).sum - 2 * a * xs.sum + xs.length * a ^ 2 := by
    intro a
    clear hne hn
    induction xs with
    | nil => simp
    | cons x xs ih => simp only [List.map_cons, List.sum_cons, ih, List.length_cons]; push_cast; ring
  have h0 : 0 ≤ meanR (xs.map fun x => (x - meanR xs) ^ 2) :=
    meanR_nonneg (by intro x hx; obtain ⟨y, -, rfl⟩ := List.mem_map.1 hx; positivity)
  unfold stdR
  rw [Real.sq_sqrt h0]
  have e : ∀ a, meanR (xs.map fun x => (x - a) ^ 2)
      = ((xs.map fun x => x ^ 2).sum - 2 * a * xs.sum + xs.length * a ^ 2) / xs.length := by
    intro a
    unfold meanR
    rw [hs, List.length_map]
  rw [e, e]
  have hm : xs.sum = xs.length * meanR xs := by unfold meanR; field_simp
  rw [hm]
  field_simp
  ring

theorem meanR_zero {xs : List ℝ} (hne : xs ≠ []) (h0 : ∀ x ∈ xs, 0 ≤ x) (h : meanR xs = 0) : ∀ x ∈ xs, x = 0 := by
  have hn : (xs.length : ℝ) ≠ 0 := by
    have := List.length_pos_iff.2 hne
    exact_mod_cast this.ne'
  have hs : xs.sum = 0 := by
    unfold meanR at h
    rcases div_eq_zero_iff.1 h with h | h
    · exact h
    · exact absurd h hn
  intro x hx
  have := List.single_le_sum h0 x hx
  exact le_antisymm (by linarith) (h0 x hx)

/-- The rounded square of a rounded number. -/
theorem square_close (h : RoundsTo p fl) (d : ℝ) :
    |fl (fl d * fl d) - d ^ 2| ≤ ((1 + ulp p) ^ 3 - 1) * d ^ 2 := by
  have hu := ulp_pos (K := ℝ) p
  rcases eq_or_ne d 0 with rfl | hd
  · simp [h.zero]
  have h1 : |fl d * fl d - d ^ 2| ≤ (2 * ulp p + ulp p ^ 2) * d ^ 2 := by
    have e : fl d * fl d - d ^ 2 = (fl d - d) * (2 * d + (fl d - d)) := by ring
    have he := h.err d
    rw [e, abs_mul]
    have h2 : |2 * d + (fl d - d)| ≤ (2 + ulp p) * |d| := by
      refine (abs_add_le _ _).trans ?_
      rw [abs_mul, abs_two]
      linarith
    calc |fl d - d| * |2 * d + (fl d - d)| ≤ (ulp p * |d|) * ((2 + ulp p) * |d|) :=
          mul_le_mul he h2 (abs_nonneg _) (by positivity)
      _ = (2 * ulp p + ulp p ^ 2) * |d| ^ 2 := by ring
      _ = _ := by rw [sq_abs]
  refine (rel_round h (by positivity) h1).trans (le_of_eq ?_)
  ring

/-- **C158**: `np.std` is, up to a relative error of `length + 4` roundings, the root of the variance plus the squared
error of the computed mean. -/
theorem C158_std (h : RoundsTo p fl) (ho : AddsUp order) {xs : List ℝ} (hne : xs ≠ []) :
    |npStdFl fl order xs - Real.sqrt (stdR xs ^ 2 + (npMeanFl fl (order xs) - meanR xs) ^ 2)|
      ≤ ((1 + ulp p) ^ (xs.length + 4) - 1) *
        Real.sqrt (stdR xs ^ 2 + (npMeanFl fl (order xs) - meanR xs) ^ 2) := by
  have hu := ulp_pos (K := ℝ) p
  rw [← meanR_sq_dev hne]
  unfold npStdFl
  simp only
  set m := npMeanFl fl (order xs)
  set sq := xs.map fun x => fl (fl (x - m) * fl (x - m)) with hsq
  set V := meanR (xs.map fun x => (x - m) ^ 2) with hV
  have hsne : sq ≠ [] := by simpa [hsq] using hne
  have hlen : sq.length = xs.length := by simp [hsq]
  have hsq0 : ∀ y ∈ sq, 0 ≤ y := by
    intro y hy
    obtain ⟨x, -, rfl⟩ := List.mem_map.1 hy
    exact h.nonneg (mul_self_nonneg _)
  have hV0 : 0 ≤ V := meanR_nonneg (by intro x hx; obtain ⟨y, -, rfl⟩ := List.mem_map.1 hx; positivity)
  have h1 : |meanR sq - V| ≤ ((1 + ulp p) ^ 3 - 1) * V :=
    meanR_close xs _ _ fun x _ => square_close h (x - m)
  have h2 := C138_accuracy h (ho sq hsne)
  have habs : sq.map abs = sq := by
    conv_rhs => rw [← List.map_id sq]
    exact List.map_congr_left fun y hy => abs_of_nonneg (hsq0 y hy)
  rw [habs, hlen] at h2
  have e2 : sq.sum / (xs.length : ℝ) = meanR sq := by unfold meanR; rw [hlen]
  rw [e2] at h2
  have hP : (1 : ℝ) ≤ (1 + ulp p) ^ xs.length := one_le_pow₀ (by linarith)
  have h1' := abs_le.1 h1
  have h3 : |npMeanFl fl (order sq) - V| ≤ ((1 + ulp p) ^ (xs.length + 3) - 1) * V := by
    have e : npMeanFl fl (order sq) - V = (npMeanFl fl (order sq) - meanR sq) + (meanR sq - V) := by ring
    rw [e]
    refine (abs_add_le _ _).trans ?_
    have : ((1 + ulp p) ^ xs.length - 1) * meanR sq ≤ ((1 + ulp p) ^ xs.length - 1) * ((1 + ulp p) ^ 3 * V) :=
      mul_le_mul_of_nonneg_left (by linarith) (by linarith)
    rw [pow_add]
    nlinarith
  have h0 : 0 ≤ npMeanFl fl (order sq) := by
    unfold npMeanFl
    refine h.nonneg (div_nonneg ?_ (Nat.cast_nonneg _))
    have : ∀ t : SumOrder ℝ, (∀ y ∈ t.leaves, 0 ≤ y) → 0 ≤ t.sumFl fl := by
      intro t
      induction t with
      | one x => intro hx; exact hx x (by simp [SumOrder.leaves])
      | add l r hl hr =>
        intro hx
        exact h.nonneg (add_nonneg (hl fun y hy => hx y (by simp [SumOrder.leaves, hy]))
          (hr fun y hy => hx y (by simp [SumOrder.leaves, hy])))
    exact this _ fun y hy => hsq0 y ((ho sq hsne).mem_iff.1 hy)
  rcases hV0.eq_or_lt with hz | hpos
  · rw [← hz] at h3 ⊢
    have : npMeanFl fl (order sq) = 0 := by
      have := abs_le.1 h3
      simp only [mul_zero, sub_zero, neg_zero] at this
      linarith [this.1, this.2]
    rw [this]
    simp [h.zero]
  · refine (rel_round h (Real.sqrt_pos.2 hpos) (rel_sqrt hpos h0 h3)).trans (le_of_eq ?_)
    ring

theorem npStdFl_nonneg (h : RoundsTo p fl) (xs : List ℝ) : 0 ≤ npStdFl fl order xs :=
  h.nonneg (Real.sqrt_nonneg _)

/-- **C158**: the computed standard deviation against the exact one: a relative error of `length + 4` roundings, and in
addition, upwards only, the absolute error of the computed mean. -/
theorem C158_bounds (h : RoundsTo p fl) (ho : AddsUp order) {xs : List ℝ} (hne : xs ≠ []) :
    (2 - (1 + ulp p) ^ (xs.length + 4)) * stdR xs ≤ npStdFl fl order xs ∧
    npStdFl fl order xs ≤
      (1 + ulp p) ^ (xs.length + 4) * (stdR xs + ((1 + ulp p) ^ xs.length - 1) * meanR (xs.map abs)) := by
  have hu := ulp_pos (K := ℝ) p
  have key := abs_le.1 (C158_std h ho hne)
  have hs : 0 ≤ stdR xs := Real.sqrt_nonneg _
  have hacc := C138_accuracy h (ho xs hne)
  have em : xs.sum / (xs.length : ℝ) = meanR xs := rfl
  have ea : (xs.map abs).sum / (xs.length : ℝ) = meanR (xs.map abs) := by unfold meanR; rw [List.length_map]
  rw [em, ea] at hacc
  set d := npMeanFl fl (order xs) - meanR xs
  set E := ((1 + ulp p) ^ xs.length - 1) * meanR (xs.map abs)
  have hE : 0 ≤ E := (abs_nonneg _).trans hacc
  set G := (1 + ulp (K := ℝ) p) ^ (xs.length + 4)
  have hG : 1 ≤ G := one_le_pow₀ (by linarith)
  have lo : stdR xs ≤ Real.sqrt (stdR xs ^ 2 + d ^ 2) := Real.le_sqrt_of_sq_le (by nlinarith [sq_nonneg d])
  have hi : Real.sqrt (stdR xs ^ 2 + d ^ 2) ≤ stdR xs + E := by
    rw [Real.sqrt_le_left (by linarith)]
    have : d ^ 2 ≤ E ^ 2 := by rw [← sq_abs]; exact pow_le_pow_left₀ (abs_nonneg _) hacc 2
    nlinarith [mul_nonneg hs hE]
  constructor
  · rcases le_or_gt G 2 with hG2 | hG2
    · have := mul_le_mul_of_nonneg_left lo (show (0 : ℝ) ≤ 2 - G by linarith)
      linarith [key.1]
    · have h0 := npStdFl_nonneg (order := order) h xs
      nlinarith
  · have := mul_le_mul_of_nonneg_left hi (show (0 : ℝ) ≤ G by linarith)
    linarith [key.2]

/-- **C158**: the computed ratio, times the computed standard deviation, is the mean return above the risk-free rate up
to the error of the mean and two roundings. -/
theorem C158_sharpe (h : RoundsTo p fl) (ho : AddsUp order) {returns : List ℝ} {riskFree v : ℝ}
    (hv : sharpeFl fl order returns riskFree = .ok v) :
    |v * npStdFl fl order returns - (meanR returns - riskFree)|
      ≤ ((1 + ulp p) ^ 2 - 1) * |meanR returns - riskFree| +
        (1 + ulp p) ^ 2 * (((1 + ulp p) ^ returns.length - 1) * meanR (returns.map abs)) := by
  have hu := ulp_pos (K := ℝ) p
  unfold sharpeFl at hv
  split at hv
  · simp at hv
  rename_i hc
  push Not at hc
  obtain ⟨hne, hs⟩ := hc
  simp only [Except.ok.injEq] at hv
  have hacc := C138_accuracy h (ho returns hne)
  have em : returns.sum / (returns.length : ℝ) = meanR returns := rfl
  have ea : (returns.map abs).sum / (returns.length : ℝ) = meanR (returns.map abs) := by
    unfold meanR; rw [List.length_map]
  rw [em, ea] at hacc
  set S := npStdFl fl order returns
  set m := npMeanFl fl (order returns)
  set E := ((1 + ulp p) ^ returns.length - 1) * meanR (returns.map abs)
  obtain ⟨a, ha, ea⟩ := h.factor (m - riskFree)
  obtain ⟨b, hb, eb⟩ := h.factor (fl (m - riskFree) / S)
  rw [eb, ea] at hv
  have e : v * S = (m - riskFree) * (1 + a) * (1 + b) := by
    rw [← hv]; field_simp
  have e' : v * S - (meanR returns - riskFree)
      = (m - meanR returns) * ((1 + a) * (1 + b)) + (meanR returns - riskFree) * (a + b + a * b) := by
    rw [e]; ring
  rw [e']
  refine (abs_add_le _ _).trans ?_
  rw [abs_mul (m - meanR returns), abs_mul (meanR returns - riskFree)]
  have h1 : |(1 + a) * (1 + b)| ≤ (1 + ulp p) ^ 2 := by
    rw [abs_mul, sq]
    refine mul_le_mul ?_ ?_ (abs_nonneg _) (by linarith)
    · exact (abs_add_le _ _).trans (by rw [abs_one]; linarith)
    · exact (abs_add_le _ _).trans (by rw [abs_one]; linarith)
  have h2 : |a + b + a * b| ≤ (1 + ulp p) ^ 2 - 1 := by
    have h3 : |a * b| ≤ ulp p * ulp p := by
      rw [abs_mul]; exact mul_le_mul ha hb (abs_nonneg _) hu.le
    refine (abs_add_le _ _).trans ?_
    have := abs_add_le a b
    nlinarith
  have h3 : |m - meanR returns| * |(1 + a) * (1 + b)| ≤ E * (1 + ulp p) ^ 2 :=
    mul_le_mul hacc h1 (abs_nonneg _) ((abs_nonneg _).trans hacc)
  have h4 := mul_le_mul_of_nonneg_left h2 (abs_nonneg (meanR returns - riskFree))
  refine (add_le_add h3 h4).trans (le_of_eq ?_)
  ring

/-- Powers of one rounding: for at most a million data the relative errors stay below `1 / 10 ^ 9`. -/
theorem pow_small {n : ℕ} (hn : n ≤ 2 ^ 20) : (1 + ulp (K := ℝ) 53) ^ n ≤ 1 + 1 / 10 ^ 9 := by
  have h0 : (0 : ℝ) < ulp 53 := ulp_pos 53
  have h1 : (1 + ulp (K := ℝ) 53) ^ n ≤ Real.exp (n * ulp 53) := by
    rw [Real.exp_nat_mul]
    exact pow_le_pow_left₀ (by linarith) (by linarith [Real.add_one_le_exp (ulp (K := ℝ) 53)]) n
  have h2 : (n : ℝ) * ulp 53 ≤ 1 / 2 ^ 33 := by
    have : (n : ℝ) ≤ 2 ^ 20 := by exact_mod_cast hn
    calc (n : ℝ) * ulp 53 ≤ 2 ^ 20 * ulp 53 := mul_le_mul_of_nonneg_right this h0.le
      _ = _ := by unfold ulp; norm_num
  have h3 := Real.abs_exp_sub_one_le (x := n * ulp 53) (by
    rw [abs_of_nonneg (by positivity)]
    exact h2.trans (by norm_num))
  rw [abs_of_nonneg (show (0 : ℝ) ≤ n * ulp 53 by positivity)] at h3
  have h4 := (abs_le.1 h3).2
  norm_num at h2 ⊢
  linarith

/-- **C158, in practice**: up to a million numbers whose standard deviation is at least a thousandth of their mean
size: `np.std` has a relative error below one in 500 thousand. -/
theorem C158_practice {fl : ℝ → ℝ} (h : RoundsTo 53 fl) (ho : AddsUp order) {xs : List ℝ} (hne : xs ≠ [])
    (hn : xs.length ≤ 10 ^ 6) (hs : meanR (xs.map abs) ≤ 1000 * stdR xs) :
    |npStdFl fl order xs - stdR xs| ≤ 2 / 10 ^ 6 * stdR xs := by
  obtain ⟨h1, h2⟩ := C158_bounds h ho hne
  have hs0 : 0 ≤ stdR xs := Real.sqrt_nonneg _
  have hA : 0 ≤ meanR (xs.map abs) :=
    meanR_nonneg (by intro x hx; obtain ⟨y, -, rfl⟩ := List.mem_map.1 hx; positivity)
  have p1 := pow_small (n := xs.length + 4) (by norm_num; omega)
  have p2 := pow_small (n := xs.length) (by norm_num; omega)
  have hu := ulp_pos (K := ℝ) 53
  have p3 : (1 : ℝ) ≤ (1 + ulp 53) ^ xs.length := one_le_pow₀ (by linarith)
  set G := (1 + ulp (K := ℝ) 53) ^ (xs.length + 4)
  set P := (1 + ulp (K := ℝ) 53) ^ xs.length
  set A := meanR (xs.map abs)
  set σ := stdR xs
  have q1 : (P - 1) * A ≤ 1 / 10 ^ 9 * (1000 * σ) := mul_le_mul (by linarith) hs hA (by norm_num)
  have q2 : G * (σ + (P - 1) * A) ≤ (1 + 1 / 10 ^ 9) * (σ + 1 / 10 ^ 9 * (1000 * σ)) :=
    mul_le_mul p1 (by linarith) (add_nonneg hs0 (mul_nonneg (by linarith) hA)) (by norm_num)
  have q3 : (1 - 1 / 10 ^ 9) * σ ≤ (2 - G) * σ := mul_le_mul_of_nonneg_right (by linarith) hs0
  norm_num at q1 q2 q3 ⊢
  rw [abs_le]
  constructor <;> linarith

/-- Three times the Python number `0.1`: its mean is one unit in the last place larger. -/
theorem mean_tenths {t : SumOrder ℝ} (ht : t.leaves.Perm (List.replicate 3 (3602879701896397 / 2 ^ 55 : ℝ))) :
    npMeanFl (roundBits 53) t = 3602879701896397 / 2 ^ 55 + 1 / 2 ^ 56 := by
  have hR : RoundsTo 53 (roundBits (K := ℝ) 53) := roundBits_roundsTo (by norm_num)
  have hl : t.leaves.length = 3 := by rw [ht.length_eq]; simp
  have hall : ∀ x ∈ t.leaves, x = (3602879701896397 / 2 ^ 55 : ℝ) := fun x hx =>
    List.eq_of_mem_replicate (ht.mem_iff.1 hx)
  have one : ∀ u : SumOrder ℝ, u.leaves.length = 1 → (∀ x ∈ u.leaves, x = (3602879701896397 / 2 ^ 55 : ℝ)) →
      u.sumFl (roundBits 53) = 3602879701896397 / 2 ^ 55 := by
    intro u hu hx
    rcases u with x | ⟨l, r⟩
    · exact hx x (by simp [SumOrder.leaves])
    · have h1 := l.leaves_pos
      have h2 := r.leaves_pos
      simp only [SumOrder.leaves, List.length_append] at hu
      omega
  have two : ∀ u : SumOrder ℝ, u.leaves.length = 2 → (∀ x ∈ u.leaves, x = (3602879701896397 / 2 ^ 55 : ℝ)) →
      u.sumFl (roundBits 53) = 3602879701896397 / 2 ^ 54 := by
    intro u hu hx
    rcases u with x | ⟨l, r⟩
    · simp [SumOrder.leaves] at hu
    · have h1 := l.leaves_pos
      have h2 := r.leaves_pos
      simp only [SumOrder.leaves, List.length_append] at hu
      simp only [SumOrder.sumFl]
      rw [one l (by omega) fun x h => hx x (by simp [SumOrder.leaves, h]),
        one r (by omega) fun x h => hx x (by simp [SumOrder.leaves, h])]
      rw [show (3602879701896397 / 2 ^ 55 + 3602879701896397 / 2 ^ 55 : ℝ) = 3602879701896397 / 2 ^ 54 by norm_num]
      exact hR.exact ⟨3602879701896397, -54, by norm_num, by norm_num⟩
  have sum3 : roundBits 53 (3602879701896397 / 2 ^ 54 + 3602879701896397 / 2 ^ 55 : ℝ) = 5404319552844596 / 2 ^ 54 := by
    rw [roundBits_eq (p := 53) (-54) (by norm_num) (by norm_num)]
    have : roundEven ((3602879701896397 / 2 ^ 54 + 3602879701896397 / 2 ^ 55 : ℝ) / 2 ^ (-54 : ℤ)) = 5404319552844596 := by
      have e : (3602879701896397 / 2 ^ 54 + 3602879701896397 / 2 ^ 55 : ℝ) / 2 ^ (-54 : ℤ) = 5404319552844595 + 1 / 2 := by
        norm_num
      rw [e]
      have f : ⌊(5404319552844595 + 1 / 2 : ℝ)⌋ = 5404319552844595 := by
        rw [Int.floor_eq_iff]; norm_num
      unfold roundEven
      rw [f]
      norm_num
    rw [this]
    norm_num
  have three : t.sumFl (roundBits 53) = 5404319552844596 / 2 ^ 54 := by
    rw [← sum3]
    rcases t with x | ⟨l, r⟩
    · simp [SumOrder.leaves] at hl
    · have h1 := l.leaves_pos
      have h2 := r.leaves_pos
      simp only [SumOrder.leaves, List.length_append] at hl
      simp only [SumOrder.sumFl]
      have hL : ∀ x ∈ l.leaves, x = (3602879701896397 / 2 ^ 55 : ℝ) := fun x h => hall x (by simp [SumOrder.leaves, h])
      have hR : ∀ x ∈ r.leaves, x = (3602879701896397 / 2 ^ 55 : ℝ) := fun x h => hall x (by simp [SumOrder.leaves, h])
      rcases (show l.leaves.length = 1 ∧ r.leaves.length = 2 ∨ l.leaves.length = 2 ∧ r.leaves.length = 1 by omega)
        with ⟨a, b⟩ | ⟨a, b⟩
      · rw [one l a hL, two r b hR, add_comm]
      · rw [two l a hL, one r b hR]
  unfold npMeanFl
  rw [hl, three, hR.eq_of_close (m := 7205759403792795) (e := -56) (by norm_num) (by norm_num) (by norm_num)
    (by rw [abs_lt]; constructor <;> norm_num)]
  norm_num

/-- **C158 is violated by the code**: three equal returns of `0.1` have no deviation at all, and no Sharpe ratio; the
code reports one above a thousand million million. -/
theorem C158_constant_fails (ho : AddsUp order) :
    ∃ c : ℝ, IsFloat 53 c ∧ stdR [c, c, c] = 0 ∧ sharpeRatio [c, c, c] 0 = .error .unmodelled ∧
      ∃ v, sharpeFl (roundBits 53) order [c, c, c] 0 = .ok v ∧ 10 ^ 15 ≤ v := by
  have hR : RoundsTo 53 (roundBits (K := ℝ) 53) := roundBits_roundsTo (by norm_num)
  refine ⟨3602879701896397 / 2 ^ 55, ⟨3602879701896397, -55, by norm_num, by norm_num⟩, ?_⟩
  set c : ℝ := 3602879701896397 / 2 ^ 55 with hc
  have hm : meanR [c, c, c] = c := by unfold meanR; simp; ring
  have hs : stdR [c, c, c] = 0 := by unfold stdR; rw [hm]; simp [meanR]
  have hmean : npMeanFl (roundBits 53) (order [c, c, c]) = c + 1 / 2 ^ 56 := mean_tenths (ho _ (by simp))
  have hstd := C158_std hR ho (xs := [c, c, c]) (by simp)
  rw [hs, hm, hmean] at hstd
  have e : Real.sqrt ((0 : ℝ) ^ 2 + (c + 1 / 2 ^ 56 - c) ^ 2) = 1 / 2 ^ 56 := by
    rw [show ((0 : ℝ) ^ 2 + (c + 1 / 2 ^ 56 - c) ^ 2) = (1 / 2 ^ 56) ^ 2 by ring]
    exact Real.sqrt_sq (by positivity)
  rw [e] at hstd
  have hp := pow_small (n := 3 + 4) (by norm_num)
  simp only [List.length_cons, List.length_nil, zero_add, Nat.reduceAdd] at hstd hp
  set S := npStdFl (roundBits 53) order [c, c, c]
  have hS := abs_le.1 (hstd.trans (mul_le_mul_of_nonneg_right (sub_le_sub_right hp 1) (by positivity)))
  have hS0 : 0 < S := by norm_num at hS ⊢; linarith [hS.1]
  have hS1 : S ≤ 2 / 2 ^ 56 := by norm_num at hS ⊢; linarith [hS.2]
  refine ⟨hs, by unfold sharpeRatio; rw [if_pos (Or.inr hs)], ?_⟩
  refine ⟨_, by unfold sharpeFl; rw [if_neg (by push Not; exact ⟨by simp, hS0.ne'⟩)], ?_⟩
  rw [hmean, sub_zero]
  have hx : c ≤ roundBits 53 (c + 1 / 2 ^ 56) :=
    hR.le_of_ge ⟨3602879701896397, -55, by norm_num, by rw [hc]; norm_num⟩ (by norm_num)
  refine hR.le_of_ge ⟨10 ^ 15, 0, by norm_num, by norm_num⟩ ?_
  rw [le_div_iff₀ hS0]
  refine le_trans ?_ hx
  refine (mul_le_mul_of_nonneg_left hS1 (by norm_num)).trans ?_
  rw [hc]
  norm_num

theorem sumFl_const (h : RoundsTo p fl) {c : ℤ} (t : SumOrder ℝ) (hc : ∀ x ∈ t.leaves, x = (c : ℝ))
    (hn : (t.leaves.length : ℤ) * |c| ≤ 2 ^ p) : t.sumFl fl = t.leaves.length * c := by
  induction t with
  | one x => simpa [SumOrder.sumFl, SumOrder.leaves] using hc x (by simp [SumOrder.leaves])
  | add l r hl hr =>
    have hlen : ((l.add r).leaves.length : ℤ) = l.leaves.length + r.leaves.length := by simp [SumOrder.leaves]
    have a0 := abs_nonneg c
    have l0 : (0 : ℤ) ≤ l.leaves.length * |c| := by positivity
    have r0 : (0 : ℤ) ≤ r.leaves.length * |c| := by positivity
    rw [hlen, add_mul] at hn
    simp only [SumOrder.sumFl]
    rw [hl (fun x hx => hc x (by simp [SumOrder.leaves, hx])) (by linarith),
      hr (fun x hx => hc x (by simp [SumOrder.leaves, hx])) (by linarith)]
    rw [h.exact ⟨(l.leaves.length + r.leaves.length : ℤ) * c, 0, ?_, ?_⟩]
    · simp [SumOrder.leaves]; ring
    · rw [abs_mul, abs_of_nonneg (by positivity)]; linarith
    · push_cast; ring

/-- **C158, partial.** Full statement: returns that do not vary have no Sharpe ratio.  Missing: shown for whole numbers
whose sum needs no rounding; see `C158_constant_fails`. -/
theorem C158_constant_partial (h : RoundsTo p fl) (ho : AddsUp order) (n : ℕ) (c : ℤ) (hn : (n : ℤ) * |c| ≤ 2 ^ p)
    (riskFree : ℝ) : sharpeFl fl order (List.replicate n (c : ℝ)) riskFree = .error .unmodelled := by
  unfold sharpeFl
  rw [if_pos]
  rcases Nat.eq_zero_or_pos n with rfl | hn0
  · simp
  right
  have hnR : (n : ℝ) ≠ 0 := by exact_mod_cast hn0.ne'
  have hrep : ∀ (a : ℤ), List.replicate n (a : ℝ) ≠ [] := fun a => by simp; omega
  have hmean : ∀ a : ℤ, (n : ℤ) * |a| ≤ 2 ^ p → npMeanFl fl (order (List.replicate n (a : ℝ))) = a := by
    intro a ha
    have hp := ho _ (hrep a)
    have hlen : (order (List.replicate n (a : ℝ))).leaves.length = n := by rw [hp.length_eq]; simp
    unfold npMeanFl
    rw [sumFl_const h _ (fun x hx => List.eq_of_mem_replicate (hp.mem_iff.1 hx)) (by rw [hlen]; exact ha), hlen,
      mul_div_cancel_left₀ _ hnR]
    refine h.exact ⟨a, 0, ?_, by simp⟩
    have : (1 : ℤ) ≤ n := by exact_mod_cast hn0
    nlinarith [abs_nonneg a]
  unfold npStdFl
  simp only
  rw [hmean c hn, List.map_replicate, sub_self, h.zero, mul_zero, h.zero]
  have := hmean 0 (by simp)
  rw [Int.cast_zero] at this
  rw [this, Real.sqrt_zero, h.zero]

/-! ## Instances -/

/-- numpy's order of additions. -/
noncomputable def numpyAdds (xs : List ℝ) : SumOrder ℝ := (numpyOrder xs).getD (.one 0)

theorem numpyAdds_addsUp : AddsUp numpyAdds := by
  intro xs hne
  obtain ⟨t, h1, h2, -⟩ := numpyOrder_spec xs.length xs hne (by
    have := Nat.lt_two_pow_self (n := xs.length)
    omega)
  unfold numpyAdds
  rw [h1]
  exact h2

/-- Three equal returns. -/
example : sharpeFl (roundBits 53) numpyAdds [7, 7, 7] 2 = .error .unmodelled := by
  have := C158_constant_partial (roundBits_roundsTo (K := ℝ) (p := 53) (by norm_num)) numpyAdds_addsUp 3 7 (by norm_num) 2
  simpa [List.replicate] using this

/-- Three returns: the hypotheses of `C158_practice` are met. -/
example : |npStdFl (roundBits 53) numpyAdds [1, 2, 3] - stdR [1, 2, 3]| ≤ 2 / 10 ^ 6 * stdR [1, 2, 3] := by
  refine C158_practice (roundBits_roundsTo (by norm_num)) numpyAdds_addsUp (by simp) (by simp) ?_
  have : stdR [1, 2, 3] = Real.sqrt (2 / 3) := by
    unfold stdR meanR; simp; norm_num
  rw [this]
  have h : (1 / 2 : ℝ) ≤ Real.sqrt (2 / 3) := Real.le_sqrt_of_sq_le (by norm_num)
  have e : meanR ([1, 2, 3].map abs) = 2 := by unfold meanR; norm_num
  rw [e]
  linarith

/-- A ratio that is reported, and its accuracy. -/
example : ∃ v, sharpeFl (roundBits 53) numpyAdds [1, 2, 3] 1 = .ok v ∧
    |v * npStdFl (roundBits 53) numpyAdds [1, 2, 3] - (meanR [1, 2, 3] - 1)|
      ≤ ((1 + ulp 53) ^ 2 - 1) * |meanR [1, 2, 3] - 1| +
        (1 + ulp 53) ^ 2 * (((1 + ulp 53) ^ 3 - 1) * meanR ([1, 2, 3].map abs)) := by
  have hR : RoundsTo 53 (roundBits (K := ℝ) 53) := roundBits_roundsTo (by norm_num)
  have hpos : npStdFl (roundBits 53) numpyAdds [1, 2, 3] ≠ 0 := by
    have h1 := (C158_bounds hR numpyAdds_addsUp (xs := [1, 2, 3]) (by simp)).1
    have hp := pow_small (n := 3 + 4) (by norm_num)
    have : stdR [1, 2, 3] = Real.sqrt (2 / 3) := by
      unfold stdR meanR; simp; norm_num
    have h : (1 / 2 : ℝ) ≤ stdR [1, 2, 3] := by rw [this]; exact Real.le_sqrt_of_sq_le (by norm_num)
    simp only [List.length_cons, List.length_nil, zero_add, Nat.reduceAdd] at h1 hp
    have : (1 / 2 : ℝ) ≤ 2 - (1 + ulp 53) ^ 7 := by norm_num at hp ⊢; linarith
    nlinarith
  refine ⟨_, by unfold sharpeFl; rw [if_neg (by push Not; exact ⟨by simp, hpos⟩)], ?_⟩
  exact C158_sharpe hR numpyAdds_addsUp (by unfold sharpeFl; rw [if_neg (by push Not; exact ⟨by simp, hpos⟩)])

end Verif
