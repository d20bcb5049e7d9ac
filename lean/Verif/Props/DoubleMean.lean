import Verif.Model.DoubleMean
import Verif.Props.DoubleBayes
import Verif.Props.RoundedMean

/-!
# C182: means with floats of any size
-/

namespace Verif

open Spec

variable {K : Type} [Field K] [LinearOrder K] [IsStrictOrderedRing K] [FloorRing K] {f : FloatFormat} {fl fl' : K → K}

/-- Sums of floats lose no digits to subnormal numbers, and with each addition their size at most doubles. -/
theorem sumX_eq (hp : 1 ≤ f.p) (h : RoundsDouble f fl) (h' : RoundsTo f.p fl') (he : ∀ x, Unharmed f x → fl x = fl' x)
    {k : ℤ} (hk : f.low + f.p - 1 ≤ k) (t : SumOrder K) (ht : ∀ x ∈ t.leaves, InFormat f x ∧ |x| ≤ 2 ^ k)
    (hd : k + t.depth < f.top) :
    (t.sumX f fl).Is (t.sumFl fl') ∧ OnGrid f (t.sumFl fl') ∧ |t.sumFl fl'| ≤ 2 ^ (k + t.depth) := by
  induction t with
  | one x =>
    obtain ⟨h1, h2⟩ := ht x (by simp [SumOrder.leaves])
    exact ⟨rfl, h1.2, by simpa [SumOrder.depth, SumOrder.sumFl] using h2⟩
  | add l r ihl ihr =>
    simp only [SumOrder.depth] at hd
    push_cast at hd
    obtain ⟨a1, a2, a3⟩ := ihl (fun x hx => ht x (by simp [SumOrder.leaves, hx])) (by
      have := le_max_left (l.depth : ℤ) r.depth; omega)
    obtain ⟨b1, b2, b3⟩ := ihr (fun x hx => ht x (by simp [SumOrder.leaves, hx])) (by
      have := le_max_right (l.depth : ℤ) r.depth; omega)
    have e : fl (l.sumFl fl' + r.sumFl fl') = fl' (l.sumFl fl' + r.sumFl fl') := he _ (.inl (a2.add b2))
    have hb : |l.sumFl fl' + r.sumFl fl'| ≤ 2 ^ (k + ((max l.depth r.depth + 1 : ℕ) : ℤ)) := by
      have l1 : (2 : K) ^ (k + (l.depth : ℤ)) ≤ 2 ^ (k + ((max l.depth r.depth : ℕ) : ℤ)) :=
        zpow_le_zpow_right₀ one_le_two (by have := le_max_left l.depth r.depth; omega)
      have l2 : (2 : K) ^ (k + (r.depth : ℤ)) ≤ 2 ^ (k + ((max l.depth r.depth : ℕ) : ℤ)) :=
        zpow_le_zpow_right₀ one_le_two (by have := le_max_right l.depth r.depth; omega)
      have e2 : (2 : K) ^ (k + ((max l.depth r.depth + 1 : ℕ) : ℤ)) = 2 * 2 ^ (k + ((max l.depth r.depth : ℕ) : ℤ)) := by
        rw [show k + ((max l.depth r.depth + 1 : ℕ) : ℤ) = k + ((max l.depth r.depth : ℕ) : ℤ) + 1 by
          push_cast; ring, zpow_add_one₀ two_ne_zero]
        ring
      refine (abs_add_le _ _).trans ?_
      rw [e2]
      linarith
    have hb' : |fl (l.sumFl fl' + r.sumFl fl')| ≤ 2 ^ (k + ((max l.depth r.depth + 1 : ℕ) : ℤ)) :=
      h.abs_le hp (by omega) hb
    have hg : OnGrid f (fl (l.sumFl fl' + r.sumFl fl')) := (h.format _).2
    have := toDouble_is_of h (XVal.add_is a1 b1) (hb'.trans_lt (zpow_lt_zpow_right₀ one_lt_two (by
      push_cast; omega)))
    rw [e] at this hb' hg
    exact ⟨this, hg, hb'⟩

/-- The error in terms of the largest number of additions any of the data takes part in. -/
theorem quotient_err (hp : 1 ≤ f.p) (h : RoundsDouble f fl) (h' : RoundsTo f.p fl')
    (he : ∀ x, Unharmed f x → fl x = fl' x) {data : List K} {t : SumOrder K} (ht : t.leaves.Perm data) {n : ℕ}
    (hl : t.depth + 1 ≤ n) :
    |fl (t.sumFl fl' / (t.leaves.length : K)) - data.sum / data.length|
      ≤ ((1 + ulp f.p) ^ n - 1) * ((data.map abs).sum / data.length) + 2 ^ f.low / 2 := by
  have hn0 : (0 : K) < t.leaves.length := by exact_mod_cast t.leaves_pos
  set q := t.sumFl fl' / (t.leaves.length : K) with hq
  have h2 : (0 : K) < 2 ^ f.low := by positivity
  have hu := ulp_pos (K := K) f.p
  have hA : 0 ≤ (data.map abs).sum := by
    refine List.sum_nonneg fun x hx => ?_
    obtain ⟨y, -, rfl⟩ := List.mem_map.1 hx
    exact abs_nonneg y
  rcases le_or_gt ((2 : K) ^ (f.low + f.p - 1)) |q| with hc | hc
  · rw [he q (.inr hc)]
    have := meanFl_err h' t
    rw [ht.sum_eq, (ht.map abs).sum_eq, ht.length_eq] at this
    unfold npMeanFl at this
    rw [hq, ht.length_eq]
    rw [ht.length_eq] at this hn0
    have hpow : (1 + ulp f.p : K) ^ (t.depth + 1) ≤ (1 + ulp f.p) ^ n := pow_le_pow_right₀ (by linarith) hl
    have := mul_le_mul_of_nonneg_right (sub_le_sub_right hpow 1) (div_nonneg hA hn0.le)
    linarith
  · have e1 := h.small hp hc.le
    have e2 : |q - data.sum / data.length|
        ≤ ((1 + ulp f.p) ^ n - 1) * ((data.map abs).sum / data.length) := by
      have hs := (sumFl_err h' t).1
      rw [ht.sum_eq, (ht.map abs).sum_eq] at hs
      have hpow : (1 + ulp f.p : K) ^ t.depth ≤ (1 + ulp f.p) ^ n := pow_le_pow_right₀ (by linarith) (by omega)
      rw [hq, ht.length_eq] at *
      rw [← sub_div, abs_div, abs_of_pos hn0, mul_div_assoc']
      refine div_le_div_of_nonneg_right (hs.trans ?_) hn0.le
      exact mul_le_mul_of_nonneg_right (by linarith) hA
    have := abs_add_le (fl q - q) (q - data.sum / data.length)
    rw [sub_add_sub_cancel] at this
    linarith

theorem npMeanX_err (hp : 1 ≤ f.p) (h : RoundsDouble f fl) {k : ℤ} (hk : f.low + f.p - 1 ≤ k) {data : List K}
    {t : SumOrder K} (ht : t.leaves.Perm data) (hf : ∀ x ∈ data, IsDouble f x ∧ |x| ≤ 2 ^ k)
    (hd : k + t.depth < f.top) {n : ℕ} (hl : t.depth + 1 ≤ n) :
    ∃ x, (npMeanX f fl t).val? = some x ∧
      |x - data.sum / data.length|
        ≤ ((1 + ulp f.p) ^ n - 1) * ((data.map abs).sum / data.length) + 2 ^ f.low / 2 := by
  obtain ⟨fl', h', he⟩ := h.unlimited hp
  have hdat : ∀ x ∈ t.leaves, InFormat f x ∧ |x| ≤ 2 ^ k := fun x hx =>
    ⟨(hf x (ht.mem_iff.1 hx)).1.1, (hf x (ht.mem_iff.1 hx)).2⟩
  obtain ⟨s1, s2, s3⟩ := sumX_eq hp h h' he hk t hdat hd
  have hn1 : (1 : K) ≤ t.leaves.length := by exact_mod_cast t.leaves_pos
  have hn0 : (0 : K) < t.leaves.length := by linarith
  have hqb : |t.sumFl fl' / (t.leaves.length : K)| ≤ 2 ^ (k + (t.depth : ℤ)) := by
    rw [abs_div, abs_of_pos hn0, div_le_iff₀ hn0]
    nlinarith [show (0 : K) < 2 ^ (k + (t.depth : ℤ)) by positivity]
  have iM := toDouble_is_of h (XVal.div_is s1 hn0.ne') ((h.abs_le hp (by omega) hqb).trans_lt
    (zpow_lt_zpow_right₀ one_lt_two hd))
  exact ⟨_, iM, quotient_err hp h h' he ht hl⟩

omit [FloorRing K] in
/-- Infinities and `nan` do not become finite again. -/
theorem finite_of_toDouble (h : RoundsDouble f fl) {v : XVal K} {y : K} (hv : (v.toDouble f fl).Is y) :
    ∃ x, v.Is x ∧ y = fl x := by
  cases v with
  | fin x =>
    refine ⟨x, rfl, ?_⟩
    by_cases ht : |fl x| < (2 : K) ^ f.top
    · have := toDouble_is (f := f) ht
      unfold XVal.Is at this hv
      rw [this] at hv
      exact (Option.some.inj hv).symm
    · unfold XVal.Is XVal.toDouble XVal.inf at hv
      simp only [if_neg ht] at hv
      by_cases hx : x < 0 <;> simp [XVal.val?, hx] at hv
  | nzero =>
    refine ⟨0, rfl, ?_⟩
    rw [h.exact inFormat_zero]
    exact (Option.some.inj hv).symm
  | pinf => exact absurd hv (by simp [XVal.Is, XVal.toDouble, XVal.val?])
  | ninf => exact absurd hv (by simp [XVal.Is, XVal.toDouble, XVal.val?])
  | nan => exact absurd hv (by simp [XVal.Is, XVal.toDouble, XVal.val?])

omit [IsStrictOrderedRing K] [FloorRing K] in
theorem finite_of_add {a b : XVal K} {y : K} (h : (a.add b).Is y) : (∃ x, a.Is x) ∧ ∃ x, b.Is x := by
  cases a <;> cases b <;> simp [XVal.Is, XVal.add, XVal.val?] at h ⊢

omit [IsStrictOrderedRing K] [FloorRing K] in
theorem finite_of_div {a : XVal K} {n y : K} (h : (a.div (.fin n)).Is y) : ∃ x, a.Is x := by
  have hi : ∀ b, (XVal.inf b : XVal K).val? = none := by
    intro b; cases b <;> rfl
  cases a with
  | fin x => exact ⟨x, rfl⟩
  | nzero => exact ⟨0, rfl⟩
  | pinf => exact absurd h (by simp [XVal.Is, XVal.div, show (XVal.pinf : XVal K).val? = none from rfl,
      show (XVal.fin n).val? = some n from rfl, hi])
  | ninf => exact absurd h (by simp [XVal.Is, XVal.div, show (XVal.ninf : XVal K).val? = none from rfl,
      show (XVal.fin n).val? = some n from rfl, hi])
  | nan => exact absurd h (by simp [XVal.Is, XVal.div, show (XVal.nan : XVal K).val? = none from rfl])

theorem sumX_finite (h : RoundsDouble f fl) (he : ∀ x, Unharmed f x → fl x = fl' x) (t : SumOrder K)
    (ht : ∀ x ∈ t.leaves, InFormat f x) {y : K} (hy : (t.sumX f fl).Is y) : y = t.sumFl fl' ∧ OnGrid f y := by
  induction t generalizing y with
  | one x =>
    have : x = y := Option.some.inj hy
    subst this
    exact ⟨rfl, (ht x (by simp [SumOrder.leaves])).2⟩
  | add l r ihl ihr =>
    obtain ⟨z, hz, rfl⟩ := finite_of_toDouble h hy
    obtain ⟨⟨a, ha⟩, b, hb⟩ := finite_of_add hz
    obtain ⟨a1, a2⟩ := ihl (fun x hx => ht x (by simp [SumOrder.leaves, hx])) ha
    obtain ⟨b1, b2⟩ := ihr (fun x hx => ht x (by simp [SumOrder.leaves, hx])) hb
    have hzz : z = a + b := Option.some.inj (hz.symm.trans (XVal.add_is ha hb))
    refine ⟨?_, (h.format _).2⟩
    rw [hzz, he _ (.inl (a2.add b2)), a1, b1]
    rfl

/-- **C182**: whenever the mean of finite floats is finite, however large they are, it is accurate. -/
theorem C182_finite (hp : 1 ≤ f.p) (h : RoundsDouble f fl) {data : List K} {t : SumOrder K} (ht : t.leaves.Perm data)
    (hf : ∀ x ∈ data, IsDouble f x) {x : K} (hx : (npMeanX f fl t).val? = some x) :
    |x - data.sum / data.length|
      ≤ ((1 + ulp f.p) ^ data.length - 1) * ((data.map abs).sum / data.length) + 2 ^ f.low / 2 := by
  obtain ⟨fl', h', he⟩ := h.unlimited hp
  obtain ⟨q, hq, rfl⟩ := finite_of_toDouble h hx
  obtain ⟨s, hs⟩ := finite_of_div hq
  obtain ⟨s1, -⟩ := sumX_finite h he t (fun x hx => (hf x (ht.mem_iff.1 hx)).1) hs
  have hn0 : (t.leaves.length : K) ≠ 0 := by exact_mod_cast t.leaves_pos.ne'
  have hqq : q = s / (t.leaves.length : K) := Option.some.inj (hq.symm.trans (XVal.div_is hs hn0))
  rw [hqq, s1]
  refine quotient_err hp h h' he ht ?_
  have := t.depth_lt
  rw [ht.length_eq] at this
  omega

/-- **C182.** The mean of finite floats of size at most `2^k`, added in any order with at most `d` additions for each, is
finite if `k + d` is below the limit of the format, and differs from the exact mean by at most the error of C138 and half the
finest unit. -/
theorem C182_accuracy (hp : 1 ≤ f.p) (h : RoundsDouble f fl) {k : ℤ} (hk : f.low + f.p - 1 ≤ k) {data : List K}
    {t : SumOrder K} (ht : t.leaves.Perm data) (hf : ∀ x ∈ data, IsDouble f x ∧ |x| ≤ 2 ^ k)
    (hd : k + t.depth < f.top) :
    ∃ x, (npMeanX f fl t).val? = some x ∧
      |x - data.sum / data.length|
        ≤ ((1 + ulp f.p) ^ data.length - 1) * ((data.map abs).sum / data.length) + 2 ^ f.low / 2 := by
  refine npMeanX_err hp h hk ht hf hd ?_
  have := t.depth_lt
  rw [ht.length_eq] at this
  omega

/-- **C182**: in the order numpy uses, the mean of up to `2^m` finite floats of size at most `2^k` is finite if `k + m + 20`
is at most the limit of the format (for a million Python floats, if they are at most `2^984`), and as accurate as `m + 20`
roundings, up to half the finest unit. -/
theorem C182_numpy (hp : 1 ≤ f.p) (h : RoundsDouble f fl) {k : ℤ} (hk : f.low + f.p - 1 ≤ k) {data : List K}
    (hne : data ≠ []) {m : ℕ} (hm : 6 ≤ m) (hlen : data.length ≤ 2 ^ m)
    (hf : ∀ x ∈ data, IsDouble f x ∧ |x| ≤ 2 ^ k) (hd : k + m + 20 ≤ f.top) :
    ∃ t x, numpyOrder data = some t ∧ t.leaves.Perm data ∧ (npMeanX f fl t).val? = some x ∧
      |x - data.sum / data.length|
        ≤ ((1 + ulp f.p) ^ (m + 20) - 1) * ((data.map abs).sum / data.length) + 2 ^ f.low / 2 := by
  obtain ⟨j, rfl⟩ : ∃ j, m = j + 6 := ⟨m - 6, by omega⟩
  obtain ⟨t, h1, h2, h3⟩ := numpyOrder_spec j data hne (by rw [pow_add] at hlen; norm_num at hlen; omega)
  obtain ⟨x, h4, h5⟩ := npMeanX_err hp h hk h2 hf (by push_cast at hd; omega) (n := j + 6 + 20) (by omega)
  exact ⟨t, x, h1, h2, h4, h5⟩

/-- **C182** (otherwise): the mean of twice `2^1023` is infinite for Python floats. -/
theorem C182_large_fails :
    npMeanX binary64 (roundDouble binary64) (.add (.one (2 ^ 1023)) (.one (2 ^ 1023))) = (.pinf : XVal ℚ) ∧
    numpyOrder [(2 ^ 1023 : ℚ), 2 ^ 1023] = some (.add (.one (2 ^ 1023)) (.one (2 ^ 1023))) ∧
    RoundsDouble binary64 (roundDouble (K := ℚ) binary64) :=
  ⟨by decide +kernel, by simp [numpyOrder, SumOrder.block, SumOrder.run], roundDouble_rounds (by decide)⟩

/-- The hypotheses are met: the mean of `2^1022` and `-2^1021`, and that of the two smallest floats. -/
example :
    npMeanX binary64 (roundDouble binary64) (.add (.one (2 ^ 1022)) (.one (-2 ^ 1021))) = .fin (2 ^ 1020 : ℚ) ∧
    npMeanX binary64 (roundDouble binary64) (.add (.one (1 / 2 ^ 1074)) (.one (2 / 2 ^ 1074))) =
      .fin (2 / 2 ^ 1074 : ℚ) ∧
    (1022 : ℤ) + (SumOrder.add (.one (2 ^ 1022 : ℚ)) (.one (-2 ^ 1021))).depth < binary64.top :=
  ⟨by decide +kernel, by decide +kernel, by decide⟩

/-- The hypotheses of `C182_numpy` are met by numbers of very different sizes. -/
example : ∃ t x, numpyOrder [(2 : ℚ) ^ (900 : ℤ), 2 ^ (-1000 : ℤ)] = some t ∧
    t.leaves.Perm [(2 : ℚ) ^ (900 : ℤ), 2 ^ (-1000 : ℤ)] ∧
    (npMeanX binary64 (roundDouble binary64) t).val? = some x := by
  obtain ⟨t, x, h1, h2, h3, -⟩ := C182_numpy (f := binary64) (K := ℚ) (by decide) (roundDouble_rounds (by decide))
    (k := 900) (m := 6) (data := [2 ^ (900 : ℤ), 2 ^ (-1000 : ℤ)]) (by decide) (by simp) le_rfl (by simp) (by
      intro x hx
      simp only [List.mem_cons, List.not_mem_nil, or_false] at hx
      rcases hx with rfl | rfl
      · refine ⟨⟨inFormat_two_zpow (by decide) (by decide), ?_⟩, ?_⟩ <;> rw [abs_of_pos (by positivity)]
        exact zpow_lt_zpow_right₀ one_lt_two (by decide)
      · refine ⟨⟨inFormat_two_zpow (by decide) (by decide), ?_⟩, ?_⟩ <;> rw [abs_of_pos (by positivity)]
        · exact zpow_lt_zpow_right₀ one_lt_two (by decide)
        · exact zpow_le_zpow_right₀ one_le_two (by decide)) (by decide)
  exact ⟨t, x, h1, h2, h3⟩

end Verif
