import Verif.Props.RoundedWeights

/-!
# C165: a value without a weight, when the weights already sum to 1
-/

namespace Verif

variable {K : Type} [Field K] [LinearOrder K] [IsStrictOrderedRing K] [FloorRing K] {p : ℕ} {fl : K → K}

theorem finish_leftover {ι : Type} {ws : List K} {vals : List ι} (hl : ws.length + 1 = vals.length)
    (hs : 1 ≤ sumFl fl ws) : processFl fl (.weights ws) vals = .error .valueError := by
  have hv : vals ≠ [] := List.ne_nil_of_length_pos (by omega)
  unfold processFl processFl.finish
  rw [if_neg hv]
  simp only
  rw [if_neg (fun hc => absurd hc.2 (not_lt.2 hs))]
  by_cases h2 : sumFl fl ws ≤ fl (99 / 100) ∨ sumFl fl ws ≥ fl (101 / 100)
  · rw [if_pos h2]
  · rw [if_neg h2, if_pos (by omega)]

/-- **C165.** One value more than weights, and weights that sum to 1 or more by a margin of `2 n` roundings: refused. -/
theorem C165_refused (h : RoundsTo p fl) (hp : 1 ≤ p) {ι : Type} {ws : List K} {vals : List ι}
    (hl : ws.length + 1 = vals.length) (hw : ∀ w ∈ ws, 0 ≤ w) (hn : vals.length * ulp p ≤ (1 / 2 : K))
    (hsum : 1 + 2 * (vals.length * ulp p) ≤ ws.sum) :
    processFl fl (.weights ws) vals = .error .valueError := by
  refine finish_leftover hl ?_
  obtain ⟨h1, -⟩ := sumFl_bounds h hp hw (n := vals.length) (by omega) hn
  set a : K := vals.length * ulp p
  have ha0 : 0 ≤ a := mul_nonneg (Nat.cast_nonneg _) (ulp_pos p).le
  have h2 : (1 - a) * (1 + 2 * a) ≤ (1 - a) * ws.sum := mul_le_mul_of_nonneg_left hsum (by linarith)
  nlinarith

/-- **C165.** If they sum to 1 or more, the call is refused, or the value left over gets a positive weight of at most
`2 n` roundings and the other weights are kept. -/
theorem C165_small_partial (h : RoundsTo p fl) (hp : 1 ≤ p) {ι : Type} {ws : List K} {vals : List ι}
    (hl : ws.length + 1 = vals.length) (hw : ∀ w ∈ ws, 0 < w) (hn : vals.length * ulp p ≤ (1 / 100000 : K))
    (hsum : 1 ≤ ws.sum) :
    processFl fl (.weights ws) vals = .error .valueError ∨
    ∃ x : K, 0 < x ∧ x ≤ 2 * (vals.length * ulp p) ∧ processFl fl (.weights ws) vals = .ok (ws ++ [x], vals) := by
  rcases le_or_gt 1 (sumFl fl ws) with hs | hs
  · exact .inl (finish_leftover hl hs)
  · obtain ⟨h1, h2, -, -⟩ := C116_missing h hp hl hw hs hn
    refine .inr ⟨_, h1, ?_, h2⟩
    obtain ⟨h3, -⟩ := sumFl_bounds h hp (fun w hw' => (hw w hw').le) (n := vals.length) (by omega)
      (hn.trans (by norm_num))
    have hu2 := ulp_le_half (K := K) hp
    have hu := ulp_pos (K := K) p
    set a : K := vals.length * ulp p
    have ha0 : 0 ≤ a := mul_nonneg (Nat.cast_nonneg _) hu.le
    have h4 : (1 - a) * 1 ≤ (1 - a) * ws.sum := mul_le_mul_of_nonneg_left hsum (by linarith)
    have h5 := h.le_mul (x := 1 - sumFl fl ws) (by linarith)
    nlinarith

/-- **C165.** If they sum to less than 1 by a margin of `2 n` roundings, the value left over gets the remainder up to
`4 n` roundings. -/
theorem C165_remainder (h : RoundsTo p fl) (hp : 1 ≤ p) {ι : Type} {ws : List K} {vals : List ι}
    (hl : ws.length + 1 = vals.length) (hw : ∀ w ∈ ws, 0 < w) (hn : vals.length * ulp p ≤ (1 / 100000 : K))
    (hsum : ws.sum + 2 * (vals.length * ulp p) < 1) :
    ∃ x : K, 0 < x ∧ |x - (1 - ws.sum)| ≤ 4 * (vals.length * ulp p) ∧
      processFl fl (.weights ws) vals = .ok (ws ++ [x], vals) := by
  obtain ⟨h3, h4⟩ := sumFl_bounds h hp (fun w hw' => (hw w hw').le) (n := vals.length) (by omega)
    (hn.trans (by norm_num))
  have hu := ulp_pos (K := K) p
  have ha0 : 0 ≤ (vals.length : K) * ulp p := mul_nonneg (Nat.cast_nonneg _) hu.le
  have hs : sumFl fl ws < 1 := by
    have hs0 : 0 ≤ ws.sum := List.sum_nonneg fun w hw' => (hw w hw').le
    nlinarith
  obtain ⟨h1, h2, -, h5⟩ := C116_missing h hp hl hw hs hn
  refine ⟨_, h1, ?_, h2⟩
  rw [List.sum_append, List.sum_singleton] at h5
  rwa [show fl (1 - sumFl fl ws) - (1 - ws.sum) = ws.sum + fl (1 - sumFl fl ws) - 1 by ring]

/-- **C165 fails** near 1: ten weights of 0.1 (as doubles, they sum to a little more than 1) and eleven values are
accepted, the last one with the weight `2^(-53)`; five weights of 0.2 and six values are refused. -/
theorem C165_leftover_fails :
    1 < (List.replicate 10 (roundBits 53 (1 / 10 : ℚ))).sum ∧
    processFl (roundBits 53) (.weights (List.replicate 10 (roundBits 53 (1 / 10 : ℚ)))) (List.range 11) =
      .ok (List.replicate 10 (roundBits 53 (1 / 10)) ++ [1 / 2 ^ 53], List.range 11) ∧
    1 < (List.replicate 5 (roundBits 53 (1 / 5 : ℚ))).sum ∧
    processFl (roundBits 53) (.weights (List.replicate 5 (roundBits 53 (1 / 5 : ℚ)))) (List.range 6) =
      .error .valueError := by
  refine ⟨by decide +kernel, by decide +kernel, by decide +kernel, by decide +kernel⟩

/-- Two weights of 2/5, three values: the last one gets 1/5. -/
example : ∃ x, 0 < x ∧ |x - (1 - ([roundBits 53 (2 / 5), roundBits 53 (2 / 5)] : List ℚ).sum)| ≤ 4 * ((3 : ℕ) * ulp 53) ∧
    processFl (roundBits 53) (.weights [roundBits 53 (2 / 5 : ℚ), roundBits 53 (2 / 5)]) ['a', 'b', 'c'] =
      .ok ([roundBits 53 (2 / 5), roundBits 53 (2 / 5)] ++ [x], ['a', 'b', 'c']) := by
  have h0 : ∀ w ∈ ([roundBits 53 (2 / 5), roundBits 53 (2 / 5)] : List ℚ), 0 < w := by decide +kernel
  exact C165_remainder (roundBits_roundsTo (K := ℚ) (p := 53) (by norm_num)) (by norm_num) (vals := ['a', 'b', 'c']) rfl
    h0 (by decide +kernel) (by decide +kernel)

end Verif
