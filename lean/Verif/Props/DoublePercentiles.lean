import Verif.Model.DoublePercentiles
import Verif.Props.DoubleDraws
import Verif.Props.RoundedPercentiles

/-!
# C181: percentiles with floats of any size
-/

namespace Verif

open Spec

variable {K : Type} [Field K] [LinearOrder K] [IsStrictOrderedRing K] [FloorRing K] {f : FloatFormat} {fl : K → K}

theorem lerpX_between (hp : 1 ≤ f.p) (hlow : f.low + f.p ≤ 0) (h : RoundsDouble f fl) {a b t : K} (ha : IsDouble f a)
    (hb : IsDouble f b) (hab : a ≤ b) (hr : fl (b - a) < 2 ^ f.top) (t0 : 0 ≤ t) (t1 : t ≤ 1) :
    ∃ x, (lerpX f fl a b t).val? = some x ∧ a ≤ x ∧ x ≤ b := by
  have hu := ulp_le_half (K := K) hp
  have w0 := h.nonneg (show 0 ≤ b - a by linarith)
  have iR := toDouble_is_of h (XVal.sub_is (a := .fin b) (b := .fin a) rfl rfl) (by rwa [abs_of_nonneg w0])
  have ba := abs_lt.1 ha.2
  have bb := abs_lt.1 hb.2
  have part : ∀ u : K, 0 ≤ u → u ≤ 1 / 2 → 0 ≤ fl (fl (b - a) * u) ∧ fl (fl (b - a) * u) ≤ b - a ∧
      (((((XVal.fin b).sub (.fin a)).toDouble f fl).mul (.fin u)).toDouble f fl).Is (fl (fl (b - a) * u)) := by
    intro u u0 u1
    have x0 := h.nonneg (mul_nonneg w0 u0)
    have x2 : fl (fl (b - a) * u) ≤ fl (b - a) := by
      have := h.mono (show fl (b - a) * u ≤ fl (b - a) by nlinarith)
      rwa [h.exact (h.format (b - a))] at this
    exact ⟨x0, h.scaled_le hp (OnGrid.sub hb.1.2 ha.1.2) (by linarith) u0 (by linarith),
      toDouble_is_of h (XVal.mul_is iR (b := .fin u) rfl) (by rw [abs_of_nonneg x0]; exact x2.trans_lt hr)⟩
  have fin : ∀ y : K, a ≤ y → y ≤ b → a ≤ fl y ∧ fl y ≤ b ∧ |fl y| < 2 ^ f.top := by
    intro y y0 y1
    have r0 := h.mono y0
    have r1 := h.mono y1
    rw [h.exact ha.1] at r0
    rw [h.exact hb.1] at r1
    exact ⟨r0, r1, abs_lt.2 ⟨by linarith, by linarith⟩⟩
  unfold lerpX
  simp only
  split
  · rename_i hc
    have half : fl (1 - t) ≤ 1 / 2 := by
      have f2 : InFormat f (1 / 2 : K) := by
        have := inFormat_two_zpow (K := K) (f := f) hp (k := -1) (by omega)
        simpa using this
      have := h.mono (show 1 - t ≤ 1 / 2 by linarith)
      rwa [h.exact f2] at this
    obtain ⟨x0, x1, iX⟩ := part (fl (1 - t)) (h.nonneg (by linarith)) half
    obtain ⟨r0, r1, r2⟩ := fin (b - fl (fl (b - a) * fl (1 - t))) (by linarith) (by linarith)
    exact ⟨_, toDouble_is_of h (XVal.sub_is (a := .fin b) rfl iX) r2, r0, r1⟩
  · rename_i hc
    obtain ⟨x0, x1, iX⟩ := part t t0 (by linarith [not_le.1 hc])
    obtain ⟨r0, r1, r2⟩ := fin (a + fl (fl (b - a) * t)) (by linarith) (by linarith)
    exact ⟨_, toDouble_is_of h (XVal.add_is (a := .fin a) rfl iX) r2, r0, r1⟩

/-- **C181.** Percentiles of finite floats, however small or large, are finite and between the smallest and the largest of
them, as long as differences of the data are rounded to finite floats. -/
theorem C181_between (hp : 1 ≤ f.p) (hlow : f.low + f.p ≤ 0) (h : RoundsDouble f fl) {data ps : List K}
    (hf : ∀ x ∈ data, IsDouble f x) (hne : data ≠ []) (hps : ∀ q ∈ ps, 0 ≤ q ∧ q ≤ 100)
    (hr : ∀ x ∈ data, ∀ y ∈ data, x ≤ y → fl (y - x) < 2 ^ f.top) {lo hi : K} (hb : ∀ x ∈ data, lo ≤ x ∧ x ≤ hi) :
    ∃ out, npPercentileX f fl data ps = .ok out ∧ out.length = ps.length ∧
      ∀ v ∈ out, ∃ x, v.val? = some x ∧ lo ≤ x ∧ x ≤ hi := by
  refine ⟨ps.map (percentileX f fl (data.insertionSort (· ≤ ·))), ?_, by simp, ?_⟩
  · unfold npPercentileX
    rw [if_neg (by push Not; exact hps), if_neg hne]
  intro v hv
  obtain ⟨q, hq, rfl⟩ := List.mem_map.1 hv
  have hsort := sort_sorted data
  set s := data.insertionSort (· ≤ ·) with hs
  have hn : 0 < s.length := List.length_pos_of_ne_nil (sort_ne hne)
  have hm : ∀ i, i < s.length → s.getD i 0 ∈ data := fun i hi => by
    rw [List.getD_eq_getElem _ _ hi]
    exact (List.mem_insertionSort (· ≤ ·)).1 (List.getElem_mem _)
  unfold percentileX
  simp only
  split
  · have := hb _ (hm (s.length - 1) (by omega))
    exact ⟨_, rfl, this.1, this.2⟩
  · rename_i hc
    push Not at hc
    have h0 : 0 ≤ positionFl fl s.length q := by
      have : (1 : K) ≤ s.length := by exact_mod_cast hn
      exact h.nonneg (mul_nonneg (h.nonneg (by linarith)) (h.nonneg (div_nonneg (hps q hq).1 (by norm_num))))
    obtain ⟨c1, -⟩ := position_cell h0 hc
    have f1 : InFormat f (1 : K) := by
      have := inFormat_two_zpow (K := K) (f := f) hp (k := 0) (by omega)
      simpa using this
    obtain ⟨t0, t1⟩ := h.unit f1 (Int.fract_nonneg (positionFl fl s.length q)) (Int.fract_lt_one _).le
    have m1 := hm (⌊positionFl fl s.length q⌋.toNat) (by omega)
    have m2 := hm (⌊positionFl fl s.length q⌋.toNat + 1) (by omega)
    have hab := sorted_getD hsort (Nat.le_succ ⌊positionFl fl s.length q⌋.toNat) (by omega)
    obtain ⟨x, e, x0, x1⟩ := lerpX_between hp hlow h (hf _ m1) (hf _ m2) hab (hr _ m1 _ m2 hab) t0 t1
    exact ⟨x, e, (hb _ m1).1.trans x0, x1.trans (hb _ m2).2⟩

/-- **C181** (otherwise): the median of `-2^1023` and `2^1023` is `-inf` for Python floats. -/
theorem C181_wide_fails :
    npPercentileX binary64 (roundDouble binary64) [-2 ^ 1023, 2 ^ 1023] [50] = .ok [(.ninf : XVal ℚ)] ∧
    RoundsDouble binary64 (roundDouble (K := ℚ) binary64) :=
  ⟨by decide +kernel, roundDouble_rounds (by decide)⟩

/-- The hypotheses are met by the smallest floats and by the largest float together with 0. -/
example :
    npPercentileX binary64 (roundDouble binary64) [3 / 2 ^ 1074, 1 / 2 ^ 1074] [0, 50, 100] =
      .ok [.fin (1 / 2 ^ 1074), .fin (2 / 2 ^ 1074), .fin (3 / 2 ^ 1074 : ℚ)] ∧
    npPercentileX binary64 (roundDouble binary64) [(2 ^ 53 - 1) * 2 ^ 971, 0] [50] =
      .ok [.fin ((2 ^ 53 - 1) * 2 ^ 970 : ℚ)] ∧ binary64.low + binary64.p ≤ 0 :=
  ⟨by decide +kernel, by decide +kernel, by decide⟩

end Verif
