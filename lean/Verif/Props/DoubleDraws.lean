import Verif.Model.DoubleDraws
import Verif.Props.DoubleBayes

/-!
# C179: uniform and PERT draws with floats of any size
-/

namespace Verif

open Spec

variable {K : Type} [Field K] [LinearOrder K] [IsStrictOrderedRing K] [FloorRing K] {f : FloatFormat} {fl : K → K}

/-- A fraction of a rounded range is at most the range, also where digits are lost to subnormal numbers. -/
theorem RoundsDouble.scaled_le (h : RoundsDouble f fl) (hp : 1 ≤ f.p) {d u : K} (hd : OnGrid f d) (hd0 : 0 ≤ d)
    (h0 : 0 ≤ u) (hu : u ≤ 1 - ulp f.p) : fl (fl d * u) ≤ d := by
  have hu1 : u ≤ 1 := by linarith [ulp_pos (K := K) f.p]
  have t := inFormat_two_zpow (K := K) (f := f) hp (k := f.low + f.p - 1) le_rfl
  rcases le_or_gt d (2 ^ (f.low + f.p - 1)) with hc | hc
  · have hf : InFormat f d := ⟨isFloat_of_small hp hd (by rwa [abs_of_nonneg hd0]), hd⟩
    rw [h.exact hf]
    have := h.mono (show d * u ≤ d by nlinarith)
    rwa [h.exact hf] at this
  · obtain ⟨fl', h', he⟩ := h.unlimited hp
    have e1 : fl d = fl' d := he d (.inl hd)
    rcases le_or_gt (fl d * u) (2 ^ (f.low + f.p - 1)) with hs | hs
    · have := h.mono hs
      rw [h.exact t] at this
      exact this.trans hc.le
    · rw [he (fl d * u) (.inr (hs.le.trans (le_abs_self _))), e1]
      exact h'.scaled_le hp hd0 h0 hu

theorem draw_between (hp : 1 ≤ f.p) (h : RoundsDouble f fl) {low high u : K} (hl : IsDouble f low)
    (hh : IsDouble f high) (hle : low ≤ high) (hf : IsFloat f.p u) (h0 : 0 ≤ u) (h1 : u < 1) :
    0 ≤ fl (fl (high - low) * u) ∧ fl (fl (high - low) * u) ≤ fl (high - low) ∧
      low ≤ fl (low + fl (fl (high - low) * u)) ∧ fl (low + fl (fl (high - low) * u)) ≤ high ∧
      |fl (low + fl (fl (high - low) * u))| < 2 ^ f.top := by
  have w0 := h.nonneg (show 0 ≤ high - low by linarith)
  have x0 := h.nonneg (mul_nonneg w0 h0)
  have x1 := h.scaled_le hp (OnGrid.sub hh.1.2 hl.1.2) (by linarith) h0 (isFloat_lt_one hp hf h1)
  have x2 : fl (fl (high - low) * u) ≤ fl (high - low) := by
    have := h.mono (show fl (high - low) * u ≤ fl (high - low) by nlinarith)
    rwa [h.exact (h.format (high - low))] at this
  have r0 := h.mono (show low ≤ low + fl (fl (high - low) * u) by linarith)
  have r1 := h.mono (show low + fl (fl (high - low) * u) ≤ high by linarith)
  rw [h.exact hl.1] at r0
  rw [h.exact hh.1] at r1
  refine ⟨x0, x2, r0, r1, ?_⟩
  have a := abs_lt.1 hl.2
  have b := abs_lt.1 hh.2
  exact abs_lt.2 ⟨by linarith, by linarith⟩

/-- **C179.** Every number of `uniform(low, high)` is finite and lies in `[low, high]`, for all finite floats `low ≤ high`
whose difference is rounded to a finite float, subnormal ones included. -/
theorem C179_uniform (hp : 1 ≤ f.p) (h : RoundsDouble f fl) {low high u : K} (hl : IsDouble f low)
    (hh : IsDouble f high) (hle : low ≤ high) (hr : fl (high - low) < 2 ^ f.top) (hf : IsFloat f.p u) (h0 : 0 ≤ u)
    (h1 : u < 1) : ∃ v x, uniformX f fl low high u = some v ∧ v.val? = some x ∧ low ≤ x ∧ x ≤ high := by
  obtain ⟨x0, x2, r0, r1, r2⟩ := draw_between hp h hl hh hle hf h0 h1
  have w0 := h.nonneg (show 0 ≤ high - low by linarith)
  have iR := toDouble_is_of h (XVal.sub_is (a := .fin high) (b := .fin low) rfl rfl) (by rwa [abs_of_nonneg w0])
  have iX := toDouble_is_of h (XVal.mul_is iR (b := .fin u) rfl) (by rw [abs_of_nonneg x0]; exact x2.trans_lt hr)
  have iS := toDouble_is_of h (XVal.add_is (a := .fin low) rfl iX) r2
  unfold uniformX
  simp only
  rw [show _ = some (fl (high - low)) from iR, if_neg (by simp)]
  exact ⟨_, _, rfl, iS, r0, r1⟩

/-- **C179** (when there is no error): the difference is finite whenever both ends are at most half the largest power of 2,
or have the same sign. -/
theorem C179_range (hf : f.Usual) (h : RoundsDouble f fl) {low high : K} (hl : IsDouble f low)
    (hh : IsDouble f high) (hle : low ≤ high)
    (hs : |low| ≤ 2 ^ (f.top - 2) ∧ |high| ≤ 2 ^ (f.top - 2) ∨ 0 ≤ low ∨ high ≤ 0) :
    fl (high - low) < 2 ^ f.top := by
  have a1 := hf.fine
  have a2 := hf.large
  have a3 := hf.digits
  rcases hs with ⟨h1, h2⟩ | h1 | h1
  · have e : (2 : K) ^ (f.top - 1) = 2 * 2 ^ (f.top - 2) := by
      rw [show f.top - 2 = f.top - 1 - 1 by ring, zpow_sub_one₀ two_ne_zero (f.top - 1)]
      ring
    have := h.mono (show high - low ≤ 2 ^ (f.top - 1) by linarith [(abs_le.1 h1).1, (abs_le.1 h2).2])
    rw [h.exact (inFormat_two_zpow (by omega) (by omega))] at this
    exact this.trans_lt (zpow_lt_zpow_right₀ one_lt_two (by omega))
  · have := h.mono (show high - low ≤ high by linarith)
    rw [h.exact hh.1] at this
    exact this.trans_lt ((le_abs_self _).trans_lt hh.2)
  · have := h.mono (show high - low ≤ -low by linarith)
    rw [h.exact (inFormat_neg hl.1)] at this
    exact this.trans_lt ((neg_le_abs _).trans_lt hl.2)

/-- **C179** (otherwise): `uniform(-2^1023, 2^1023)` raises for Python floats, although both ends are floats. -/
theorem C179_wide_fails (hf : f.Usual) (h : RoundsDouble f fl) (u : K) :
    IsDouble f (-(2 : K) ^ (f.top - 1)) ∧ IsDouble f ((2 : K) ^ (f.top - 1)) ∧
      uniformX f fl (-2 ^ (f.top - 1)) (2 ^ (f.top - 1)) u = none := by
  have a1 := hf.fine
  have a2 := hf.large
  have a3 := hf.digits
  have p0 : (0 : K) < 2 ^ (f.top - 1) := by positivity
  have d : IsDouble f ((2 : K) ^ (f.top - 1)) :=
    ⟨inFormat_two_zpow (by omega) (by omega), by
      rw [abs_of_pos p0]
      exact zpow_lt_zpow_right₀ one_lt_two (by omega)⟩
  refine ⟨⟨inFormat_neg d.1, by rw [abs_neg]; exact d.2⟩, d, ?_⟩
  have e : (2 : K) ^ f.top = 2 ^ (f.top - 1) + 2 ^ (f.top - 1) := by
    rw [zpow_sub_one₀ two_ne_zero]
    ring
  have s : (XVal.fin ((2 : K) ^ (f.top - 1))).sub (.fin (-2 ^ (f.top - 1))) = .fin (2 ^ f.top) := by
    rw [e]
    simp [XVal.sub, XVal.add, XVal.neg, XVal.signed, XVal.val?, p0.ne']
  unfold uniformX
  simp only
  rw [s, toDouble_pinf h hf le_rfl, if_pos (by simp [XVal.val?])]

/-- **C179** (`pert`): so do the numbers of `pert(left, mode, right)`, unless the beta distribution returned 1. -/
theorem C179_pert_partial (hp : 1 ≤ f.p) (h : RoundsDouble f fl) {left right b : K} (hl : IsDouble f left)
    (hh : IsDouble f right) (hle : left ≤ right) (hr : fl (right - left) < 2 ^ f.top) (hf : IsFloat f.p b) (h0 : 0 ≤ b)
    (h1 : b < 1) : ∃ x, (pertX f fl left right b).val? = some x ∧ left ≤ x ∧ x ≤ right := by
  obtain ⟨x0, x2, r0, r1, r2⟩ := draw_between hp h hl hh hle hf h0 h1
  have w0 := h.nonneg (show 0 ≤ right - left by linarith)
  have iR := toDouble_is_of h (XVal.sub_is (a := .fin right) (b := .fin left) rfl rfl) (by rwa [abs_of_nonneg w0])
  rw [mul_comm] at x0 x2 r0 r1 r2
  have iX := toDouble_is_of h (XVal.mul_is (a := .fin b) rfl iR) (by rw [abs_of_nonneg x0]; exact x2.trans_lt hr)
  exact ⟨_, toDouble_is_of h (XVal.add_is (a := .fin left) rfl iX) r2, r0, r1⟩

/-- **C179** (`pert` with a range that is not finite): draws are infinite.  This is reached with `pert(-2^1023, 0, 2^1023, lam=0.25)`,
whose beta distribution has both parameters 1. -/
theorem C179_pert_fails :
    pertX binary64 (roundDouble binary64) (-2 ^ 1023) (2 ^ 1023) (1 / 2 : ℚ) = .pinf ∧
    RoundsDouble binary64 (roundDouble (K := ℚ) binary64) :=
  ⟨by decide +kernel, roundDouble_rounds (by decide)⟩

/-- The hypotheses are met: subnormal ends, and the largest float as right end. -/
example :
    uniformX binary64 (roundDouble binary64) (1 / 2 ^ 1074) (3 / 2 ^ 1074) (3 / 4 : ℚ) = some (.fin (3 / 2 ^ 1074)) ∧
    uniformX binary64 (roundDouble binary64) 0 ((2 ^ 53 - 1) * 2 ^ 971) (1 / 2 : ℚ) =
      some (.fin ((2 ^ 53 - 1) * 2 ^ 970)) ∧
    pertX binary64 (roundDouble binary64) (-3) 5 (1 / 4 : ℚ) = .fin (-1) ∧
    IsDouble binary64 (3 / 2 ^ 1074 : ℚ) := by
  refine ⟨by decide +kernel, by decide +kernel, by decide +kernel, ⟨⟨3, -1074, ?_, ?_⟩, 3, ?_⟩, ?_⟩
  · norm_num [binary64]
  · rw [zpow_neg]; rfl
  · show _ = _ * (2 : ℚ) ^ (-1074 : ℤ)
    rw [zpow_neg]; rfl
  · rw [abs_of_pos (by positivity)]
    show _ < (2 : ℚ) ^ (1024 : ℤ)
    decide +kernel

end Verif
