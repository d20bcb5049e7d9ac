import Verif.Model.Forecast
import Mathlib.Tactic.Linarith
import Mathlib.Tactic.Positivity
import Mathlib.Tactic.FieldSimp
import Mathlib.Tactic.Ring

/-!
# Rounding
-/

namespace Verif

section
variable {K : Type} [Field K] [LinearOrder K] [IsStrictOrderedRing K] [FloorRing K]

theorem abs_roundEven_sub_le (x : K) : |(roundEven x : K) - x| ≤ 1 / 2 := by
  have h1 := Int.floor_le x
  have h2 := Int.lt_floor_add_one x
  unfold roundEven
  simp only
  split_ifs with h3 h4 h5
  · rw [abs_le]; constructor <;> linarith
  · push_cast; rw [abs_le]; constructor <;> linarith
  · rw [abs_le]; constructor <;> linarith
  · push_cast; rw [abs_le]; constructor <;> linarith

theorem roundEven_intCast (z : ℤ) : roundEven (z : K) = z := by
  unfold roundEven
  simp only [Int.floor_intCast, sub_self]
  rw [if_pos (by norm_num)]

end

theorem abs_roundTo_sub_le (d : ℕ) (x : ℝ) : |roundTo d x - x| ≤ 1 / (2 * 10 ^ d) := by
  have h := abs_roundEven_sub_le (x * 10 ^ d)
  have hp : (0 : ℝ) < 10 ^ d := by positivity
  unfold roundTo
  have : (roundEven (x * 10 ^ d) : ℝ) / 10 ^ d - x = ((roundEven (x * 10 ^ d) : ℝ) - x * 10 ^ d) / 10 ^ d := by
    field_simp
  rw [this, abs_div, abs_of_pos hp, div_le_div_iff₀ hp (by positivity)]
  nlinarith

theorem roundTo_exact (d : ℕ) (x : ℝ) (z : ℤ) (h : x * 10 ^ d = z) : roundTo d x = x := by
  have hp : (10 : ℝ) ^ d ≠ 0 := by positivity
  unfold roundTo
  rw [h, roundEven_intCast, ← h]
  field_simp

end Verif
