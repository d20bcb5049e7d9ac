import Mathlib.Data.List.Basic

/-!
# Specification: the calendar, and how dates are written
-/

namespace Verif.Spec

/-- Leap years: every fourth year, but of the full centuries only every fourth. -/
def LeapYear (y : ℕ) : Prop := 4 ∣ y ∧ (100 ∣ y → 400 ∣ y)

instance (y : ℕ) : Decidable (LeapYear y) := inferInstanceAs (Decidable (_ ∧ _))

/-- The last day of a month: thirty days have September, April, June and November, the others 31, save February. -/
def lastDay (y m : ℕ) : ℕ :=
  if m = 2 then (if LeapYear y then 29 else 28)
  else if m = 4 ∨ m = 6 ∨ m = 9 ∨ m = 11 then 30 else 31

/-- The dates from the first of January 1 to the 31st of December 9999. -/
structure IsDate (y m d : ℕ) : Prop where
  year : 1 ≤ y ∧ y ≤ 9999
  month : 1 ≤ m ∧ m ≤ 12
  day : 1 ≤ d ∧ d ≤ lastDay y m

/-- The next day. -/
def tomorrow : ℕ × ℕ × ℕ → ℕ × ℕ × ℕ
  | (y, m, d) => if d < lastDay y m then (y, m, d + 1) else if m < 12 then (y, m + 1, 1) else (y + 1, 1, 1)

/-- A decimal digit of a number, `k` places from the right. -/
def digitAt (k n : ℕ) : Char := Nat.digitChar (n / 10 ^ k % 10)

/-- A year in four digits. -/
def yearText (y : ℕ) : List Char := [digitAt 3 y, digitAt 2 y, digitAt 1 y, digitAt 0 y]

/-- A month with two digits, or with one. -/
def monthTexts (m : ℕ) : List (List Char) := [digitAt 1 m, digitAt 0 m] :: if m < 10 then [[digitAt 0 m]] else []

/-- A day with two digits, or with one, or with a blank and one. -/
def dayTexts (d : ℕ) : List (List Char) :=
  [digitAt 1 d, digitAt 0 d] :: if d < 10 then [[digitAt 0 d], [' ', digitAt 0 d]] else []

/-- The text is a way to write the date as YYYY-MM-DD. -/
def Writes (text : List Char) (y m d : ℕ) : Prop :=
  ∃ a ∈ monthTexts m, ∃ b ∈ dayTexts d, text = yearText y ++ ['-'] ++ a ++ ['-'] ++ b

end Verif.Spec
