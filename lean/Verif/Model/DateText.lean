import Verif.Model.KellyDate

/-!
# The date string of `kelly` (utils.py:968)

`datetime.strptime(resolve_date, "%Y-%m-%d")` compiles the format to the regular expression
`(\d\d\d\d)-(1[0-2]|0[1-9]|[1-9])-(3[0-1]|[1-2]\d|0[1-9]|[1-9]| [1-9])`, matches it from the start of the string, raises
ValueError if there is no match or if something is left over, and builds a `datetime`, which raises ValueError if there is
no such day.  Simplification: `\d` is one of the ten ASCII digits.
-/

namespace Verif

/-- The value of a digit from `lo` to `hi`. -/
def digitIn (lo hi : ℕ) (c : Char) : Option ℕ :=
  if lo ≤ c.toNat - 48 ∧ c.toNat - 48 ≤ hi ∧ 48 ≤ c.toNat then some (c.toNat - 48) else none

/-- `\d\d\d\d` (utils.py:968, `%Y`). -/
def yearPart : List Char → Option (ℕ × List Char)
  | a :: b :: c :: d :: r =>
    (digitIn 0 9 a).bind fun i => (digitIn 0 9 b).bind fun j => (digitIn 0 9 c).bind fun k =>
      (digitIn 0 9 d).map fun l => (((i * 10 + j) * 10 + k) * 10 + l, r)
  | _ => none

/-- The alternatives of one group of the regular expression: a character from a range, then perhaps another one.  The first
alternative that matches counts (a later one leaves a digit where a dash is needed). -/
def twoChars (c : Char) (lo hi : ℕ) (value : ℕ) : List Char → Option (ℕ × List Char)
  | a :: b :: r => if a = c then (digitIn lo hi b).map fun k => (value + k, r) else none
  | _ => none

/-- `[1-9]`. -/
def oneChar : List Char → Option (ℕ × List Char)
  | a :: r => (digitIn 1 9 a).map fun k => (k, r)
  | [] => none

/-- `1[0-2]|0[1-9]|[1-9]` (utils.py:968, `%m`). -/
def monthPart (s : List Char) : Option (ℕ × List Char) :=
  twoChars '1' 0 2 10 s <|> twoChars '0' 1 9 0 s <|> oneChar s

/-- `3[0-1]|[1-2]\d|0[1-9]|[1-9]| [1-9]` (utils.py:968, `%d`). -/
def dayPart (s : List Char) : Option (ℕ × List Char) :=
  twoChars '3' 0 1 30 s <|> twoChars '1' 0 9 10 s <|> twoChars '2' 0 9 20 s <|> twoChars '0' 1 9 0 s <|> oneChar s <|>
    twoChars ' ' 1 9 0 s

/-- A dash. -/
def dash : List Char → Option (List Char)
  | '-' :: r => some r
  | _ => none

/-- `calendar.isleap` as the standard library's `datetime` computes it (behind utils.py:968). -/
def isLeap (y : ℕ) : Bool := y % 4 = 0 && (y % 100 ≠ 0 || y % 400 = 0)

/-- `datetime._DAYS_IN_MONTH` and `_days_in_month` (behind utils.py:968). -/
def monthLength (y m : ℕ) : ℕ :=
  if m = 2 && isLeap y then 29 else [0, 31, 28, 31, 30, 31, 30, 31, 31, 30, 31, 30, 31].getD m 0

/-- `datetime._DAYS_BEFORE_MONTH` and `_days_before_month` (behind utils.py:969). -/
def daysBeforeMonth (y m : ℕ) : ℕ :=
  [0, 0, 31, 59, 90, 120, 151, 181, 212, 243, 273, 304, 334].getD m 0 + if m > 2 && isLeap y then 1 else 0

/-- `datetime._days_before_year` (behind utils.py:969). -/
def daysBeforeYear (y : ℕ) : ℕ := (y - 1) * 365 + (y - 1) / 4 - (y - 1) / 100 + (y - 1) / 400

/-- `datetime.toordinal`: the number of the day, 1 for the first of January of the year 1 (behind utils.py:969; differences
of datetimes are differences of these numbers and of the times of the day). -/
def toOrdinal (y m d : ℕ) : ℕ := daysBeforeYear y + daysBeforeMonth y m + d

/-- `datetime.strptime(text, "%Y-%m-%d")` (utils.py:968). -/
def parseDate (text : List Char) : Except PyErr (ℕ × ℕ × ℕ) :=
  match (do
    let (y, r) ← yearPart text
    let r ← dash r
    let (m, r) ← monthPart r
    let r ← dash r
    let (d, r) ← dayPart r
    return (y, m, d, r)) with
  | none => .error .valueError
  | some (y, m, d, r) =>
    if r ≠ [] then .error .valueError
    else if y < 1 ∨ 9999 < y ∨ m < 1 ∨ 12 < m ∨ d < 1 ∨ monthLength y m < d then .error .valueError
    else .ok (y, m, d)

/-- `kelly(..., resolve_date=text)` called at time `now`, in days since the beginning of day 0 (utils.py:951-986).  The checks
of the prices come first. -/
noncomputable def kellyText (now : ℝ) (my market deference bankroll : ℝ) (text : List Char) (current : ℝ) (error : Bool) :
    Except PyErr KellyBet := do
  let _ ← kelly my market deference bankroll none current error
  let (y, m, d) ← parseDate text
  kellyAt now my market deference bankroll (some ((toOrdinal y m d : ℕ) : ℤ)) current error

end Verif
