import Verif.Spec.SciText

/-!
# Reading a decimal number with commas between groups of digits
-/

namespace Verif

/-- The number written with digits, commas and one point. -/
def readGrouped {K : Type} [Field K] (s : List Char) : K :=
  let body := s.filter (· ≠ ',')
  let whole := body.takeWhile (· ≠ '.')
  let fraction := (body.dropWhile (· ≠ '.')).tail
  (readDigits (whole ++ fraction) : K) / (10 : K) ^ fraction.length

end Verif
