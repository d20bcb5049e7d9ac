import Verif.Model.SampleCache

/-!
# Which distributions print the same

`sample` caches under `str(dist)`.  This file says, without any strings, when two distribution expressions
print the same.
-/

namespace Verif.Spec

open Verif

variable {σ K : Type} [Field K] [LinearOrder K] [FloorRing K]

/-- The operators written between their operands. -/
def Infix (o : BinOp) : Prop := o ≠ .max ∧ o ≠ .min

/-- `x`, rounded to two decimals (halves to even), is `k` hundredths. -/
def IsHundredths (x : K) (k : ℤ) : Prop := |100 * x - k| ≤ 1 / 2 ∧ (|100 * x - k| = 1 / 2 → Even k)

/-- Two numbers are the same after rounding to two decimals. -/
def SameHundredths (x y : K) : Prop := ∃ k : ℤ, IsHundredths x k ∧ IsHundredths y k

/-- `PrintsAlike d e`: the expressions differ only in
* the way operators are grouped: `(a ⋄ b) ∘ c` and `a ⋄ (b ∘ c)`, `-(a ⋄ b)` and `(-a) ⋄ b`;
* the parameters of normal distributions, beyond two decimals;
* the correlation group of a variable;
* the bounds of a mixture;
* the credibility of a `t` distribution without an interval, which means nothing. -/
inductive PrintsAlike : Obj (St σ K) K → Obj (St σ K) K → Prop
  | refl (d) : PrintsAlike d d
  | symm {d e} : PrintsAlike d e → PrintsAlike e d
  | trans {d e f} : PrintsAlike d e → PrintsAlike e f → PrintsAlike d f
  | regroup {o o' : BinOp} (ho : Infix o) (ho' : Infix o') (a b c) :
      PrintsAlike (.bin (.op o') (.bin (.op o) a b) c) (.bin (.op o) a (.bin (.op o') b c))
  | negFirst {o : BinOp} (ho : Infix o) (a b) :
      PrintsAlike (.un .neg (.bin (.op o) a b)) (.bin (.op o) (.un .neg a) b)
  | normal {m m' s s' : K} (lc rc) (hm : SameHundredths m m') (hs : SameHundredths s s') :
      PrintsAlike (.leaf (.normal m s) lc rc) (.leaf (.normal m' s') lc rc)
  | corr (g m : ℕ) (ms : Fin m → Obj (St σ K) K) (i : Fin m) : PrintsAlike (.corr g m ms i) (ms i)
  | tdist (t c c' : K) (lc rc) :
      PrintsAlike (.leaf (.tdist none none t c) lc rc) (.leaf (.tdist none none t c') lc rc)
  | logtdist (t c c' : K) (lc rc) :
      PrintsAlike (.leaf (.logtdist none none t c) lc rc) (.leaf (.logtdist none none t c') lc rc)
  | un (f : UnFn) {a b} : PrintsAlike a b → PrintsAlike (.un f a) (.un f b)
  | bin (f : BinFn) {a a' b b'} : PrintsAlike a a' → PrintsAlike b b' →
      PrintsAlike (.bin f a b) (.bin f a' b')
  | mix {k : ℕ} {ds es : Fin k → Obj (St σ K) K} (ws : List K) (lc rc lc' rc') :
      (∀ i, PrintsAlike (ds i) (es i)) → PrintsAlike (.mix k ds ws lc rc) (.mix k es ws lc' rc')

/-- A number. -/
def IsNumber : Scalar K → Prop
  | .int _ => True
  | .flt _ => True
  | _ => False

/-- The expression starts with a plain number: `3 + norm(1, 2)`. -/
def startsWithNumber : Obj (St σ K) K → Prop
  | .lit _ => True
  | .bin (.op .max) _ _ => False
  | .bin (.op .min) _ _ => False
  | .bin (.op _) l _ => startsWithNumber l
  | .un .neg l => startsWithNumber l
  | .corr _ _ ms i => startsWithNumber (ms i)
  | _ => False

/-- The basic distributions whose printed form is modelled, with numbers as parameters and bounds (and
bounds only where the constructor takes some). -/
def PlainLeaf (l : Leaf K) (lc rc : Option (Scalar K)) : Prop :=
  (∀ v, lc = some v → IsNumber v) ∧ (∀ v, rc = some v → IsNumber v) ∧
  match l with
  | .const v => IsNumber v ∧ lc = none ∧ rc = none
  | .uniform _ _ | .binomial _ _ | .beta _ _ | .bernoulli _ | .triangular _ _ _ | .chisquare _ | .pareto _
  | .geometric _ | .coin => lc = none ∧ rc = none
  | .die d => d.explodeOn = none ∧ lc = none ∧ rc = none
  | .normal _ _ | .poisson _ | .exponential _ | .gamma _ _ | .pert _ _ _ _ => True
  | .tdist x y _ _ | .logtdist x y _ _ => x = none ↔ y = none
  | .lognormal _ _ | .invlognormal _ _ | .categorical _ => False

/-- Expressions made of numbers, basic distributions, the operators and the library's functions.  (A minus
sign in front of a plain number would print like a negative number.) -/
def Plain : Obj (St σ K) K → Prop
  | .lit v => IsNumber v
  | .leaf l lc rc => PlainLeaf l lc rc
  | .un .neg d => Plain d ∧ ¬ startsWithNumber d
  | .un _ d => Plain d
  | .bin _ l r => Plain l ∧ Plain r
  | .corr _ _ ms i => Plain (ms i)
  | _ => False

/-- A plain expression, or a mixture of plain expressions with one weight for each. -/
def Printable : Obj (St σ K) K → Prop
  | .mix k ds ws _ _ => 1 ≤ k ∧ ws.length = k ∧ ∀ i, Plain (ds i)
  | d => Plain d

/-- What is assumed about the way Python prints floats: different ones print differently, none prints like an
integer, the text starts with a digit or with a minus sign and a digit, and has no spaces, commas,
parentheses or line ends. -/
structure PrintsNumbers (num : K → String) : Prop where
  inj : ∀ x y, num x = num y → x = y
  notInt : ∀ x (z : ℤ), num x ≠ toString z
  chars : ∀ x, ∀ c ∈ (num x).toList, c ≠ ' ' ∧ c ≠ ',' ∧ c ≠ '(' ∧ c ≠ ')' ∧ c ≠ '\n'
  starts : ∀ x, (∃ c r, (num x).toList = c :: r ∧ c.isDigit = true) ∨
    ∃ c r, (num x).toList = '-' :: c :: r ∧ c.isDigit = true

end Verif.Spec
