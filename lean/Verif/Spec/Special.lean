import Mathlib.Algebra.Order.Field.Basic

/-!
# Specification for divisions by zero in expressions (C133)

An expression over given samples, with ordinary arithmetic: it has no value where a divisor is zero.
-/

namespace Verif.Spec

/-- Binary operations between distributions. -/
inductive XOp where
  | add | sub | mul | div | max | min
  deriving DecidableEq

/-- An expression of distributions: `src k` is the `k`-th distribution it is built from (each occurrence is
sampled on its own), `num` a number. -/
inductive XExpr (K : Type) where
  | src (k : ℕ)
  | num (x : K)
  | neg (e : XExpr K)
  | bin (o : XOp) (a b : XExpr K)
  | lclip (e : XExpr K) (bound : K)
  | rclip (e : XExpr K) (bound : K)

variable {K : Type} [Field K] [LinearOrder K]

/-- With the value `f k` for the `k`-th distribution, `e` has the value `v` in ordinary arithmetic. -/
inductive Evaluates (f : ℕ → K) : XExpr K → K → Prop
  | src (k : ℕ) : Evaluates f (.src k) (f k)
  | num (x : K) : Evaluates f (.num x) x
  | neg {e : XExpr K} {v : K} : Evaluates f e v → Evaluates f (.neg e) (-v)
  | add {a b : XExpr K} {v w : K} : Evaluates f a v → Evaluates f b w → Evaluates f (.bin .add a b) (v + w)
  | sub {a b : XExpr K} {v w : K} : Evaluates f a v → Evaluates f b w → Evaluates f (.bin .sub a b) (v - w)
  | mul {a b : XExpr K} {v w : K} : Evaluates f a v → Evaluates f b w → Evaluates f (.bin .mul a b) (v * w)
  | div {a b : XExpr K} {v w : K} : Evaluates f a v → Evaluates f b w → w ≠ 0 →
      Evaluates f (.bin .div a b) (v / w)
  | max {a b : XExpr K} {v w : K} : Evaluates f a v → Evaluates f b w →
      Evaluates f (.bin .max a b) (Max.max v w)
  | min {a b : XExpr K} {v w : K} : Evaluates f a v → Evaluates f b w →
      Evaluates f (.bin .min a b) (Min.min v w)
  | lclip {e : XExpr K} {v c : K} : Evaluates f e v → Evaluates f (.lclip e c) (Max.max v c)
  | rclip {e : XExpr K} {v c : K} : Evaluates f e v → Evaluates f (.rclip e c) (Min.min v c)

/-- `XInside c e`: `c` is `e` or a part of it. -/
inductive XInside : XExpr K → XExpr K → Prop
  | refl (e : XExpr K) : XInside e e
  | neg {c e : XExpr K} : XInside c e → XInside c (.neg e)
  | left {c a : XExpr K} (o : XOp) (b : XExpr K) : XInside c a → XInside c (.bin o a b)
  | right {c b : XExpr K} (o : XOp) (a : XExpr K) : XInside c b → XInside c (.bin o a b)
  | lclip {c e : XExpr K} (x : K) : XInside c e → XInside c (.lclip e x)
  | rclip {c e : XExpr K} (x : K) : XInside c e → XInside c (.rclip e x)

/-- The distributions in an expression, from left to right. -/
def sources : XExpr K → List ℕ
  | .src k => [k]
  | .num _ => []
  | .neg e => sources e
  | .bin _ a b => sources a ++ sources b
  | .lclip e _ => sources e
  | .rclip e _ => sources e

/-- Only `+`, `-`, `*`, `/` and negation: no `dist_max`, `dist_min`, `lclip`, `rclip`. -/
def Plain4 : XExpr K → Prop
  | .src _ => True
  | .num _ => True
  | .neg e => Plain4 e
  | .bin o a b => o ≠ .max ∧ o ≠ .min ∧ Plain4 a ∧ Plain4 b
  | .lclip _ _ => False
  | .rclip _ _ => False

end Verif.Spec
