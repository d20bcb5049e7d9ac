import Verif.Spec.Special

/-!
# How large the value of a model can be

A bound on the exponent of a model of positive quantities, read off its form: if the `k`-th distribution has samples
between `2^-(B k)` and `2^(B k)`, then `Sized B e m` means that by ordinary arithmetic the value of `e`, and that of each of
its parts, lies between `2^-m` and `2^m`.
-/

namespace Verif.Spec

variable {K : Type} [Field K] [LinearOrder K]

/-- `x` lies between `2^-m` and `2^m`. -/
def Within (m : ℕ) (x : K) : Prop := (2 : K) ^ (-(m : ℤ)) ≤ x ∧ x ≤ (2 : K) ^ (m : ℤ)

/-- `x` is zero, or its size lies between `2^-m` and `2^m`. -/
def Moderate (m : ℕ) (x : K) : Prop := x = 0 ∨ Within m |x|

/-- The exponent of sums grows by one, exponents of products and quotients add up. -/
inductive Sized (B : ℕ → ℕ) : XExpr K → ℕ → Prop
  | src (k : ℕ) : Sized B (.src k) (B k)
  | num {x : K} {m : ℕ} : Within m x → Sized B (.num x) m
  | add {a b : XExpr K} {m n : ℕ} : Sized B a m → Sized B b n → Sized B (.bin .add a b) (Nat.max m n + 1)
  | mul {a b : XExpr K} {m n : ℕ} : Sized B a m → Sized B b n → Sized B (.bin .mul a b) (m + n)
  | div {a b : XExpr K} {m n : ℕ} : Sized B a m → Sized B b n → Sized B (.bin .div a b) (m + n)
  | max {a b : XExpr K} {m n : ℕ} : Sized B a m → Sized B b n → Sized B (.bin .max a b) (Nat.max m n)
  | min {a b : XExpr K} {m n : ℕ} : Sized B a m → Sized B b n → Sized B (.bin .min a b) (Nat.max m n)
  | lclip {e : XExpr K} {c : K} {m n : ℕ} : Sized B e m → Within n c → Sized B (.lclip e c) (Nat.max m n)
  | rclip {e : XExpr K} {c : K} {m n : ℕ} : Sized B e m → Within n c → Sized B (.rclip e c) (Nat.max m n)

/-- The exponents of any model, computed with `p` digits: when digits cancel in a sum or difference, what is left may be
smaller by `p` binary digits. -/
inductive Spans (p : ℕ) (B : ℕ → ℕ) : XExpr K → ℕ → Prop
  | src (k : ℕ) : Spans p B (.src k) (B k)
  | num {x : K} {m : ℕ} : Moderate m x → Spans p B (.num x) m
  | neg {e : XExpr K} {m : ℕ} : Spans p B e m → Spans p B (.neg e) m
  | add {a b : XExpr K} {m n : ℕ} : Spans p B a m → Spans p B b n → Spans p B (.bin .add a b) (Nat.max m n + p)
  | sub {a b : XExpr K} {m n : ℕ} : Spans p B a m → Spans p B b n → Spans p B (.bin .sub a b) (Nat.max m n + p)
  | mul {a b : XExpr K} {m n : ℕ} : Spans p B a m → Spans p B b n → Spans p B (.bin .mul a b) (m + n)
  | div {a b : XExpr K} {m n : ℕ} : Spans p B a m → Spans p B b n → Spans p B (.bin .div a b) (m + n)
  | max {a b : XExpr K} {m n : ℕ} : Spans p B a m → Spans p B b n → Spans p B (.bin .max a b) (Nat.max m n)
  | min {a b : XExpr K} {m n : ℕ} : Spans p B a m → Spans p B b n → Spans p B (.bin .min a b) (Nat.max m n)
  | lclip {e : XExpr K} {c : K} {m n : ℕ} : Spans p B e m → Moderate n c → Spans p B (.lclip e c) (Nat.max m n)
  | rclip {e : XExpr K} {c : K} {m n : ℕ} : Spans p B e m → Moderate n c → Spans p B (.rclip e c) (Nat.max m n)

end Verif.Spec
