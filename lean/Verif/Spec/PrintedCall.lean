import Verif.Model.SampleCache
import Mathlib.Data.Real.Basic

/-!
# Calls as they are written in a program

A call `name(v, ..., key=v, ...)` whose arguments are literals, and its text.  `num` is the way floats are
written.
-/

namespace Verif.Spec

open Verif

/-- One argument: positional, or with a keyword. -/
structure Arg where
  key : Option String := none
  val : Scalar ℝ

/-- A call with literal arguments. -/
structure Call where
  name : String
  args : List Arg

/-- A literal; texts are written in quotes. -/
def literal (num : ℝ → String) : Scalar ℝ → String
  | .str s => "'" ++ s ++ "'"
  | .int z => toString z
  | .flt x => num x
  | .bool true => "True"
  | .bool false => "False"
  | .none => "None"

/-- `v` or `key=v`. -/
def Arg.text (num : ℝ → String) (a : Arg) : String :=
  match a.key with
  | some k => k ++ "=" ++ literal num a.val
  | none => literal num a.val

/-- The arguments, separated by commas. -/
def argsText (num : ℝ → String) : List Arg → String
  | [] => ""
  | [a] => a.text num
  | a :: b :: as => a.text num ++ ", " ++ argsText num (b :: as)

/-- The text of the call. -/
def Call.text (num : ℝ → String) (c : Call) : String := c.name ++ "(" ++ argsText num c.args ++ ")"

/-- The same distribution.  The credibility of a `t` distribution without an interval means nothing. -/
def SameDist {S : Type} (d e : Obj S ℝ) : Prop :=
  d = e ∨ (∃ t c c' lc rc, d = .leaf (.tdist none none t c) lc rc ∧ e = .leaf (.tdist none none t c') lc rc) ∨
    ∃ t c c' lc rc, d = .leaf (.logtdist none none t c) lc rc ∧ e = .leaf (.logtdist none none t c') lc rc

/-- `x` has at most two decimals. -/
def TwoDecimals (x : ℝ) : Prop := ∃ k : ℤ, 100 * x = k

end Verif.Spec
