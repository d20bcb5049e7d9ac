import Verif.Model.Py
import Mathlib.Data.Int.Basic
import Mathlib.Algebra.BigOperators.Group.List.Basic

/-!
# Dice (`squigglepy/dice.py`, `samplers.py:648-716`)
-/

namespace Verif

/-- An argument that should be an integer: `some z` for an `int`, `none` for anything else. -/
abbrev IntArg := Option ℤ

/-- What can be passed as `explode_on`: nothing, one value, or a list (dice.py:26-28). -/
inductive ExplodeArg where
  | absent
  | one (v : IntArg)
  | list (vs : List IntArg)

/-- `explode_on = [explode_on]` unless it is a list (dice.py:27-28). -/
def ExplodeArg.toList? : ExplodeArg → Option (List IntArg)
  | .absent => none
  | .one v => some [v]
  | .list vs => some vs

/-- A constructed die. -/
structure DieSpec where
  sides : ℤ
  explodeOn : Option (List ℤ)

/-- dice.py:31-33: each value must be an `int` between 1 and `sides`. -/
def checkFaces (sides : ℤ) : List IntArg → Except PyErr (List ℤ)
  | [] => .ok []
  | none :: _ => .error .valueError
  | some v :: rest =>
    if v < 1 ∨ v > sides then .error .valueError
    else do
      let vs ← checkFaces sides rest
      .ok (v :: vs)

/-- `Die.__init__` (dice.py:13-35).  `sides = none` stands for `None` and for any non-`int`; a
distribution passed as `sides` is sampled first (dice.py:16-19) and is represented here by its
value. -/
def dieInit (sides : IntArg) (explodeOn : ExplodeArg) : Except PyErr DieSpec :=
  match sides with
  | none => .error .valueError
  | some s =>
    if s < 2 then .error .valueError
    else match explodeOn.toList? with
      | none => .ok ⟨s, none⟩
      | some vs =>
        if (vs.length : ℤ) ≥ s then .error .valueError
        else do
          let vs' ← checkFaces s vs
          .ok ⟨s, some vs'⟩

/-- The `while roll in explode_list` loop of `_single_roll` (samplers.py:681-683): `roll` is the last
roll, `total` the sum so far.  `next` is one call of the generator; `fuel` bounds the number of
further rolls (the Python loop has no bound). -/
def explodeLoop {S : Type} (next : S → Except PyErr ℤ × S) (explode : List ℤ) :
    ℕ → ℤ → ℤ → S → Except PyErr ℤ × S
  | fuel, roll, total, s =>
    if roll ∈ explode then
      match fuel with
      | 0 => (.error .outOfFuel, s)
      | fuel + 1 =>
        match next s with
        | (.error e, s') => (.error e, s')
        | (.ok r, s') => explodeLoop next explode fuel r (total + r) s'
    else (.ok total, s)

/-- `_single_roll()` (samplers.py:675-684). -/
def singleRoll {S : Type} (next : S → Except PyErr ℤ × S) (explodeOn : Option (List ℤ)) (fuel : ℕ)
    (s : S) : Except PyErr ℤ × S :=
  match next s with
  | (.error e, s') => (.error e, s')
  | (.ok r, s') =>
    match explodeOn with
    | none => (.ok r, s')
    | some l => explodeLoop next l fuel r r s'

end Verif
