import Verif.Model.Py
import Mathlib.Data.Int.Basic

/-! # Specification vocabulary for dice: what it means that a generator produced certain rolls. -/

namespace Verif

/-- Calling the roll function `next` repeatedly from state `s` yields the rolls `rs`, in this order,
without an exception, and ends in state `s'`. -/
inductive Draws {S : Type} (next : S → Except PyErr ℤ × S) : S → List ℤ → S → Prop
  | nil (s : S) : Draws next s [] s
  | cons {s s1 s2 : S} {r : ℤ} {rs : List ℤ} :
      next s = (.ok r, s1) → Draws next s1 rs s2 → Draws next s (r :: rs) s2

end Verif
