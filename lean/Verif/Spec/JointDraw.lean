import Mathlib.Data.List.Basic

/-!
# Specification: reading correlated variables

An abstract account of a history of `sample` calls on members of one correlation group.  `Draw` says
what a joint draw is, `Ret i args col r` says that the answer `r` to a call with arguments `args` is
the column `col` of member `i` (clipped as the call asks).
-/

namespace Verif.Spec

/-- `Joint Draw Ret cur read h`: the history `h` of (member, arguments, answer) is explained by joint
draws, when `cur` is the most recent joint draw (if any) and `read` are the members whose column of
that draw has already been handed out.

* `same`: a member not read since the last joint draw gets its column of that draw;
* `fresh`: when there is no joint draw yet, or the member has already been read, a new joint draw is
  made and the member gets its column of the new draw;
* `failed`: the call raises an error and nothing changes. -/
inductive Joint {A R C : Type} (Draw : A → List C → Prop) (Ret : ℕ → A → C → R → Prop)
    (Fail : R → Prop) : Option (List C) → List ℕ → List (ℕ × A × R) → Prop
  | nil (cur read) : Joint Draw Ret Fail cur read []
  | same {cols read i a r c h} (hc : cols[i]? = some c) (hi : i ∉ read) (hr : Ret i a c r)
      (rest : Joint Draw Ret Fail (some cols) (i :: read) h) :
      Joint Draw Ret Fail (some cols) read ((i, a, r) :: h)
  | fresh {cur cols read i a r c h} (hneed : cur = none ∨ i ∈ read) (hd : Draw a cols)
      (hc : cols[i]? = some c) (hr : Ret i a c r)
      (rest : Joint Draw Ret Fail (some cols) [i] h) :
      Joint Draw Ret Fail cur read ((i, a, r) :: h)
  | failed {cur read i a r h} (hf : Fail r) (rest : Joint Draw Ret Fail cur read h) :
      Joint Draw Ret Fail cur read ((i, a, r) :: h)

end Verif.Spec
