import Verif.Model.DistTree

/-! # Parts of a distribution object, and what being continuous should mean -/

namespace Verif.Spec

/-- The objects a distribution is directly built from. -/
def parts : DTree → List DTree
  | .value => []
  | .simple _ _ => []
  | .categorical _ items => items
  | .complex1 _ l => [l]
  | .complex2 _ _ l r => [l, r]
  | .mixture _ ds => ds

/-- `Inside t c`: `c` is a part of `t`, or a part of a part, and so on. -/
inductive Inside : DTree → DTree → Prop
  | part {t c : DTree} : c ∈ parts t → Inside t c
  | deeper {t u c : DTree} : u ∈ parts t → Inside u c → Inside t c

/-- The same, where every object passed on the way is a composite one (an operation or a mixture). -/
inductive InsideComposite : DTree → DTree → Prop
  | part {t c : DTree} : t.composite = true → c ∈ parts t → InsideComposite t c
  | deeper {t u c : DTree} : t.composite = true → u ∈ parts t → InsideComposite u c →
      InsideComposite t c

/-- No `discrete([...])` anywhere in the expression. -/
inductive NoCategorical : DTree → Prop
  | mk {t : DTree} : (∀ g items, t ≠ .categorical g items) → (∀ c ∈ parts t, NoCategorical c) →
      NoCategorical t

/-- Built from continuous distributions (and numbers) by operations other than comparisons and by
mixtures of continuous expressions: the result takes a continuum of values without atoms coming from
its parts. -/
inductive BuiltContinuous : DTree → Prop
  | simple (g : Bool) : BuiltContinuous (.simple .continuous g)
  | unary {g : Bool} {l : DTree} : BuiltContinuous l → BuiltContinuous (.complex1 g l)
  | both {g : Bool} {l r : DTree} : BuiltContinuous l → BuiltContinuous r →
      BuiltContinuous (.complex2 g false l r)
  | left {g : Bool} {l : DTree} : BuiltContinuous l → BuiltContinuous (.complex2 g false l .value)
  | right {g : Bool} {r : DTree} : BuiltContinuous r → BuiltContinuous (.complex2 g false .value r)
  | mixture {g : Bool} {ds : List DTree} : ds ≠ [] → (∀ d ∈ ds, BuiltContinuous d) →
      BuiltContinuous (.mixture g ds)

/-- Built from continuous distributions by two-operand operations (comparisons included) and mixtures
only. -/
inductive PlainContinuous : DTree → Prop
  | simple (g : Bool) : PlainContinuous (.simple .continuous g)
  | both {g c : Bool} {l r : DTree} : PlainContinuous l → PlainContinuous r →
      PlainContinuous (.complex2 g c l r)
  | mixture {g : Bool} {ds : List DTree} : (∀ d ∈ ds, PlainContinuous d) →
      PlainContinuous (.mixture g ds)

end Verif.Spec
