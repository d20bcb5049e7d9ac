import Verif.Model.Buckets

/-! # What buckets are -/

namespace Verif.Spec

variable {K : Type} [LinearOrder K]

/-- `x` belongs to the bucket labelled `[low, high)`. -/
def InBucket (low high : Edge K) (x : K) : Prop := low ≤ Edge.of x ∧ Edge.of x < high

instance (low high : Edge K) (x : K) : Decidable (InBucket low high x) :=
  inferInstanceAs (Decidable (_ ∧ _))

/-- The buckets follow one another without gap or overlap. -/
def Contiguous (bins : List (Edge K × Edge K)) : Prop :=
  (∀ b ∈ bins, b.1 ≤ b.2) ∧ List.IsChain (fun b c => b.2 = c.1) bins

end Verif.Spec
