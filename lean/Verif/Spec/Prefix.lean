import Verif.Model.Sample

/-!
# When more samples extend fewer samples

Vocabulary of C132: what "the same seed and more samples" means, and for which models.
-/

namespace Verif.Spec

variable {σ K : Type} [Field K] [LinearOrder K] [FloorRing K]

/-- The generator makes its numbers one after the other: a request for `n + k` numbers gives what a request
for `n` numbers followed by a request for `k` numbers gives. -/
def Sequential (g : Gen σ K) : Prop :=
  ∀ (p : Prim K) (n k : ℕ) (s s' : σ) (zs : List (Scalar K)), g.draw p (n + k) s = (.ok zs, s') →
    ∃ xs ys t, g.draw p n s = (.ok xs, t) ∧ g.draw p k t = (.ok ys, s') ∧ zs = xs ++ ys

/-- Basic distributions that are sampled with one request per call, and dice: all but `discrete` and the
t-distributions with an interval. -/
def OneRequest : Leaf K → Prop
  | .categorical _ => False
  | .tdist x y _ _ => x = none ∧ y = none
  | .logtdist _ _ _ _ => False
  | _ => True

/-- Models with one source of randomness: a number, a basic distribution, an operation of such a model with
numbers, a user's function of each sample of it, or a Python function that returns a float. -/
inductive OneSource : Obj (St σ K) K → Prop
  | number (v : Scalar K) : OneSource (.lit v)
  | basic {l : Leaf K} (lc rc : Option (Scalar K)) (h : OneRequest l) : OneSource (.leaf l lc rc)
  | un (f : UnFn) {d : Obj (St σ K) K} (h : OneSource d) : OneSource (.un f d)
  | withNumber (f : BinFn) {d : Obj (St σ K) K} (h : OneSource d) (v : Scalar K) :
      OneSource (.bin f d (.lit v))
  | ofNumber (f : BinFn) (v : Scalar K) {d : Obj (St σ K) K} (h : OneSource d) :
      OneSource (.bin f (.lit v) d)
  | each (f : Scalar K → Scalar K) {isDist : Samples K → Bool} {val : Samples K → Except PyErr (Samples K)}
      {r : Samples K → Obj (St σ K) K} {d : Obj (St σ K) K} (hd : ∀ x, isDist x = false)
      (hv : ∀ xs, val (.arr xs) = .ok (.arr (xs.map f))) (h : OneSource d) :
      OneSource (.userUn isDist val r d)
  | function {exn : St σ K → Option PyErr} {ret : St σ K → Obj (St σ K) K} (next : St σ K → St σ K)
      (h : ∀ s, ∃ x, ret s = .lit (.flt x)) : OneSource (.call exn ret next)

end Verif.Spec
