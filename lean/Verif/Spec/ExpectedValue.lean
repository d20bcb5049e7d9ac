import Verif.Spec.NumpyLaws
import Verif.Spec.Moments

/-!
# Expected values by hand

The mean and the variance of a distribution as one works them out with pencil and paper: the textbook values of
the basic distributions, and the rules for independent sums, differences, products and mixtures.
-/

namespace Verif.Spec

open MeasureTheory

/-- Every number of the source has the law numpy documents for the request. -/
def Documented {Ω : Type} [MeasurableSpace Ω] (S : IdealSource Ω) : Prop :=
  ∀ p μ, numpyLaw p = some μ → S.primLaw p = some μ

/-- The distribution has the mean `m`. -/
inductive MeanIs {T : Type} : Obj T ℝ → ℝ → Prop
  | lit {v : Scalar ℝ} {r : ℝ} : IsReal v r → MeanIs (.lit v) r
  | const {v : Scalar ℝ} {r : ℝ} : IsReal v r → MeanIs (.leaf (.const v) none none) r
  | leaf {l : Leaf ℝ} {m : ℝ} : LeafMean l m → MeanIs (.leaf l none none) m
  /-- `discrete([v, …])` -/
  | items {vs : List (Scalar ℝ)} {rs : List ℝ} : vs ≠ [] → List.Forall₂ IsReal vs rs →
      MeanIs (.leaf (.categorical (.list (vs.map .plain))) none none) (meanOf rs)
  /-- `discrete({v: w, …})` -/
  | table {vs : List (Scalar ℝ)} {rs ws : List ℝ} : ws.length = vs.length → List.Forall₂ IsReal vs rs →
      (∀ w ∈ ws, 0 < w) → ws.sum = 1 →
      MeanIs (.leaf (.categorical (.dict ((vs.zip ws).map fun p => (p.1, some p.2)))) none none)
        ((ws.zip rs).map fun p => p.1 * p.2).sum
  | neg {a : Obj T ℝ} {m : ℝ} : MeanIs a m → MeanIs (.un .neg a) (-m)
  | add {a b : Obj T ℝ} {m m' : ℝ} : MeanIs a m → MeanIs b m' → MeanIs (.bin (.op .add) a b) (m + m')
  | sub {a b : Obj T ℝ} {m m' : ℝ} : MeanIs a m → MeanIs b m' → MeanIs (.bin (.op .sub) a b) (m - m')
  | mul {a b : Obj T ℝ} {m m' : ℝ} : MeanIs a m → MeanIs b m' → MeanIs (.bin (.op .mul) a b) (m * m')
  | div {a : Obj T ℝ} {v : Scalar ℝ} {m c : ℝ} : MeanIs a m → IsReal v c → c ≠ 0 →
      MeanIs (.bin (.op .truediv) a (.lit v)) (m / c)
  | mix {k : ℕ} {ds : Fin k → Obj T ℝ} {m : Fin k → ℝ} {ws : List ℝ} (hk : ws.length = k) :
      (∀ i, MeanIs (ds i) (m i)) → (∀ w ∈ ws, 0 < w) → ws.sum = 1 →
      MeanIs (.mix k ds ws none none) (∑ i : Fin k, ws[i.1]'(hk ▸ i.2) * m i)

/-- The distribution has the mean `m` and the variance `v`. -/
inductive MomentsAre {T : Type} : Obj T ℝ → ℝ → ℝ → Prop
  | lit {v : Scalar ℝ} {r : ℝ} : IsReal v r → MomentsAre (.lit v) r 0
  | const {v : Scalar ℝ} {r : ℝ} : IsReal v r → MomentsAre (.leaf (.const v) none none) r 0
  | leaf {l : Leaf ℝ} {m v : ℝ} : LeafMean l m → LeafVar l v → MomentsAre (.leaf l none none) m v
  | items {vs : List (Scalar ℝ)} {rs : List ℝ} : vs ≠ [] → List.Forall₂ IsReal vs rs →
      MomentsAre (.leaf (.categorical (.list (vs.map .plain))) none none) (meanOf rs) (varOf rs)
  | table {vs : List (Scalar ℝ)} {rs ws : List ℝ} {mean : ℝ} : ws.length = vs.length → List.Forall₂ IsReal vs rs →
      (∀ w ∈ ws, 0 < w) → ws.sum = 1 → mean = ((ws.zip rs).map fun p => p.1 * p.2).sum →
      MomentsAre (.leaf (.categorical (.dict ((vs.zip ws).map fun p => (p.1, some p.2)))) none none)
        mean ((ws.zip rs).map fun p => p.1 * (p.2 - mean) ^ 2).sum
  | neg {a : Obj T ℝ} {m v : ℝ} : MomentsAre a m v → MomentsAre (.un .neg a) (-m) v
  | add {a b : Obj T ℝ} {m m' v v' : ℝ} : MomentsAre a m v → MomentsAre b m' v' →
      MomentsAre (.bin (.op .add) a b) (m + m') (v + v')
  | sub {a b : Obj T ℝ} {m m' v v' : ℝ} : MomentsAre a m v → MomentsAre b m' v' →
      MomentsAre (.bin (.op .sub) a b) (m - m') (v + v')
  | mul {a b : Obj T ℝ} {m m' v v' : ℝ} : MomentsAre a m v → MomentsAre b m' v' →
      MomentsAre (.bin (.op .mul) a b) (m * m') (v * v' + v * m' ^ 2 + v' * m ^ 2)
  | div {a : Obj T ℝ} {w : Scalar ℝ} {m v c : ℝ} : MomentsAre a m v → IsReal w c → c ≠ 0 →
      MomentsAre (.bin (.op .truediv) a (.lit w)) (m / c) (v / c ^ 2)
  | mix {k : ℕ} {ds : Fin k → Obj T ℝ} {m v : Fin k → ℝ} {ws : List ℝ} {mean : ℝ} (hk : ws.length = k) :
      (∀ i, MomentsAre (ds i) (m i) (v i)) → (∀ w ∈ ws, 0 < w) → ws.sum = 1 →
      mean = ∑ i : Fin k, ws[i.1]'(hk ▸ i.2) * m i →
      MomentsAre (.mix k ds ws none none) mean
        (∑ i : Fin k, ws[i.1]'(hk ▸ i.2) * (v i + (m i - mean) ^ 2))

end Verif.Spec
