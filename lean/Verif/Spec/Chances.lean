import Verif.Spec.ExpectedValue

/-!
# Chances by hand

The chance that a distribution is at most `x`, and the chance that it is less than `x`, as one works them out
with pencil and paper: the textbook distribution functions, and the rules for bounds, constants, minus, floor,
ceiling, maximum, minimum and mixtures.
-/

namespace Verif.Spec

open MeasureTheory ProbabilityTheory

/-- The distribution function of the standard normal law. -/
noncomputable def Phi (x : ℝ) : ℝ := (gaussianReal 0 1).real (Set.Iic x)

/-- The distribution function of the triangular law. -/
noncomputable def triangularBelow (l m r x : ℝ) : ℝ :=
  if x ≤ l then 0
  else if x ≤ m then (x - l) ^ 2 / ((r - l) * (m - l))
  else if x < r then 1 - (r - x) ^ 2 / ((r - l) * (r - m))
  else 1

/-- The chance of exactly `k` successes in `n` trials. -/
noncomputable def binomialChance (n : ℕ) (p : ℝ) (k : ℕ) : ℝ := n.choose k * p ^ k * (1 - p) ^ (n - k)

/-- The chance of exactly `k` events at rate `lam`. -/
noncomputable def poissonChance (lam : ℝ) (k : ℕ) : ℝ := Real.exp (-lam) * lam ^ k / k.factorial

/-- A continuous basic distribution, with its distribution function. -/
inductive LeafCurve : Leaf ℝ → (ℝ → ℝ) → Prop
  | uniform {a b : ℝ} : a < b →
      LeafCurve (.uniform a b) fun x => if x ≤ a then 0 else if x < b then (x - a) / (b - a) else 1
  | normal {m s : ℝ} : 0 < s → LeafCurve (.normal m s) fun x => Phi ((x - m) / s)
  | lognormal {m s : ℝ} : 0 < s →
      LeafCurve (.lognormal m s) fun x => if x ≤ 0 then 0 else Phi ((Real.log x - m) / s)
  | invlognormal {m s : ℝ} : 0 < s →
      LeafCurve (.invlognormal m s) fun x => if x ≤ 0 then 0 else Phi ((Real.log x + m) / s)
  | exponential {scale : ℝ} : 0 < scale →
      LeafCurve (.exponential scale) fun x => if x ≤ 0 then 0 else 1 - Real.exp (-x / scale)
  | pareto {shape : ℝ} : 0 < shape →
      LeafCurve (.pareto shape) fun x => if x ≤ 1 then 0 else 1 - x ^ (-shape)
  | triangular {l m r : ℝ} : l ≤ m → m ≤ r → l < r → LeafCurve (.triangular l m r) (triangularBelow l m r)

open Classical in
/-- A basic distribution on the integers: the chance of at most `x`, the chance of less than `x`. -/
inductive LeafSteps : Leaf ℝ → (ℝ → ℝ) → (ℝ → ℝ) → Prop
  | bernoulli {p : ℝ} : 0 ≤ p → p ≤ 1 →
      LeafSteps (.bernoulli p) (fun x => if x < 0 then 0 else if x < 1 then 1 - p else 1)
        (fun x => if x ≤ 0 then 0 else if x ≤ 1 then 1 - p else 1)
  | die {sides : ℤ} : 1 ≤ sides →
      LeafSteps (.die ⟨sides, none⟩) (fun x => ((Finset.Icc 1 sides).filter fun k : ℤ => (k : ℝ) ≤ x).card / sides)
        (fun x => ((Finset.Icc 1 sides).filter fun k : ℤ => (k : ℝ) < x).card / sides)
  | geometric {p : ℝ} : 0 < p → p ≤ 1 →
      LeafSteps (.geometric p) (fun x => 1 - (1 - p) ^ ⌊x⌋₊) (fun x => 1 - (1 - p) ^ (⌈x⌉₊ - 1))
  | binomial {n : ℕ} {p : ℝ} : 0 ≤ p → p ≤ 1 →
      LeafSteps (.binomial n p)
        (fun x => ∑ k ∈ (Finset.range (n + 1)).filter (fun k : ℕ => (k : ℝ) ≤ x), binomialChance n p k)
        (fun x => ∑ k ∈ (Finset.range (n + 1)).filter (fun k : ℕ => (k : ℝ) < x), binomialChance n p k)
  | poisson {lam : ℝ} : 0 ≤ lam →
      LeafSteps (.poisson lam)
        (fun x => if x < 0 then 0 else ∑ k ∈ Finset.range (⌊x⌋₊ + 1), poissonChance lam k)
        (fun x => ∑ k ∈ Finset.range ⌈x⌉₊, poissonChance lam k)

open Classical in
/-- The chance of at most `x` after moving the values into the interval. -/
noncomputable def boundedLe (lo hi : Option ℝ) (F : ℝ → ℝ) (x : ℝ) : ℝ :=
  if ∃ b, hi = some b ∧ b ≤ x then 1 else if ∃ a, lo = some a ∧ x < a then 0 else F x

open Classical in
/-- The chance of less than `x` after moving the values into the interval. -/
noncomputable def boundedLt (lo hi : Option ℝ) (G : ℝ → ℝ) (x : ℝ) : ℝ :=
  if ∃ b, hi = some b ∧ b < x then 1 else if ∃ a, lo = some a ∧ x ≤ a then 0 else G x

/-- `ChancesAre d F G`: the distribution is at most `x` with chance `F x`, and less than `x` with chance
`G x`. -/
inductive ChancesAre {T : Type} : Obj T ℝ → (ℝ → ℝ) → (ℝ → ℝ) → Prop
  | lit {v : Scalar ℝ} {r : ℝ} : IsReal v r →
      ChancesAre (.lit v) (fun x => if r ≤ x then 1 else 0) (fun x => if r < x then 1 else 0)
  | const {v : Scalar ℝ} {r : ℝ} {lc rc : Option (Scalar ℝ)} {lo hi : Option ℝ} : IsReal v r →
      IsBound lc lo → IsBound rc hi →
      ChancesAre (.leaf (.const v) lc rc) (boundedLe lo hi fun x => if r ≤ x then 1 else 0)
        (boundedLt lo hi fun x => if r < x then 1 else 0)
  | curve {l : Leaf ℝ} {F : ℝ → ℝ} {lc rc : Option (Scalar ℝ)} {lo hi : Option ℝ} : LeafCurve l F →
      IsBound lc lo → IsBound rc hi → ChancesAre (.leaf l lc rc) (boundedLe lo hi F) (boundedLt lo hi F)
  | steps {l : Leaf ℝ} {F G : ℝ → ℝ} {lc rc : Option (Scalar ℝ)} {lo hi : Option ℝ} : LeafSteps l F G →
      IsBound lc lo → IsBound rc hi → ChancesAre (.leaf l lc rc) (boundedLe lo hi F) (boundedLt lo hi G)
  /-- `discrete([v, …])` -/
  | items {vs : List (Scalar ℝ)} {rs : List ℝ} {lc rc : Option (Scalar ℝ)} {lo hi : Option ℝ} : vs ≠ [] →
      List.Forall₂ IsReal vs rs → IsBound lc lo → IsBound rc hi →
      ChancesAre (.leaf (.categorical (.list (vs.map .plain))) lc rc)
        (boundedLe lo hi fun x => (rs.countP fun r => decide (r ≤ x) : ℕ) / rs.length)
        (boundedLt lo hi fun x => (rs.countP fun r => decide (r < x) : ℕ) / rs.length)
  /-- `discrete({v: w, …})` -/
  | table {vs : List (Scalar ℝ)} {rs ws : List ℝ} {lc rc : Option (Scalar ℝ)} {lo hi : Option ℝ} :
      ws.length = vs.length → List.Forall₂ IsReal vs rs → (∀ w ∈ ws, 0 < w) → ws.sum = 1 →
      IsBound lc lo → IsBound rc hi →
      ChancesAre (.leaf (.categorical (.dict ((vs.zip ws).map fun p => (p.1, some p.2)))) lc rc)
        (boundedLe lo hi fun x => (((ws.zip rs).filter fun p => decide (p.2 ≤ x)).map Prod.fst).sum)
        (boundedLt lo hi fun x => (((ws.zip rs).filter fun p => decide (p.2 < x)).map Prod.fst).sum)
  | mix {k : ℕ} {ds : Fin k → Obj T ℝ} {F G : Fin k → ℝ → ℝ} {ws : List ℝ} {lc rc : Option (Scalar ℝ)}
      {lo hi : Option ℝ} (hk : ws.length = k) :
      (∀ i, ChancesAre (ds i) (F i) (G i)) → (∀ w ∈ ws, 0 < w) → ws.sum = 1 → IsBound lc lo → IsBound rc hi →
      ChancesAre (.mix k ds ws lc rc)
        (boundedLe lo hi fun x => ∑ i : Fin k, ws[i.1]'(hk ▸ i.2) * F i x)
        (boundedLt lo hi fun x => ∑ i : Fin k, ws[i.1]'(hk ▸ i.2) * G i x)
  | neg {a : Obj T ℝ} {F G : ℝ → ℝ} : ChancesAre a F G →
      ChancesAre (.un .neg a) (fun x => 1 - G (-x)) (fun x => 1 - F (-x))
  | floor {a : Obj T ℝ} {F G : ℝ → ℝ} : ChancesAre a F G →
      ChancesAre (.un .floor a) (fun x => G (⌊x⌋ + 1)) (fun x => G ⌈x⌉)
  | ceil {a : Obj T ℝ} {F G : ℝ → ℝ} : ChancesAre a F G →
      ChancesAre (.un .ceil a) (fun x => F ⌊x⌋) (fun x => F (⌈x⌉ - 1))
  /-- `d + c` -/
  | addConst {a : Obj T ℝ} {F G : ℝ → ℝ} {v : Scalar ℝ} {c : ℝ} : ChancesAre a F G → IsReal v c →
      ChancesAre (.bin (.op .add) a (.lit v)) (fun x => F (x - c)) (fun x => G (x - c))
  /-- `d - c` -/
  | subConst {a : Obj T ℝ} {F G : ℝ → ℝ} {v : Scalar ℝ} {c : ℝ} : ChancesAre a F G → IsReal v c →
      ChancesAre (.bin (.op .sub) a (.lit v)) (fun x => F (x + c)) (fun x => G (x + c))
  /-- `c - d` -/
  | constSub {a : Obj T ℝ} {F G : ℝ → ℝ} {v : Scalar ℝ} {c : ℝ} : ChancesAre a F G → IsReal v c →
      ChancesAre (.bin (.op .sub) (.lit v) a) (fun x => 1 - G (c - x)) (fun x => 1 - F (c - x))
  /-- `d * c` -/
  | mulConst {a : Obj T ℝ} {F G : ℝ → ℝ} {v : Scalar ℝ} {c : ℝ} : ChancesAre a F G → IsReal v c → 0 < c →
      ChancesAre (.bin (.op .mul) a (.lit v)) (fun x => F (x / c)) (fun x => G (x / c))
  /-- `d / c` -/
  | divConst {a : Obj T ℝ} {F G : ℝ → ℝ} {v : Scalar ℝ} {c : ℝ} : ChancesAre a F G → IsReal v c → 0 < c →
      ChancesAre (.bin (.op .truediv) a (.lit v)) (fun x => F (x * c)) (fun x => G (x * c))
  /-- `dist_max(a, b)`, and `lclip(a, c)` when `b` is the number `c` -/
  | max {a b : Obj T ℝ} {F G F' G' : ℝ → ℝ} : ChancesAre a F G → ChancesAre b F' G' →
      ChancesAre (.bin (.op .max) a b) (fun x => F x * F' x) (fun x => G x * G' x)
  /-- `dist_min(a, b)`, and `rclip(a, c)` when `b` is the number `c` -/
  | min {a b : Obj T ℝ} {F G F' G' : ℝ → ℝ} : ChancesAre a F G → ChancesAre b F' G' →
      ChancesAre (.bin (.op .min) a b) (fun x => 1 - (1 - F x) * (1 - F' x)) (fun x => 1 - (1 - G x) * (1 - G' x))

end Verif.Spec
