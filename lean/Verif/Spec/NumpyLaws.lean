import Verif.Spec.Denote
import Verif.Spec.Laws
import Verif.Spec.UniformLaw
import Mathlib.Probability.Distributions.Binomial
import Mathlib.Probability.Distributions.Exponential
import Mathlib.Probability.Distributions.Gamma
import Mathlib.Probability.Distributions.Geometric
import Mathlib.Probability.Distributions.Pareto
import Mathlib.Probability.Distributions.Poisson.Basic

/-!
# numpy's documented laws, and the textbook means and variances

`numpyLaw p`: the law numpy documents for one number of the request `p`; `none` where the parameters are not
valid (or degenerate, such as `exponential(0)`).
-/

namespace Verif.Spec

open MeasureTheory ProbabilityTheory

/-- Every integer of `[lo, hi)` has the same chance. -/
noncomputable def integersLaw (lo hi : ℤ) : Measure ℝ :=
  ∑ t ∈ Finset.Ico lo hi, ENNReal.ofReal (1 / ((hi - lo : ℤ) : ℝ)) • Measure.dirac (t : ℝ)

/-- The triangular density: it rises from `l` to the mode `m` and falls from there to `r`. -/
noncomputable def triangularPDF (l m r x : ℝ) : ℝ :=
  if l ≤ x ∧ x < m then 2 * (x - l) / ((r - l) * (m - l))
  else if m ≤ x ∧ x ≤ r then 2 * (r - x) / ((r - l) * (r - m))
  else 0

/-- The triangular law. -/
noncomputable def triangularLaw (l m r : ℝ) : Measure ℝ :=
  volume.withDensity fun x => ENNReal.ofReal (triangularPDF l m r x)

/-- The chi-square law. -/
noncomputable def chisquareLaw (df : ℝ) : Measure ℝ := gammaMeasure (df / 2) (1 / 2)

open Classical in
/-- The law of one number, as numpy documents it: `gamma` and `exponential` take a scale (1 / rate),
`pareto` is the Lomax law (a Pareto number minus 1), `geometric` counts the trials up to and including the
first success. -/
noncomputable def numpyLaw : Prim ℝ → Option (Measure ℝ)
  | .uniform a b => if a < b then some (uniformLaw a b) else none
  | .normal m s => if 0 ≤ s then some (normalLaw m s) else none
  | .lognormal m s => if 0 ≤ s then some (lognormalLaw m s) else none
  | .binomial n p =>
      if h : 0 ≤ n ∧ 0 ≤ p ∧ p ≤ 1 then some ((binomial n.toNat ⟨p, h.2⟩).map fun k : ℕ => (k : ℝ)) else none
  | .beta a b => if 0 < a ∧ 0 < b then some (betaMeasure a b) else none
  | .triangular l m r => if l ≤ m ∧ m ≤ r ∧ l < r then some (triangularLaw l m r) else none
  | .poisson lam => if h : 0 ≤ lam then some ((poissonMeasure (.mk lam h)).map fun k : ℕ => (k : ℝ)) else none
  | .exponential scale => if 0 < scale then some (expMeasure (1 / scale)) else none
  | .gamma shape scale => if 0 < shape ∧ 0 < scale then some (gammaMeasure shape (1 / scale)) else none
  | .pareto shape => if 0 < shape then some ((paretoMeasure 1 shape).map fun x => x - 1) else none
  | .chisquare df => if 0 < df then some (chisquareLaw df) else none
  | .standardT df => if 0 < df then some (tRatio (normalLaw 0 1) (chisquareLaw df) df) else none
  | .geometric p =>
      if h : 0 < p ∧ p ≤ 1 then some ((geometricMeasure ⟨p, h.1.le, h.2⟩).map fun k : ℕ => (k : ℝ) + 1) else none
  | .integers lo hi => if lo < hi then some (integersLaw lo hi) else none

/-- The textbook mean of a basic distribution, for valid parameters. -/
inductive LeafMean : Leaf ℝ → ℝ → Prop
  | uniform {x y : ℝ} : x < y → LeafMean (.uniform x y) ((x + y) / 2)
  | normal {m s : ℝ} : 0 ≤ s → LeafMean (.normal m s) m
  | lognormal {m s : ℝ} : 0 ≤ s → LeafMean (.lognormal m s) (Real.exp (m + s ^ 2 / 2))
  | invlognormal {m s : ℝ} : 0 ≤ s → LeafMean (.invlognormal m s) (Real.exp (-m + s ^ 2 / 2))
  | binomial {n : ℤ} {p : ℝ} : 0 ≤ n → 0 ≤ p → p ≤ 1 → LeafMean (.binomial n p) (n * p)
  | beta {a b : ℝ} : 0 < a → 0 < b → LeafMean (.beta a b) (a / (a + b))
  | bernoulli {p : ℝ} : 0 ≤ p → p ≤ 1 → LeafMean (.bernoulli p) p
  | poisson {lam : ℝ} : 0 ≤ lam → LeafMean (.poisson lam) lam
  | chisquare {df : ℝ} : 0 < df → LeafMean (.chisquare df) df
  | exponential {scale : ℝ} : 0 < scale → LeafMean (.exponential scale) scale
  | gamma {shape scale : ℝ} : 0 < shape → 0 < scale → LeafMean (.gamma shape scale) (shape * scale)
  | pareto {shape : ℝ} : 1 < shape → LeafMean (.pareto shape) (shape / (shape - 1))
  | triangular {l m r : ℝ} : l ≤ m → m ≤ r → l < r → LeafMean (.triangular l m r) ((l + m + r) / 3)
  | pert {l m r lam : ℝ} : l ≤ m → m ≤ r → l < r → 0 ≤ lam →
      LeafMean (.pert l m r lam) ((l + lam * m + r) / (lam + 2))
  | geometric {p : ℝ} : 0 < p → p ≤ 1 → LeafMean (.geometric p) (1 / p)
  | die {sides : ℤ} : 1 ≤ sides → LeafMean (.die ⟨sides, none⟩) ((sides + 1) / 2)

/-- The textbook variance of a basic distribution, for valid parameters. -/
inductive LeafVar : Leaf ℝ → ℝ → Prop
  | uniform {x y : ℝ} : x < y → LeafVar (.uniform x y) ((y - x) ^ 2 / 12)
  | normal {m s : ℝ} : 0 ≤ s → LeafVar (.normal m s) (s ^ 2)
  | lognormal {m s : ℝ} : 0 ≤ s →
      LeafVar (.lognormal m s) ((Real.exp (s ^ 2) - 1) * Real.exp (2 * m + s ^ 2))
  | invlognormal {m s : ℝ} : 0 ≤ s →
      LeafVar (.invlognormal m s) ((Real.exp (s ^ 2) - 1) * Real.exp (-2 * m + s ^ 2))
  | binomial {n : ℤ} {p : ℝ} : 0 ≤ n → 0 ≤ p → p ≤ 1 → LeafVar (.binomial n p) (n * p * (1 - p))
  | beta {a b : ℝ} : 0 < a → 0 < b → LeafVar (.beta a b) (a * b / ((a + b) ^ 2 * (a + b + 1)))
  | bernoulli {p : ℝ} : 0 ≤ p → p ≤ 1 → LeafVar (.bernoulli p) (p * (1 - p))
  | poisson {lam : ℝ} : 0 ≤ lam → LeafVar (.poisson lam) lam
  | chisquare {df : ℝ} : 0 < df → LeafVar (.chisquare df) (2 * df)
  | exponential {scale : ℝ} : 0 < scale → LeafVar (.exponential scale) (scale ^ 2)
  | gamma {shape scale : ℝ} : 0 < shape → 0 < scale → LeafVar (.gamma shape scale) (shape * scale ^ 2)
  | pareto {shape : ℝ} : 2 < shape →
      LeafVar (.pareto shape) (shape / ((shape - 1) ^ 2 * (shape - 2)))
  | triangular {l m r : ℝ} : l ≤ m → m ≤ r → l < r →
      LeafVar (.triangular l m r) ((l ^ 2 + m ^ 2 + r ^ 2 - l * m - l * r - m * r) / 18)
  | pert {l m r lam mean : ℝ} : l ≤ m → m ≤ r → l < r → 0 ≤ lam → mean = (l + lam * m + r) / (lam + 2) →
      LeafVar (.pert l m r lam) ((mean - l) * (r - mean) / (lam + 3))
  | geometric {p : ℝ} : 0 < p → p ≤ 1 → LeafVar (.geometric p) ((1 - p) / p ^ 2)
  | die {sides : ℤ} : 1 ≤ sides → LeafVar (.die ⟨sides, none⟩) (((sides : ℝ) ^ 2 - 1) / 12)

end Verif.Spec
