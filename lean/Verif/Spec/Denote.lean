import Verif.Spec.Sampling
import Verif.Spec.ExplodingDice
import Verif.Model.Sample
import Mathlib.Probability.ProductMeasure
import Mathlib.Analysis.SpecialFunctions.Exp
import Mathlib.Analysis.SpecialFunctions.Pow.Real
import Mathlib.Probability.Distributions.Gaussian.Real

/-!
# What a distribution means

`Denotes L d μ`: the distribution `d` stands for the probability law `μ` on the real numbers, where `L`
gives the laws of the numbers numpy produces.  The rules do not mention how sampling works.
-/

namespace Verif.Spec

open MeasureTheory

/-- A Python number (not a boolean) with its value. -/
def IsReal (v : Scalar ℝ) (r : ℝ) : Prop := v = .flt r ∨ ∃ z : ℤ, v = .int z ∧ r = z

/-- `z` consists of the `n` numbers `x 0, …, x (n-1)`: a single number for `n = 1`, an array otherwise. -/
def Reads (n : ℕ) (z : Samples ℝ) (x : Fin n → ℝ) : Prop :=
  Shape n z ∧ List.Forall₂ IsReal z.toList (List.ofFn x)

/-- A bound, if there is one. -/
def IsBound : Option (Scalar ℝ) → Option ℝ → Prop
  | none, none => True
  | some v, some r => IsReal v r
  | _, _ => False

/-- Move into the interval. -/
noncomputable def clamp (lo hi : Option ℝ) (x : ℝ) : ℝ :=
  let y := match lo with | none => x | some a => max x a
  match hi with | none => y | some b => min y b

/-- Arithmetic on the real numbers. -/
noncomputable def opMeaning : BinOp → Option (ℝ → ℝ → ℝ)
  | .add => some (· + ·)
  | .sub => some (· - ·)
  | .mul => some (· * ·)
  | .truediv => some (· / ·)
  | .floordiv => some fun x y => (⌊x / y⌋ : ℤ)
  | .pow => some (· ^ ·)
  | .max => some max
  | .min => some min
  | _ => none

/-- Where the arithmetic is the same for Python numbers and numpy arrays: no division by zero, and powers
with a natural exponent or of a positive number. -/
def opDefined : BinOp → ℝ → ℝ → Prop
  | .truediv, _, y => y ≠ 0
  | .floordiv, _, y => y ≠ 0
  | .pow, x, y => (∃ k : ℕ, y = k) ∨ 0 < x ∧ 0 ≤ y
  | _, _, _ => True

/-- The nearest integer, the even one of two. -/
noncomputable def nearest (x : ℝ) : ℤ :=
  if x - ⌊x⌋ < 1 / 2 ∨ x - ⌊x⌋ = 1 / 2 ∧ Even ⌊x⌋ then ⌊x⌋ else ⌊x⌋ + 1

/-- One-argument functions on the real numbers. -/
noncomputable def unMeaning : UnFn → Option (ℝ → ℝ)
  | .neg => some fun x => -x
  | .floor => some fun x => (⌊x⌋ : ℤ)
  | .ceil => some fun x => (⌈x⌉ : ℤ)
  | .round0 => some fun x => nearest x
  | .clipNone => some fun x => x
  | _ => none

/-- The laws of the basic distributions, from the laws `L` of numpy's numbers. -/
noncomputable def leafLaw (L : Prim ℝ → Option (Measure ℝ)) : Leaf ℝ → Option (Measure ℝ)
  | .uniform x y => L (.uniform x y)
  | .normal m s => L (.normal m s)
  | .lognormal m s => L (.lognormal m s)
  | .invlognormal m s => (L (.lognormal m s)).map fun μ => μ.map fun x => 1 / x
  | .binomial n p => L (.binomial n p)
  | .beta a b => L (.beta a b)
  | .bernoulli p => (L (.uniform 0 1)).map fun μ => μ.map fun u => if u < p then 1 else 0
  | .poisson lam => L (.poisson lam)
  | .chisquare df => L (.chisquare df)
  | .exponential scale => L (.exponential scale)
  | .gamma shape scale => L (.gamma shape scale)
  | .pareto shape => (L (.pareto shape)).map fun μ => μ.map fun x => x + 1
  | .triangular l m r => L (.triangular l m r)
  | .pert l m r lam =>
      (L (.beta (1 + lam * ((m - l) / (r - l))) (1 + lam * ((m - r) / (l - r))))).map fun μ =>
        μ.map fun x => l + (r - l) * x
  | .geometric p => L (.geometric p)
  | .die ⟨sides, none⟩ => L (.integers 1 (sides + 1))
  | _ => none

/-- The law of a number divided by the root of `c / t`, where `c` is independent. -/
noncomputable def tRatio (μ ν : Measure ℝ) (t : ℝ) : Measure ℝ :=
  (μ.prod ν).map fun p => p.1 / √(p.2 / t)

/-- The law a distribution stands for.  Two arguments of an operator are independent, also when they are the
same object. -/
inductive Denotes {S : Type} (L : Prim ℝ → Option (Measure ℝ)) : Obj S ℝ → Measure ℝ → Prop
  /-- a number -/
  | lit {v : Scalar ℝ} {r : ℝ} : IsReal v r → Denotes L (.lit v) (Measure.dirac r)
  /-- a constant -/
  | const {v : Scalar ℝ} {r : ℝ} {lc rc : Option (Scalar ℝ)} {lo hi : Option ℝ} :
      IsReal v r → IsBound lc lo → IsBound rc hi →
      Denotes L (.leaf (.const v) lc rc) ((Measure.dirac r).map (clamp lo hi))
  /-- a basic distribution, with its bounds -/
  | leaf {l : Leaf ℝ} {μ : Measure ℝ} {lc rc : Option (Scalar ℝ)} {lo hi : Option ℝ} :
      leafLaw L l = some μ → IsBound lc lo → IsBound rc hi →
      Denotes L (.leaf l lc rc) (μ.map (clamp lo hi))
  /-- a fair die that is rolled again on some of its faces, but not on all -/
  | explode {s : ℤ} {faces : List ℤ} {μ : Measure ℝ} {lc rc : Option (Scalar ℝ)} {lo hi : Option ℝ} :
      (∃ t, 1 ≤ t ∧ t ≤ s ∧ t ∉ faces) → L (.integers 1 (s + 1)) = some (dieLaw s) → IsExplodingLaw s faces μ →
      IsBound lc lo → IsBound rc hi →
      Denotes L (.leaf (.die ⟨s, some faces⟩) lc rc) (μ.map (clamp lo hi))
  /-- `tdist(low, high, t)`: a normal variable around the middle of the interval, divided by the root of an
  independent chi-square variable over `t` -/
  | tInterval {low high t cred q : ℝ} {μ ν : Measure ℝ} {lc rc : Option (Scalar ℝ)} {lo hi : Option ℝ} :
      low < high → 0 < t → 0 < cred → cred < 100 →
      ProbabilityTheory.gaussianReal 0 1 (Set.Iic q) = ENNReal.ofReal ((1 + cred / 100) / 2) →
      L (.normal ((low + high) / 2) ((high - low) / 2 / q)) = some μ → L (.chisquare t) = some ν →
      IsBound lc lo → IsBound rc hi →
      Denotes L (.leaf (.tdist (some low) (some high) t cred) lc rc) ((tRatio μ ν t).map (clamp lo hi))
  /-- `log_tdist(low, high, t)`: `exp` of the same for the logarithms of the bounds -/
  | logtInterval {low high t cred q : ℝ} {μ ν : Measure ℝ} {lc rc : Option (Scalar ℝ)} {lo hi : Option ℝ} :
      0 < low → low < high → 0 < t → 0 < cred → cred < 100 →
      ProbabilityTheory.gaussianReal 0 1 (Set.Iic q) = ENNReal.ofReal ((1 + cred / 100) / 2) →
      L (.normal ((Real.log low + Real.log high) / 2) ((Real.log high - Real.log low) / 2 / q)) = some μ →
      L (.chisquare t) = some ν → IsBound lc lo → IsBound rc hi →
      Denotes L (.leaf (.logtdist (some low) (some high) t cred) lc rc)
        (((tRatio μ ν t).map Real.exp).map (clamp lo hi))
  /-- `discrete([v, …])`: every item has the same chance -/
  | items {vs : List (Scalar ℝ)} {rs : List ℝ} {lc rc : Option (Scalar ℝ)} {lo hi : Option ℝ} :
      vs ≠ [] → List.Forall₂ IsReal vs rs → IsBound lc lo → IsBound rc hi →
      Denotes L (.leaf (.categorical (.list (vs.map .plain))) lc rc)
        (((rs.length : ENNReal)⁻¹ • (rs.map Measure.dirac).sum).map (clamp lo hi))
  /-- `discrete({v: w, …})` and `discrete([[w, v], …])`: the given chances -/
  | table {vs : List (Scalar ℝ)} {rs ws : List ℝ} {arg : VArg ℝ (Scalar ℝ)}
      {lc rc : Option (Scalar ℝ)} {lo hi : Option ℝ} :
      (arg = .dict ((vs.zip ws).map fun p => (p.1, some p.2)) ∨
        arg = .list ((vs.zip ws).map fun p => .pair (some p.2) p.1)) →
      ws.length = vs.length → List.Forall₂ IsReal vs rs → (∀ w ∈ ws, 0 < w) → ws.sum = 1 →
      IsBound lc lo → IsBound rc hi →
      Denotes L (.leaf (.categorical arg) lc rc)
        ((((ws.zip rs).map fun p => ENNReal.ofReal p.1 • Measure.dirac p.2).sum).map (clamp lo hi))
  /-- a mixture -/
  | mix {k : ℕ} {ds : Fin k → Obj S ℝ} {ν : Fin k → Measure ℝ} {ws : List ℝ} (hk : ws.length = k)
      {lc rc : Option (Scalar ℝ)} {lo hi : Option ℝ} :
      (∀ i, Denotes L (ds i) (ν i)) → (∀ w ∈ ws, 0 < w) → ws.sum = 1 → IsBound lc lo → IsBound rc hi →
      Denotes L (.mix k ds ws lc rc)
        ((∑ i : Fin k, ENNReal.ofReal (ws[i.1]'(hk ▸ i.2)) • ν i).map (clamp lo hi))
  /-- minus, floor, ceiling, rounding -/
  | un {f : UnFn} {g : ℝ → ℝ} {a : Obj S ℝ} {μ : Measure ℝ} :
      unMeaning f = some g → Denotes L a μ → Denotes L (.un f a) (μ.map g)
  /-- arithmetic; the operation must be defined almost surely, e.g. a divisor nonzero -/
  | bin {o : BinOp} {g : ℝ → ℝ → ℝ} {a b : Obj S ℝ} {μ ν : Measure ℝ} :
      opMeaning o = some g → Denotes L a μ → Denotes L b ν →
      (∀ᵐ p ∂μ.prod ν, opDefined o p.1 p.2) →
      Denotes L (.bin (.op o) a b) ((μ.prod ν).map fun p => g p.1 p.2)
  /-- a user's function that works element by element -/
  | userUn {isDist : Samples ℝ → Bool} {val : Samples ℝ → Except PyErr (Samples ℝ)}
      {d : Samples ℝ → Obj S ℝ} {a : Obj S ℝ} {μ : Measure ℝ} {g : ℝ → ℝ} :
      (∀ n z x, Reads n z x → isDist z = false ∧ ∃ z', val z = .ok z' ∧ Reads n z' fun i => g (x i)) →
      Measurable g → Denotes L a μ → Denotes L (.userUn isDist val d a) (μ.map g)
  /-- likewise with two arguments -/
  | userBin {isDist : Samples ℝ → Samples ℝ → Bool}
      {val : Samples ℝ → Samples ℝ → Except PyErr (Samples ℝ)}
      {d : Samples ℝ → Samples ℝ → Obj S ℝ} {a b : Obj S ℝ} {μ ν : Measure ℝ} {g : ℝ × ℝ → ℝ} :
      (∀ n z w x y, Reads n z x → Reads n w y →
        isDist z w = false ∧ ∃ z', val z w = .ok z' ∧ Reads n z' fun i => g (x i, y i)) →
      Measurable g → Denotes L a μ → Denotes L b ν →
      Denotes L (.userBin isDist val d a b) ((μ.prod ν).map g)
  /-- a Python function that returns a distribution -/
  | thunk {a : Obj S ℝ} {μ : Measure ℝ} :
      Denotes L a μ → Denotes L (.call (fun _ => none) (fun _ => a) id) μ

end Verif.Spec
