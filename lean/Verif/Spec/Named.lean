import Verif.Model.Sample

/-!
# The law behind each distribution

For every distribution of the library that is one numpy law up to a fixed transformation: the numpy
request and the transformation, as the documentation of the distribution describes it.
-/

namespace Verif.Spec

variable {K : Type} [Field K] [LinearOrder K]

/-- Apply a function to a float, leave anything else. -/
def onFlt (f : K → K) : Scalar K → Scalar K
  | .flt x => .flt (f x)
  | v => v

/-- How far `m` is from `l` on the way to `r`: 0 at `l`, 1 at `r`. -/
def position (l m r : K) : K := (m - l) / (r - l)

/-- What one sample of a distribution is: a numpy law and what is done with a number drawn from it. -/
def named : Leaf K → Option (Prim K × (Scalar K → Scalar K))
  | .uniform x y => some (.uniform x y, id)
  | .normal m s => some (.normal m s, id)
  | .lognormal m s => some (.lognormal m s, id)
  | .invlognormal m s => some (.lognormal m s, onFlt fun x => 1 / x)
  | .binomial n p => some (.binomial n p, id)
  | .beta a b => some (.beta a b, id)
  | .bernoulli p => some (.uniform 0 1, fun v => match v with
      | .flt u => .int (if u < p then 1 else 0)
      | v => v)
  | .poisson lam => some (.poisson lam, id)
  | .chisquare df => some (.chisquare df, id)
  | .exponential scale => some (.exponential scale, id)
  | .gamma shape scale => some (.gamma shape scale, id)
  | .pareto shape => some (.pareto shape, onFlt fun x => x + 1)
  | .triangular l m r => some (.triangular l m r, id)
  | .pert l m r lam =>
      some (.beta (1 + lam * position l m r) (1 + lam * position r m l),
        onFlt fun x => l + (r - l) * x)
  | .geometric p => some (.geometric p, id)
  | .coin => some (.integers 0 2, fun v => .str (if v = .int 1 then "heads" else "tails"))
  | _ => none

/-- The generator is asked for fair rolls of a die with faces `1, …, sides`, one at a time; `rolls` is
what came out. -/
inductive Rolls {σ : Type} (E : Env σ K) (sides : ℤ) : St σ K → List ℤ → St σ K → Prop
  | nil (s : St σ K) : Rolls E sides s [] s
  | cons {s s' : St σ K} {rng : σ} {z : ℤ} {rolls : List ℤ} :
      E.gen.draw (.integers 1 (sides + 1)) 1 s.rng = (.ok [.int z], rng) →
      Rolls E sides { s with rng := rng } rolls s' → Rolls E sides s (z :: rolls) s'

/-- A maximal run of an exploding die: faces on which it explodes, then one on which it does not. -/
def ExplodingRun (explode : List ℤ) (run : List ℤ) : Prop :=
  ∃ before last, run = before ++ [last] ∧ (∀ z ∈ before, z ∈ explode) ∧ last ∉ explode

end Verif.Spec
