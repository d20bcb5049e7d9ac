import Verif.Spec.Denote
import Verif.Spec.Support

/-!
# Specification: the same program with other numbers in it

`Linked R d d'`: `d'` is `d` with other numbers in it (parameters, constants, bounds), such that, whatever the
standard random numbers are, the value of `d` and the value of `d'` are related by `R`.  The rules do not mention
how sampling works.
-/

namespace Verif.Spec

/-- How numpy makes numbers from standard ones (`low + (high - low) u`, `mean + sd z`, …): neither the standard
numbers nor the state of the generator afterwards depend on `low`, `high`, `mean`, `sd` or `scale`. -/
structure FromStandard {σ : Type} (g : Gen σ ℝ) : Prop where
  uniform : ∀ n s, ∃ (r : Except PyErr (List ℝ)) (s' : σ),
    (∀ us, r = .ok us → us.length = n ∧ ∀ u ∈ us, 0 ≤ u ∧ u < 1) ∧ ∀ low high, low < high →
      g.draw (.uniform low high) n s = (r.map (List.map fun u => .flt (low + (high - low) * u)), s')
  normal : ∀ n s, ∃ (r : Except PyErr (List ℝ)) (s' : σ), (∀ zs, r = .ok zs → zs.length = n) ∧ ∀ m sd, 0 ≤ sd →
      g.draw (.normal m sd) n s = (r.map (List.map fun z => .flt (m + sd * z)), s') ∧
      g.draw (.lognormal m sd) n s = (r.map (List.map fun z => .flt (Real.exp (m + sd * z))), s')
  exponential : ∀ n s, ∃ (r : Except PyErr (List ℝ)) (s' : σ),
    (∀ es, r = .ok es → es.length = n ∧ ∀ e ∈ es, 0 ≤ e) ∧ ∀ scale, 0 < scale →
      g.draw (.exponential scale) n s = (r.map (List.map fun e => .flt (scale * e)), s')
  gamma : ∀ shape n s, ∃ (r : Except PyErr (List ℝ)) (s' : σ),
    (∀ es, r = .ok es → es.length = n ∧ ∀ e ∈ es, 0 ≤ e) ∧ ∀ scale, 0 < scale →
      g.draw (.gamma shape scale) n s = (r.map (List.map fun e => .flt (scale * e)), s')

/-- Two basic distributions of one family whose values are related by `R`. -/
inductive LeafLinked (R : ℝ → ℝ → Prop) : Leaf ℝ → Leaf ℝ → Prop
  | const {v v' : Scalar ℝ} {x x' : ℝ} : IsReal v x → IsReal v' x' → R x x' → LeafLinked R (.const v) (.const v')
  | uniform {x y x' y' : ℝ} : x < y → x' < y' → (∀ u, 0 ≤ u → u < 1 → R (x + (y - x) * u) (x' + (y' - x') * u)) →
      LeafLinked R (.uniform x y) (.uniform x' y')
  | normal {m s m' s' : ℝ} : 0 ≤ s → 0 ≤ s' → (∀ z, R (m + s * z) (m' + s' * z)) →
      LeafLinked R (.normal m s) (.normal m' s')
  | lognormal {m s m' s' : ℝ} : 0 ≤ s → 0 ≤ s' → (∀ z, R (Real.exp (m + s * z)) (Real.exp (m' + s' * z))) →
      LeafLinked R (.lognormal m s) (.lognormal m' s')
  | exponential {k k' : ℝ} : 0 < k → 0 < k' → (∀ e, 0 ≤ e → R (k * e) (k' * e)) →
      LeafLinked R (.exponential k) (.exponential k')
  | gamma {shape k k' : ℝ} : 0 < k → 0 < k' → (∀ e, 0 ≤ e → R (k * e) (k' * e)) →
      LeafLinked R (.gamma shape k) (.gamma shape k')
  | bernoulli {p p' : ℝ} : (∀ u, 0 ≤ u → u < 1 → R (if u < p then 1 else 0) (if u < p' then 1 else 0)) →
      LeafLinked R (.bernoulli p) (.bernoulli p')
  | pert {l m r l' m' r' lam : ℝ} : l < r → l' < r' → (m - l) / (r - l) = (m' - l') / (r' - l') →
      (∀ b, 0 ≤ b → b ≤ 1 → R (l + b * (r - l)) (l' + b * (r' - l'))) →
      LeafLinked R (.pert l m r lam) (.pert l' m' r' lam)
  /-- any other family of numbers, unchanged -/
  | same {l : Leaf ℝ} : (∀ x y t c, l ≠ .logtdist x y t c) → (∀ v, l.Support v → ∃ x, IsReal v x ∧ R x x) →
      LeafLinked R l l

/-- Two distributions that differ only in numbers and whose values are related by `R`. -/
inductive Linked {S : Type} : (ℝ → ℝ → Prop) → Obj S ℝ → Obj S ℝ → Prop
  | lit {R : ℝ → ℝ → Prop} {v v' : Scalar ℝ} {x x' : ℝ} : IsReal v x → IsReal v' x' → R x x' →
      Linked R (.lit v) (.lit v')
  | leaf {R R' : ℝ → ℝ → Prop} {l l' : Leaf ℝ} {lc rc lc' rc' : Option (Scalar ℝ)} {lo hi lo' hi' : Option ℝ} :
      LeafLinked R l l' → IsBound lc lo → IsBound rc hi → IsBound lc' lo' → IsBound rc' hi' →
      (∀ x x', R x x' → R' (clamp lo hi x) (clamp lo' hi' x')) →
      Linked R' (.leaf l lc rc) (.leaf l' lc' rc')
  | mix {R R' : ℝ → ℝ → Prop} {k : ℕ} {ds ds' : Fin k → Obj S ℝ} {ws : List ℝ}
      {lc rc lc' rc' : Option (Scalar ℝ)} {lo hi lo' hi' : Option ℝ} :
      (∀ i, Linked R (ds i) (ds' i)) → IsBound lc lo → IsBound rc hi → IsBound lc' lo' → IsBound rc' hi' →
      (∀ x x', R x x' → R' (clamp lo hi x) (clamp lo' hi' x')) →
      Linked R' (.mix k ds ws lc rc) (.mix k ds' ws lc' rc')
  | un {R R' : ℝ → ℝ → Prop} {f : UnFn} {g : ℝ → ℝ} {a a' : Obj S ℝ} : unMeaning f = some g → Linked R a a' →
      (∀ x x', R x x' → R' (g x) (g x')) → Linked R' (.un f a) (.un f a')
  | bin {R₁ R₂ R' : ℝ → ℝ → Prop} {o : BinOp} {g : ℝ → ℝ → ℝ} {a a' b b' : Obj S ℝ} : opMeaning o = some g →
      Linked R₁ a a' → Linked R₂ b b' →
      (∀ x x' y y', R₁ x x' → R₂ y y' → opDefined o x y ∧ opDefined o x' y' ∧ R' (g x y) (g x' y')) →
      Linked R' (.bin (.op o) a b) (.bin (.op o) a' b')

end Verif.Spec
