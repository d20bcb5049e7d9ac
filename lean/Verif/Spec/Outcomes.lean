import Verif.Spec.Chances

/-!
# Listing the outcomes

A model with finitely many outcomes can be worked out by listing them: every face of a die, every item of a
`discrete`, every pair of outcomes of the two arguments of an operator, each with its chance.
-/

namespace Verif.Spec

open MeasureTheory ProbabilityTheory

/-- `OutcomesAre d t`: `t` lists the outcomes of `d`, each with its chance.  A value may be listed several
times; its chance is then the sum. -/
inductive OutcomesAre {T : Type} : Obj T ℝ → List (ℝ × ℝ) → Prop
  | lit {v : Scalar ℝ} {r : ℝ} : IsReal v r → OutcomesAre (.lit v) [(r, 1)]
  | const {v : Scalar ℝ} {r : ℝ} {lc rc : Option (Scalar ℝ)} {lo hi : Option ℝ} : IsReal v r →
      IsBound lc lo → IsBound rc hi → OutcomesAre (.leaf (.const v) lc rc) [(clamp lo hi r, 1)]
  | bernoulli {p : ℝ} {lc rc : Option (Scalar ℝ)} {lo hi : Option ℝ} : 0 ≤ p → p ≤ 1 →
      IsBound lc lo → IsBound rc hi →
      OutcomesAre (.leaf (.bernoulli p) lc rc) [(clamp lo hi 1, p), (clamp lo hi 0, 1 - p)]
  /-- a die: every face with the same chance -/
  | die {sides : ℕ} {lc rc : Option (Scalar ℝ)} {lo hi : Option ℝ} : 1 ≤ sides → IsBound lc lo → IsBound rc hi →
      OutcomesAre (.leaf (.die ⟨sides, none⟩) lc rc)
        ((List.range sides).map fun k : ℕ => (clamp lo hi (k + 1), 1 / (sides : ℝ)))
  | binomial {n : ℕ} {p : ℝ} {lc rc : Option (Scalar ℝ)} {lo hi : Option ℝ} : 0 ≤ p → p ≤ 1 →
      IsBound lc lo → IsBound rc hi →
      OutcomesAre (.leaf (.binomial n p) lc rc)
        ((List.range (n + 1)).map fun k : ℕ => (clamp lo hi k, binomialChance n p k))
  /-- `discrete([v, …])` -/
  | items {vs : List (Scalar ℝ)} {rs : List ℝ} {lc rc : Option (Scalar ℝ)} {lo hi : Option ℝ} : vs ≠ [] →
      List.Forall₂ IsReal vs rs → IsBound lc lo → IsBound rc hi →
      OutcomesAre (.leaf (.categorical (.list (vs.map .plain))) lc rc)
        (rs.map fun r => (clamp lo hi r, 1 / (rs.length : ℝ)))
  /-- `discrete({v: w, …})` -/
  | table {vs : List (Scalar ℝ)} {rs ws : List ℝ} {lc rc : Option (Scalar ℝ)} {lo hi : Option ℝ} :
      ws.length = vs.length → List.Forall₂ IsReal vs rs → (∀ w ∈ ws, 0 < w) → ws.sum = 1 →
      IsBound lc lo → IsBound rc hi →
      OutcomesAre (.leaf (.categorical (.dict ((vs.zip ws).map fun p => (p.1, some p.2)))) lc rc)
        ((rs.zip ws).map fun p => (clamp lo hi p.1, p.2))
  /-- a mixture: the outcomes of all components, their chances times the weight of the component -/
  | mix {k : ℕ} {ds : Fin k → Obj T ℝ} {t : Fin k → List (ℝ × ℝ)} {ws : List ℝ} {lc rc : Option (Scalar ℝ)}
      {lo hi : Option ℝ} (hk : ws.length = k) :
      (∀ i, OutcomesAre (ds i) (t i)) → (∀ w ∈ ws, 0 < w) → ws.sum = 1 → IsBound lc lo → IsBound rc hi →
      OutcomesAre (.mix k ds ws lc rc)
        ((List.finRange k).flatMap fun i => (t i).map fun p => (clamp lo hi p.1, ws[i.1]'(hk ▸ i.2) * p.2))
  /-- minus, floor, ceiling, rounding -/
  | un {f : UnFn} {g : ℝ → ℝ} {a : Obj T ℝ} {t : List (ℝ × ℝ)} : unMeaning f = some g → OutcomesAre a t →
      OutcomesAre (.un f a) (t.map fun p => (g p.1, p.2))
  /-- arithmetic, maximum, minimum: every pair of outcomes -/
  | bin {o : BinOp} {g : ℝ → ℝ → ℝ} {a b : Obj T ℝ} {t u : List (ℝ × ℝ)} : opMeaning o = some g →
      OutcomesAre a t → OutcomesAre b u → (∀ p ∈ t, ∀ q ∈ u, opDefined o p.1 q.1) →
      OutcomesAre (.bin (.op o) a b) (t.flatMap fun p => u.map fun q => (g p.1 q.1, p.2 * q.2))

open Classical in
/-- The chance of a condition: the sum over the outcomes that meet it. -/
noncomputable def chanceOf (t : List (ℝ × ℝ)) (q : ℝ → Prop) : ℝ :=
  ((t.filter fun p => decide (q p.1)).map Prod.snd).sum

/-- The expected value of a function of the outcome. -/
def expectOf (t : List (ℝ × ℝ)) (f : ℝ → ℝ) : ℝ := (t.map fun p => p.2 * f p.1).sum

end Verif.Spec
