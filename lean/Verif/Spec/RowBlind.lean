import Verif.Model.Correlation
import Mathlib.Logic.Equiv.Defs
import Mathlib.Data.List.OfFn

/-!
# Specification: what the correlation step may depend on

The order of the observations does not matter to `np.corrcoef`, Cholesky factors and `spearmanr`, and
`spearmanr` computes with ranks, so it sees only order.
-/

namespace Verif.Spec

/-- The columns of a table: `m` variables, `n` observations of each. -/
def colsOf {K : Type} {m n : ℕ} (X : Fin m → Fin n → K) : List (List K) :=
  List.ofFn fun j => List.ofFn (X j)

/-- Two samples are ordered alike. -/
def SameOrder {K : Type} [LinearOrder K] {n : ℕ} (x y : Fin n → K) : Prop := ∀ a b, x a < x b ↔ y a < y b

variable {K : Type} [Field K] [LinearOrder K]

/-- The external functions do not depend on the order of the observations, and `rho` (`spearmanr`) depends only
on how the values of each variable are ordered. -/
structure RowBlind (C : CorrEnv K) : Prop where
  recorr : ∀ (m n : ℕ) (Z : Fin m → Fin n → K) (σ : Equiv.Perm (Fin n)),
    C.recorr (colsOf fun j => Z j ∘ σ) = C.recorr (colsOf Z)
  rho : ∀ (n : ℕ) (x y : Fin n → K) (σ : Equiv.Perm (Fin n)),
    C.rho (List.ofFn (x ∘ σ)) (List.ofFn (y ∘ σ)) = C.rho (List.ofFn x) (List.ofFn y)
  order : ∀ (n : ℕ) (x y x' y' : Fin n → K), SameOrder x x' → SameOrder y y' →
    C.rho (List.ofFn x) (List.ofFn y) = C.rho (List.ofFn x') (List.ofFn y')

/-- For `m` variables with `n` distinct values each, no two observations get the same target score. -/
def NoTiedTargets (C : CorrEnv K) (m n : ℕ) : Prop :=
  ∀ X : Fin m → Fin n → K, (∀ j, Function.Injective (X j)) → ∀ ts, targetScores C (colsOf X) = .ok ts →
    ∀ t ∈ ts, t.Nodup

end Verif.Spec
