import Verif.Lemmas.Shape
import Mathlib.Algebra.Order.Ring.Rat
import Mathlib.Data.Rat.Floor
import Mathlib.Tactic.Positivity
import Mathlib.Tactic.NormNum
import Mathlib.Tactic.Linarith
import Mathlib.Tactic.FieldSimp

/-!
# A concrete lawful generator

Used to show that hypotheses about generators are satisfiable and for concrete witnesses.  The state
is a counter; "random" numbers are fractions in `[0,1)` computed from it.
-/

namespace Verif

/-- A fraction in `[0, 1)` computed from the counter: the multiples of 3 modulo 10, over 10. -/
def demoFrac (k : ℕ) : ℚ := ((k * 3 % 10 : ℕ) : ℚ) / 10

theorem demoFrac_nonneg (k : ℕ) : 0 ≤ demoFrac k := by unfold demoFrac; positivity

theorem demoFrac_lt_one (k : ℕ) : demoFrac k < 1 := by
  unfold demoFrac
  rw [div_lt_one (by norm_num)]
  have : k * 3 % 10 < 10 := Nat.mod_lt _ (by norm_num)
  exact_mod_cast this

/-- One value of the demo generator. -/
def demoValue (p : Prim ℚ) (k : ℕ) : Option (Scalar ℚ) :=
  match p with
  | .uniform low high => if low ≤ high then some (.flt (low + (high - low) * demoFrac k)) else none
  | .normal mean sd => some (.flt (mean + sd * demoFrac k))
  | .lognormal _ _ => some (.flt (1 + demoFrac k))
  | .binomial n _ => if 0 ≤ n then some (.int ((k : ℤ) % (n + 1))) else none
  | .beta _ _ => some (.flt (demoFrac k))
  | .triangular l _ r => if l ≤ r then some (.flt (l + (r - l) * demoFrac k)) else none
  | .poisson _ => some (.int k)
  | .exponential _ => some (.flt (demoFrac k))
  | .gamma _ _ => some (.flt (demoFrac k))
  | .pareto _ => some (.flt (demoFrac k))
  | .chisquare _ => some (.flt (1 + demoFrac k))
  | .standardT _ => some (.flt (demoFrac k))
  | .geometric _ => some (.int (k + 1))
  | .integers low high => if low < high then some (.int (low + (k : ℤ) % (high - low))) else none

theorem demoValue_support (p : Prim ℚ) (k : ℕ) (v : Scalar ℚ) (h : demoValue p k = some v) :
    p.support v := by
  have h0 := demoFrac_nonneg k
  have h1 := demoFrac_lt_one k
  cases p <;> simp only [demoValue] at h
  case uniform low high =>
    split_ifs at h with hle
    cases h
    refine ⟨_, rfl, ?_, ?_, ?_⟩
    · nlinarith
    · nlinarith
    · intro hlt; nlinarith
  case normal => cases h; exact ⟨_, rfl⟩
  case lognormal => cases h; exact ⟨_, rfl, by linarith⟩
  case binomial n p =>
    split_ifs at h with hn
    cases h
    refine ⟨_, rfl, Int.emod_nonneg _ (by omega), ?_⟩
    have := Int.emod_lt_of_pos (k : ℤ) (show 0 < n + 1 by omega)
    omega
  case beta => cases h; exact ⟨_, rfl, h0, le_of_lt h1⟩
  case triangular l m r =>
    split_ifs at h with hle
    cases h
    refine ⟨_, rfl, ?_, ?_⟩ <;> nlinarith
  case poisson => cases h; exact ⟨_, rfl, by omega⟩
  case exponential => cases h; exact ⟨_, rfl, h0⟩
  case gamma => cases h; exact ⟨_, rfl, h0⟩
  case pareto => cases h; exact ⟨_, rfl, h0⟩
  case chisquare => cases h; exact ⟨_, rfl, by linarith⟩
  case standardT => cases h; exact ⟨_, rfl⟩
  case geometric => cases h; exact ⟨_, rfl, by omega⟩
  case integers low high =>
    split_ifs at h with hlt
    cases h
    refine ⟨_, rfl, ?_, ?_⟩
    · have := Int.emod_nonneg (k : ℤ) (show high - low ≠ 0 by omega); omega
    · have := Int.emod_lt_of_pos (k : ℤ) (show 0 < high - low by omega); omega

/-- `n` values from consecutive counters. -/
def demoValues (p : Prim ℚ) (n k : ℕ) : Except PyErr (List (Scalar ℚ)) :=
  mapExcept (fun j => match demoValue p j with
    | some v => .ok v
    | none => .error .valueError) (List.range' k n)

/-- The demo generator: the counter advances by the number of values. -/
def demoGen : Gen ℕ ℚ where
  draw p n k := (demoValues p n k, k + n)

theorem demoGen_lawful : demoGen.Lawful := by
  intro p n s xs s' h
  simp only [demoGen, Prod.mk.injEq] at h
  have h1 := h.1
  unfold demoValues at h1
  constructor
  · rw [mapExcept_length h1, List.length_range']
  · intro v hv
    rw [mapExcept_ok] at h1
    obtain ⟨i, hi, rfl⟩ := List.mem_iff_getElem.1 hv
    have hl := h1.length_eq
    have := h1.get (i := i) (by omega) hi
    simp only [List.get_eq_getElem] at this
    split at this
    · rename_i w hw
      cases this
      exact demoValue_support _ _ _ hw
    · cases this

/-- The demo environment; `exp`, `log`, `ppf` are arbitrary stand-ins. -/
def demoEnv : Env ℕ ℚ where
  gen := demoGen
  exp x := 1 + x
  log x := x - 1
  powf x y := if y = 1 / 2 then some x else none
  ppf x := x
  fmt _ := ""
  induce _ cols := .ok cols
  fuel := fun _ _ => 100

/-- Fresh demo state at counter `k`. -/
def demoSt (k : ℕ) : St ℕ ℚ := ⟨k, fun _ _ => none⟩

end Verif
