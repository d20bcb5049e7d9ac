import Verif.Lemmas.LawMoments
import Mathlib.RingTheory.Polynomial.Bernstein
import Mathlib.Analysis.SpecificLimits.Normed

/-!
# Means and variances of numpy's laws: integers
-/

namespace Verif

open MeasureTheory ProbabilityTheory Spec

/-- A law of integers: mean and variance from the first two moments. -/
theorem nat_hasMean {μ : Measure ℕ} {g : ℕ → ℝ} {m : ℝ} (hi : Integrable g μ) (h : ∫ k, g k ∂μ = m) :
    HasMean (μ.map g) m := by
  refine ⟨(integrable_map_measure (by fun_prop) (by fun_prop)).2 hi, ?_⟩
  rw [integral_map (by fun_prop) (by fun_prop), h]

theorem nat_hasVar {μ : Measure ℕ} [IsProbabilityMeasure μ] {g : ℕ → ℝ} {m q v : ℝ} (hi : Integrable g μ)
    (h : ∫ k, g k ∂μ = m) (hi2 : Integrable (fun k => g k ^ 2) μ) (h2 : ∫ k, g k ^ 2 ∂μ = q)
    (hv : v = q - m ^ 2) : HasVar (μ.map g) v := by
  have : IsProbabilityMeasure (μ.map g) := Measure.isProbabilityMeasure_map (by fun_prop)
  refine hasVar_of (nat_hasMean hi h) ((integrable_map_measure (by fun_prop) (by fun_prop)).2 hi2) ?_ hv
  rw [integral_map (by fun_prop) (by fun_prop), h2]

theorem hasSum_of {f g : ℕ → ℝ} {a b : ℝ} (h : HasSum f a) (e : ∀ n, g n = f n) (ea : b = a) : HasSum g b := by
  have : g = f := funext e
  rw [this, ea]
  exact h

/-! ## Poisson -/

theorem poisson_sum_shift {r : NNReal} {f : ℕ → ℝ} {a : ℝ}
    (h : HasSum (fun n => Real.exp (-r) * r ^ n / n.factorial * f (n + 1)) a) :
    HasSum (fun n => Real.exp (-r) * r ^ n / n.factorial * (n * f n)) (r * a) := by
  refine (hasSum_nat_add_iff' 1).1 ?_
  simp only [Finset.range_one, Finset.sum_singleton, Nat.cast_zero, zero_mul, mul_zero, sub_zero]
  refine hasSum_of (h.mul_left (r : ℝ)) (fun n => ?_) rfl
  have h1 : (n.factorial : ℝ) ≠ 0 := by exact_mod_cast n.factorial_ne_zero
  rw [Nat.factorial_succ, pow_succ]
  push_cast
  field_simp

theorem poisson_moments (r : NNReal) :
    (Integrable (fun k : ℕ => (k : ℝ)) (poissonMeasure r) ∧ ∫ k : ℕ, (k : ℝ) ∂(poissonMeasure r) = r) ∧
    (Integrable (fun k : ℕ => (k : ℝ) ^ 2) (poissonMeasure r) ∧
      ∫ k : ℕ, (k : ℝ) ^ 2 ∂(poissonMeasure r) = r * (r + 1)) := by
  have h0 := hasSum_one_poissonMeasure r
  have h1 : HasSum (fun n : ℕ => Real.exp (-r) * r ^ n / n.factorial * n) r := by
    have := poisson_sum_shift (r := r) (f := fun _ => 1) (a := 1) (by simpa using h0)
    simpa using this
  have h2 : HasSum (fun n : ℕ => Real.exp (-r) * r ^ n / n.factorial * (n : ℝ) ^ 2) (r * (r + 1)) := by
    have := poisson_sum_shift (r := r) (f := fun n => n) (a := r + 1)
      (hasSum_of (h1.add h0) (fun n => by push_cast; ring) rfl)
    exact hasSum_of this (fun n => by ring) rfl
  refine ⟨⟨?_, ?_⟩, ?_, ?_⟩
  · rw [integrable_poissonMeasure_iff]
    simpa using h1.summable
  · rw [integral_poissonMeasure]
    simpa using h1.tsum_eq
  · rw [integrable_poissonMeasure_iff]
    simpa using h2.summable
  · rw [integral_poissonMeasure]
    simpa using h2.tsum_eq

theorem poisson_hasMean (r : NNReal) : HasMean ((poissonMeasure r).map fun k : ℕ => (k : ℝ)) r :=
  nat_hasMean (poisson_moments r).1.1 (poisson_moments r).1.2

theorem poisson_hasVar (r : NNReal) : HasVar ((poissonMeasure r).map fun k : ℕ => (k : ℝ)) r :=
  nat_hasVar (poisson_moments r).1.1 (poisson_moments r).1.2 (poisson_moments r).2.1 (poisson_moments r).2.2
    (by ring)

/-! ## Geometric -/

theorem geometric_moments {p : unitInterval} (hp : p ≠ 0) :
    (Integrable (fun k : ℕ => (k : ℝ) + 1) (geometricMeasure p) ∧
      ∫ k : ℕ, ((k : ℝ) + 1) ∂(geometricMeasure p) = 1 / p) ∧
    (Integrable (fun k : ℕ => ((k : ℝ) + 1) ^ 2) (geometricMeasure p) ∧
      ∫ k : ℕ, ((k : ℝ) + 1) ^ 2 ∂(geometricMeasure p) = (2 - (p : ℝ)) / (p : ℝ) ^ 2) := by
  have hp0 : (0 : ℝ) < p := lt_of_le_of_ne p.2.1 fun h => hp (Subtype.ext h.symm)
  have hp1 : (p : ℝ) ≤ 1 := p.2.2
  have hr : ‖(1 - p : ℝ)‖ < 1 := by
    rw [Real.norm_eq_abs, abs_lt]
    constructor <;> linarith
  have c1 := hasSum_choose_mul_geometric_of_norm_lt_one 1 hr
  have c2 := hasSum_choose_mul_geometric_of_norm_lt_one 2 hr
  rw [sub_sub_cancel] at c1 c2
  have h1 : HasSum (fun n : ℕ => (1 - p : ℝ) ^ n * p * ((n : ℝ) + 1)) (1 / p) := by
    refine hasSum_of (c1.mul_left (p : ℝ)) (fun n => ?_) ?_
    · rw [Nat.choose_one_right]
      push_cast
      ring
    · field_simp
  have h2 : HasSum (fun n : ℕ => (1 - p : ℝ) ^ n * p * ((n : ℝ) + 1) ^ 2) ((2 - (p : ℝ)) / (p : ℝ) ^ 2) := by
    refine hasSum_of ((c2.mul_left (2 * (p : ℝ))).sub (c1.mul_left (p : ℝ))) (fun n => ?_) ?_
    · have e : ((n + 2).choose 2 : ℝ) = ((n : ℝ) + 2) * (n + 1) / 2 := by
        rw [Nat.cast_choose_two]
        push_cast
        ring
      rw [e, Nat.choose_one_right]
      push_cast
      ring
    · field_simp
      ring
  have a1 : ∀ n : ℕ, ‖(n : ℝ) + 1‖ = n + 1 := fun n => by
    rw [Real.norm_eq_abs, abs_of_nonneg (by positivity)]
  refine ⟨⟨?_, ?_⟩, ?_, ?_⟩
  · rw [integrable_geometricMeasure_iff hp]
    simpa [a1] using h1.summable
  · rw [integral_geometricMeasure hp]
    simpa using h1.tsum_eq
  · rw [integrable_geometricMeasure_iff hp]
    simpa [a1] using h2.summable
  · rw [integral_geometricMeasure hp]
    simpa using h2.tsum_eq

theorem geometric_hasMean {p : unitInterval} (hp : p ≠ 0) :
    HasMean ((geometricMeasure p).map fun k : ℕ => (k : ℝ) + 1) (1 / p) :=
  nat_hasMean (geometric_moments hp).1.1 (geometric_moments hp).1.2

theorem geometric_hasVar {p : unitInterval} (hp : p ≠ 0) :
    HasVar ((geometricMeasure p).map fun k : ℕ => (k : ℝ) + 1) ((1 - p) / p ^ 2) := by
  have hp0 : (p : ℝ) ≠ 0 := fun h => hp (Subtype.ext h)
  refine nat_hasVar (geometric_moments hp).1.1 (geometric_moments hp).1.2 (geometric_moments hp).2.1
    (geometric_moments hp).2.2 ?_
  field_simp
  ring

/-! ## Binomial -/

theorem binomial_sum (n : ℕ) (p : unitInterval) (f : ℕ → ℝ) :
    ∫ k : ℕ, f k ∂(binomial n p)
      = ∑ k ∈ Finset.range (n + 1), f k * (bernsteinPolynomial ℝ n k).eval (p : ℝ) := by
  have e : Finset.Iic n = Finset.range (n + 1) := by
    ext k
    simp
  rw [integral_binomial, e]
  refine Finset.sum_congr rfl fun k _ => ?_
  simp [bernsteinPolynomial]
  ring

theorem binomial_moments (n : ℕ) (p : unitInterval) :
    ∫ k : ℕ, (k : ℝ) ∂(binomial n p) = n * p ∧
    ∫ k : ℕ, (k : ℝ) ^ 2 ∂(binomial n p) = n * (n - 1) * p ^ 2 + n * p := by
  have h1 := congrArg (Polynomial.eval (p : ℝ)) (bernsteinPolynomial.sum_smul ℝ n)
  have h2 := congrArg (Polynomial.eval (p : ℝ)) (bernsteinPolynomial.sum_mul_smul ℝ n)
  simp only [Polynomial.eval_finsetSum, Polynomial.eval_X, Polynomial.eval_pow,
    nsmul_eq_mul, Polynomial.eval_mul, Polynomial.eval_natCast] at h1 h2
  have e : ∀ k : ℕ, ((k * (k - 1) : ℕ) : ℝ) = (k : ℝ) * (k - 1) := by
    intro k
    cases k with
    | zero => simp
    | succ k => push_cast; simp
  simp only [e] at h2
  refine ⟨by rw [binomial_sum, h1], ?_⟩
  rw [binomial_sum, ← h2, ← h1, ← Finset.sum_add_distrib]
  exact Finset.sum_congr rfl fun k _ => by ring

theorem binomial_hasMean (n : ℕ) (p : unitInterval) :
    HasMean ((binomial n p).map fun k : ℕ => (k : ℝ)) (n * p) :=
  nat_hasMean (integrable_binomial _) (binomial_moments n p).1

theorem binomial_hasVar (n : ℕ) (p : unitInterval) :
    HasVar ((binomial n p).map fun k : ℕ => (k : ℝ)) (n * p * (1 - p)) :=
  nat_hasVar (integrable_binomial _) (binomial_moments n p).1 (integrable_binomial _) (binomial_moments n p).2
    (by ring)

/-! ## Integers of an interval -/

theorem sum_ints {lo hi : ℤ} (h : lo ≤ hi) :
    ∑ t ∈ Finset.Ico lo hi, (t : ℝ) = (hi - lo) * (lo + hi - 1) / 2 ∧
    ∑ t ∈ Finset.Ico lo hi, (t : ℝ) ^ 2
      = ((hi - 1) * hi * (2 * hi - 1) - (lo - 1) * lo * (2 * lo - 1)) / 6 := by
  induction hi, h using Int.leInduction with
  | base => simp
  | succ k hk ih =>
    have e : Finset.Ico lo (k + 1) = insert k (Finset.Ico lo k) := by
      ext t
      simp only [Finset.mem_Ico, Finset.mem_insert]
      omega
    rw [e, Finset.sum_insert (by simp), Finset.sum_insert (by simp), ih.1, ih.2]
    push_cast
    constructor <;> ring

theorem integersLaw_integral {lo hi : ℤ} (h : lo < hi) (f : ℝ → ℝ) :
    Integrable f (integersLaw lo hi) ∧
    ∫ x, f x ∂(integersLaw lo hi) = (∑ t ∈ Finset.Ico lo hi, f t) / (hi - lo) := by
  have hi' : ∀ t ∈ Finset.Ico lo hi, Integrable f (ENNReal.ofReal (1 / ((hi - lo : ℤ) : ℝ)) • Measure.dirac (t : ℝ)) :=
    fun t _ => (integrable_dirac (by simp)).smul_measure ENNReal.ofReal_ne_top
  refine ⟨integrable_finsetSum_measure.2 hi', ?_⟩
  have h0 : (0 : ℝ) < ((hi - lo : ℤ) : ℝ) := by exact_mod_cast sub_pos.2 h
  rw [integersLaw, integral_finsetSum_measure hi', Finset.sum_div]
  refine Finset.sum_congr rfl fun t _ => ?_
  rw [integral_smul_measure, integral_dirac, ENNReal.toReal_ofReal (by positivity), smul_eq_mul]
  push_cast
  ring

theorem integersLaw_prob {lo hi : ℤ} (h : lo < hi) : IsProbabilityMeasure (integersLaw lo hi) := by
  have h0 : (0 : ℝ) < ((hi - lo : ℤ) : ℝ) := by exact_mod_cast sub_pos.2 h
  constructor
  rw [integersLaw]
  simp only [Measure.coe_finsetSum, Finset.sum_apply, Measure.smul_apply, measure_univ, smul_eq_mul, mul_one,
    Finset.sum_const, Int.card_Ico, nsmul_eq_mul]
  rw [← ENNReal.ofReal_natCast, ← ENNReal.ofReal_mul (by positivity)]
  have : (((hi - lo).toNat : ℕ) : ℝ) = ((hi - lo : ℤ) : ℝ) := by
    have := Int.toNat_of_nonneg (sub_pos.2 h).le
    exact_mod_cast this
  rw [this, mul_one_div_cancel h0.ne', ENNReal.ofReal_one]

theorem integers_hasMean {lo hi : ℤ} (h : lo < hi) : HasMean (integersLaw lo hi) ((lo + hi - 1) / 2) := by
  have h0 : (0 : ℝ) < (hi : ℝ) - lo := by exact_mod_cast sub_pos.2 h
  refine ⟨(integersLaw_integral h _).1, ?_⟩
  rw [(integersLaw_integral h _).2, (sum_ints h.le).1]
  field_simp

theorem integers_hasVar {lo hi : ℤ} (h : lo < hi) :
    HasVar (integersLaw lo hi) ((((hi : ℝ) - lo) ^ 2 - 1) / 12) := by
  have h0 : (0 : ℝ) < (hi : ℝ) - lo := by exact_mod_cast sub_pos.2 h
  have := integersLaw_prob h
  refine hasVar_of (integers_hasMean h) (integersLaw_integral h fun x => x ^ 2).1
    (integersLaw_integral h fun x => x ^ 2).2 ?_
  rw [(sum_ints h.le).2]
  field_simp
  ring

theorem dieLaw_eq (s : ℤ) : dieLaw s = integersLaw 1 (s + 1) := by
  have e : Finset.Icc (1 : ℤ) s = Finset.Ico 1 (s + 1) := by
    ext t
    simp only [Finset.mem_Icc, Finset.mem_Ico]
    omega
  rw [dieLaw, integersLaw, e, add_sub_cancel_right]

end Verif
