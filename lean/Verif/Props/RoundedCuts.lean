import Verif.Model.RoundedCuts
import Verif.Props.Multicore
import Verif.Props.RoundedWeights

/-!
# C169: splitting the work over cores in floating-point arithmetic
-/

namespace Verif

variable {K : Type} [Field K] [LinearOrder K] [IsStrictOrderedRing K] [FloorRing K] {p : ℕ} {fl : K → K}

omit [IsStrictOrderedRing K] in
theorem coreCutsFl_eq (n k : ℕ) : coreCutsFl fl n (k + 1) =
    .ok (List.replicate k ⌊fl ((n : K) / (k + 1 : ℕ))⌋ ++ [(n : ℤ) - k * ⌊fl ((n : K) / (k + 1 : ℕ))⌋]) := by
  simp only [coreCutsFl, List.reverse_replicate, List.sum_replicate]
  rw [List.replicate_succ]
  simp only [List.reverse_replicate]
  congr 3
  simp only [nsmul_eq_mul]
  push_cast
  ring

/-- Below `2^p` the rounded quotient has the same whole part. -/
theorem floor_quotient (h : RoundsTo p fl) {n c : ℕ} (hc : 1 ≤ c) (hn : n < 2 ^ p) :
    ⌊fl ((n : K) / c)⌋ = ((n / c : ℕ) : ℤ) := by
  have hc0 : (0 : K) < c := by exact_mod_cast hc
  have hu := ulp_pos (K := K) p
  have hdm : (n : K) = c * (n / c : ℕ) + (n % c : ℕ) := by exact_mod_cast (Nat.div_add_mod n c).symm
  have hmod : ((n % c : ℕ) : K) + 1 ≤ c := by exact_mod_cast Nat.mod_lt n hc
  have hq : ((n / c : ℕ) : K) ≤ (n : K) / c := by
    rw [le_div_iff₀ hc0, hdm]
    have : (0 : K) ≤ (n % c : ℕ) := Nat.cast_nonneg _
    nlinarith
  rw [Int.floor_eq_iff]
  constructor
  · have hf : IsFloat p (((n / c : ℕ) : ℤ) : K) := isFloat_int (by
      rw [Int.abs_natCast]
      exact_mod_cast (Nat.div_le_self n c).trans hn.le)
    refine h.le_of_ge hf ?_
    rw [Int.cast_natCast]
    exact hq
  · have hnn : (0 : K) ≤ (n : K) / c := by positivity
    have h1 := h.le_mul hnn
    have h2 : ulp p * (n : K) < 1 := by
      unfold ulp
      rw [one_div, inv_mul_lt_iff₀ (by positivity), mul_one]
      exact_mod_cast hn
    have h3 : ulp p * ((n : K) / c) < 1 / c := by
      rw [← mul_div_assoc]
      exact div_lt_div_of_pos_right h2 hc0
    have h4 : (n : K) / c + 1 / c ≤ (n / c : ℕ) + 1 := by
      rw [← add_div, div_le_iff₀ hc0]
      nlinarith
    rw [Int.cast_natCast]
    linarith

/-- **C169.** For fewer than `2^p` samples the parts are those of exact arithmetic. -/
theorem C169_same (h : RoundsTo p fl) {n c : ℕ} (hc : 1 ≤ c) (hn : n < 2 ^ p) :
    ∃ cuts, coreCuts n c = .ok cuts ∧ coreCutsFl fl n c = .ok (cuts.map fun m : ℕ => (m : ℤ)) := by
  obtain ⟨k, rfl⟩ : ∃ k, c = k + 1 := ⟨c - 1, by omega⟩
  refine ⟨List.replicate k (n / (k + 1)) ++ [n / (k + 1) + (n - (k + 1) * (n / (k + 1)))], ?_, ?_⟩
  · simp only [coreCuts, List.sum_replicate_nat, List.reverse_replicate]
    rw [List.replicate_succ]
    simp
  · rw [coreCutsFl_eq, floor_quotient h (by omega) hn]
    have h1 : (k + 1) * (n / (k + 1)) ≤ n := Nat.mul_div_le n (k + 1)
    simp only [List.map_append, List.map_replicate, List.map_cons, List.map_nil]
    congr 3
    push_cast [Nat.cast_sub h1]
    ring

/-- **C169.** For any number of samples and cores: one part for each core, and nothing is lost. -/
theorem C169_total (n : ℕ) {c : ℕ} (hc : 1 ≤ c) :
    ∃ cuts, coreCutsFl fl n c = .ok cuts ∧ cuts.length = c ∧ cuts.sum = n := by
  obtain ⟨k, rfl⟩ : ∃ k, c = k + 1 := ⟨c - 1, by omega⟩
  exact ⟨_, coreCutsFl_eq n k, by simp, by simp⟩

/-- **C169.** For any number of samples and up to `2^p` cores no part is negative, and the parts of the other cores are at
most the share `n / c` and one rounding. -/
theorem C169_nonneg (h : RoundsTo p fl) (n : ℕ) {c : ℕ} (hc : 1 ≤ c) (hcp : c ≤ 2 ^ p) :
    ∃ cuts, coreCutsFl fl n c = .ok cuts ∧ (∀ m ∈ cuts, 0 ≤ m) ∧
      ∀ m ∈ cuts.dropLast, (m : K) ≤ (1 + ulp p) * (n / c) := by
  obtain ⟨k, rfl⟩ : ∃ k, c = k + 1 := ⟨c - 1, by omega⟩
  have hc0 : (0 : K) < (k + 1 : ℕ) := by exact_mod_cast hc
  have hnn : (0 : K) ≤ (n : K) / (k + 1 : ℕ) := by positivity
  have h1 := h.le_mul hnn
  have h0 : 0 ≤ ⌊fl ((n : K) / (k + 1 : ℕ))⌋ := Int.floor_nonneg.2 (h.nonneg hnn)
  have hfl : (⌊fl ((n : K) / (k + 1 : ℕ))⌋ : K) ≤ (1 + ulp p) * ((n : K) / (k + 1 : ℕ)) := (Int.floor_le _).trans h1
  refine ⟨_, coreCutsFl_eq n k, ?_, ?_⟩
  · intro m hm
    rcases List.mem_append.1 hm with hm | hm
    · rw [(List.mem_replicate.1 hm).2]; exact h0
    · rw [List.mem_singleton.1 hm, sub_nonneg]
      have h2 : ((k * ⌊fl ((n : K) / (k + 1 : ℕ))⌋ : ℤ) : K) ≤ ((n : ℤ) : K) := by
        push_cast
        have hk : (0 : K) ≤ k := Nat.cast_nonneg k
        have h3 : (k : K) * ⌊fl ((n : K) / (k + 1 : ℕ))⌋ ≤ k * ((1 + ulp p) * ((n : K) / (k + 1 : ℕ))) :=
          mul_le_mul_of_nonneg_left hfl hk
        have h4 : (k : K) * (1 + ulp p) ≤ (k + 1 : ℕ) := by
          have : ulp p * ((k + 1 : ℕ) : K) ≤ 1 := by
            unfold ulp
            rw [one_div, inv_mul_le_iff₀ (by positivity), mul_one]
            exact_mod_cast hcp
          have hu := ulp_pos (K := K) p
          push_cast at this ⊢
          nlinarith
        have h5 : (k : K) * ((1 + ulp p) * ((n : K) / (k + 1 : ℕ))) ≤ n := by
          rw [← mul_assoc, ← mul_div_assoc, div_le_iff₀ hc0]
          have := mul_le_mul_of_nonneg_right h4 (Nat.cast_nonneg (α := K) n)
          linarith
        push_cast at h3 h5
        linarith
      exact_mod_cast h2
  · intro m hm
    rw [List.dropLast_concat] at hm
    rw [(List.mem_replicate.1 hm).2]
    exact_mod_cast hfl

omit [IsStrictOrderedRing K] in
/-- **C169.** Zero cores: the call fails. -/
theorem C169_zero_cores (n : ℕ) : coreCutsFl fl n 0 = .error .indexError := rfl

/-- **C169 fails** beyond: for `3·2^53 - 1` samples and three cores the last part is smaller than the others. -/
theorem C169_last_fails :
    coreCutsFl (roundBits 53 : ℚ → ℚ) (3 * 2 ^ 53 - 1) 3 = .ok [2 ^ 53, 2 ^ 53, 2 ^ 53 - 1] ∧
    coreCuts (3 * 2 ^ 53 - 1) 3 = .ok [2 ^ 53 - 1, 2 ^ 53 - 1, 2 ^ 53 + 1] := by decide +kernel

example : coreCutsFl (roundBits 53 : ℚ → ℚ) 10 4 = .ok [2, 2, 2, 4] := by decide +kernel

end Verif
