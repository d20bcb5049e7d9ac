import Verif.Model.RoundedOneIn
import Verif.Props.OneIn
import Verif.Props.RoundedBuckets
import Verif.Props.SciText

/-!
# `one_in` in floating-point arithmetic (C161)

`fl` is any correct rounding to `p` binary digits (53 for a Python float).
-/

namespace Verif
open Verif.Spec

variable {K : Type} [Field K] [LinearOrder K] [IsStrictOrderedRing K] [FloorRing K] {p : ℕ} {fl : K → K}

theorem oneInFl_eq {q : K} (hq : q ≠ 0) : oneInFl fl q = .ok (roundEven (fl (1 / q))) := by
  unfold oneInFl truncZ
  rw [if_neg hq]
  split <;> simp

/-- **C161** (there and back): for every whole number `m` up to `2^p / 8`, the float nearest to `1/m` is shown as
`1 in m`. -/
theorem C161_exact (h : RoundsTo p fl) {m : ℕ} (hm : 1 ≤ m) (hp : 8 * m ≤ 2 ^ p) :
    oneInFl fl (fl (1 / (m : K))) = .ok (m : ℤ) ∧
    oneInTextFl fl (fl (1 / (m : K))) = .ok ("1 in ".toList ++ thousands m) := by
  have hu := ulp_pos (K := K) p
  have hm0 : (0 : K) < m := by exact_mod_cast hm
  have hm1 : (1 : K) ≤ m := by exact_mod_cast hm
  have hmu := four_ulp (K := K) hp
  have hu8 : ulp (K := K) p ≤ 1 / 8 := by nlinarith
  obtain ⟨a, ha, ea⟩ := h.near (1 / (m : K))
  obtain ⟨b, hb, eb⟩ := h.near (1 / fl (1 / (m : K)))
  have ha' := abs_le.1 ha
  have hb' := abs_le.1 hb
  have ha0 : 0 < a := by linarith
  have hq : fl (1 / (m : K)) ≠ 0 := by rw [ea]; positivity
  have e : fl (1 / fl (1 / (m : K))) = m * (b / a) := by
    rw [eb, ea]; field_simp
  have hba : |b / a - 1| ≤ 3 * ulp p := by
    rw [div_sub_one ha0.ne', abs_div, abs_of_pos ha0, div_le_iff₀ ha0, abs_le]
    constructor <;> nlinarith
  have hr : roundEven (fl (1 / fl (1 / (m : K)))) = (m : ℤ) := by
    have h1 := abs_le.1 (abs_roundEven_sub_le (fl (1 / fl (1 / (m : K)))))
    rw [e] at h1 ⊢
    have h2 : |(m : K) * (b / a) - m| ≤ 3 / 8 := by
      have : (m : K) * (b / a) - m = m * (b / a - 1) := by ring
      rw [this, abs_mul, abs_of_pos hm0]
      calc (m : K) * |b / a - 1| ≤ m * (3 * ulp p) := mul_le_mul_of_nonneg_left hba hm0.le
        _ ≤ 3 / 8 := by linarith
    have h2 := abs_le.1 h2
    have c1 : ((roundEven ((m : K) * (b / a)) : ℤ) : K) < ((m + 1 : ℤ) : K) := by push_cast; linarith [h1.2, h2.2]
    have c2 : ((m - 1 : ℤ) : K) < ((roundEven ((m : K) * (b / a)) : ℤ) : K) := by push_cast; linarith [h1.1, h2.1]
    have c1 := Int.cast_lt.1 c1
    have c2 := Int.cast_lt.1 c2
    omega
  have h1 : oneInFl fl (fl (1 / (m : K))) = .ok (m : ℤ) := by rw [oneInFl_eq hq, hr]
  refine ⟨h1, ?_⟩
  unfold oneInTextFl
  rw [h1]
  rfl

/-- **C161** (order): a larger probability never gets a larger number. -/
theorem C161_monotone (h : RoundsTo p fl) {q r : K} (hq : 0 < q) (hqr : q ≤ r) :
    ∃ X Y : ℤ, oneInFl fl q = .ok X ∧ oneInFl fl r = .ok Y ∧ Y ≤ X :=
  ⟨_, _, oneInFl_eq hq.ne', oneInFl_eq (hq.trans_le hqr).ne',
    roundEven_le (h.mono (one_div_le_one_div_of_le hq hqr))⟩

/-- **C161** (accuracy): the number is `1/q` up to one half and one rounding; it is at least 1 for probabilities, and 0
is refused. -/
theorem C161_accuracy (h : RoundsTo p fl) {q : K} (hq : 0 < q) (hq1 : q ≤ 1) :
    ∃ X : ℤ, oneInFl fl q = .ok X ∧ 1 ≤ X ∧ |(X : K) - 1 / q| ≤ 1 / 2 + ulp p / q := by
  refine ⟨_, oneInFl_eq hq.ne', ?_, ?_⟩
  · have h1 : (1 : K) ≤ fl (1 / q) := h.le_of_ge (isFloat_one p) (by rw [le_div_iff₀ hq]; linarith)
    have := roundEven_le h1
    have e : roundEven (1 : K) = 1 := by exact_mod_cast roundEven_intCast (K := K) 1
    rwa [e] at this
  · have h1 := abs_roundEven_sub_le (fl (1 / q))
    have h2 := h.err (1 / q)
    rw [abs_of_pos (show (0 : K) < 1 / q by positivity), mul_one_div] at h2
    have := abs_sub_le ((roundEven (fl (1 / q)) : ℤ) : K) (fl (1 / q)) (1 / q)
    linarith

omit [IsStrictOrderedRing K] in
/-- **C161** (refused): the probability 0. -/
theorem C161_zero : oneInFl fl (0 : K) = .error .zeroDivisionError := by simp [oneInFl]

/-- **C161 is violated by the code** (nearest): just below 0.4 there is a float `q` with `1/q` above 2.5 that is shown as
`1 in 2`, although 3 is nearer to `1/q`. -/
theorem C161_nearest_fails : ∃ q : ℚ, IsFloat 53 q ∧ oneInFl (roundBits 53) q = .ok 2 ∧ |3 - 1 / q| < |2 - 1 / q| := by
  refine ⟨7205759403792793 / 2 ^ 54, ⟨7205759403792793, -54, by norm_num, by norm_num⟩, ?_, ?_⟩
  · decide +kernel
  · decide +kernel

/-- A probability of one in seven. -/
example : oneInTextFl (roundBits 53) (roundBits 53 (1 / 7 : ℚ)) = .ok "1 in 7".toList := by
  have := (C161_exact (roundBits_roundsTo (K := ℚ) (p := 53) (by norm_num)) (m := 7) (by norm_num) (by norm_num)).2
  exact_mod_cast this

example : oneInTextFl (roundBits 53) (roundBits 53 (1 / 1234567 : ℚ)) = .ok "1 in 1,234,567".toList := by
  decide +kernel

end Verif
