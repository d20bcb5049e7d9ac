import Verif.Props.Denote
import Verif.Props.TInterval

/-!
# C82: the law of `tdist(x, y)`

The generator is the ideal source of C86, its normal numbers have the normal law.
-/

namespace Verif

open MeasureTheory ProbabilityTheory Spec

variable {Ω : Type} [MeasurableSpace Ω] (S : IdealSource Ω) {E : Env (ℕ → Ω) ℝ}

theorem tRatio_normal {ν : Measure ℝ} [IsProbabilityMeasure ν] (m : ℝ) {s : ℝ} (t : ℝ) :
    tRatio (normalLaw m s) ν t = ((gaussianReal 0 1).prod ν).map fun p => (m + s * p.1) / √(p.2 / t) := by
  have h : normalLaw m s = (gaussianReal 0 1).map fun z => m + s * z := by
    have h1 : (fun z : ℝ => m + s * z) = (m + ·) ∘ (s * ·) := rfl
    rw [h1, ← Measure.map_map (by fun_prop) (by fun_prop), gaussianReal_map_const_mul,
      gaussianReal_map_const_add, normalLaw]
    congr 1
    · ring
    · rw [mul_one]
  have hid : ν = ν.map id := Measure.map_id.symm
  rw [tRatio, h]
  conv_lhs => rw [hid]
  rw [Measure.map_prod_map _ _ (by fun_prop) measurable_id, Measure.map_map (measurable_tRatio t) (by fun_prop)]
  rfl

/-- **C82, the law.** The samples of `tdist(x, y, t, cred)` are independent, and each is distributed like
`((x + y) / 2 + (y - x) / 2 / q * Z) / √(C / t)`, where `Z` is standard normal, `C` is an independent
chi-square number and `[-q, q]` is the central interval of `Z` with probability `cred`.  For `x = -y` this is
`y / q` times a t-distributed number; otherwise the centre is divided by the random root too. -/
theorem C82_law_partial (hE : S.Drives E) (hU : S.primLaw (.uniform 0 1) = some (volume.restrict (Set.Ico 0 1)))
    (hN : ∀ m s, 0 < s → S.primLaw (.normal m s) = some (normalLaw m s)) {x y t cred : ℝ} (hxy : x < y)
    (ht : 0 < t) (h0 : 0 < cred) (h1 : cred < 100) {ν : Measure ℝ} (hν : S.primLaw (.chisquare t) = some ν)
    {n : ℕ} (hn : 1 ≤ n) (left : ℕ → ℕ → Option (List (Scalar ℝ))) :
    ∃ q, 0 < q ∧ HasCI (gaussianReal 0 1) (-q) q cred ∧
    ∃ X : Fin n → (ℕ → Ω) → ℝ,
      (∀ᵐ ω ∂(Measure.infinitePi fun _ : ℕ => S.law), ∃ z s',
        sampleObj E (.leaf (.tdist (some x) (some y) t cred) none none) n none none ⟨ω, left⟩ = (.ok z, s') ∧
        Reads n z fun i => X i ω) ∧
      (∀ i, (Measure.infinitePi fun _ : ℕ => S.law).map (X i)
        = ((gaussianReal 0 1).prod ν).map
            fun p => ((x + y) / 2 + (y - x) / 2 / q * p.1) / √(p.2 / t)) ∧
      iIndepFun X (Measure.infinitePi fun _ : ℕ => S.law) := by
  obtain ⟨hq, hci⟩ := std_central hE.ppf h0 h1
  refine ⟨_, hq, hci, ?_⟩
  set q := normedSigma E.ppf cred with hqd
  have hq' : gaussianReal 0 1 (Set.Iic q) = ENNReal.ofReal ((1 + cred / 100) / 2) := by
    have := hE.ppf (0.5 + 0.5 * (cred / 100)) (by linarith) (by linarith)
    rw [hqd, normedSigma, this]
    congr 1
    ring
  have hpν := primLaw_prob S hν
  have hd := Denotes.tInterval (S := St (ℕ → Ω) ℝ) (L := S.primLaw) (lc := none) (rc := none) (lo := none)
    (hi := none) hxy ht h0 h1 hq' (hN _ _ (div_pos (by linarith) hq)) hν trivial trivial
  have e : clamp none none = id := rfl
  rw [e, Measure.map_id, tRatio_normal] at hd
  obtain ⟨-, X, hm, hX, hl, hi⟩ := C86_independent_samples S hE hU hd hn left
  exact ⟨X, hX, hl, hi⟩

example : ∃ q, 0 < q ∧ ∃ X : Fin 50 → (ℕ → ℝ × ℝ) → ℝ,
    (∀ᵐ ω ∂(Measure.infinitePi fun _ : ℕ => demoSource.law), ∃ z s',
      sampleObj idealEnv (.leaf (.tdist (some 1) (some 3) 1 90) none none) 50 none none ⟨ω, fun _ _ => none⟩
        = (.ok z, s') ∧ Reads 50 z fun i => X i ω) ∧
    (∀ i, (Measure.infinitePi fun _ : ℕ => demoSource.law).map (X i)
      = ((gaussianReal 0 1).prod ((gaussianReal 0 1).map fun z => z ^ 2)).map
          fun p => ((1 + 3) / 2 + (3 - 1) / 2 / q * p.1) / √(p.2 / 1)) := by
  obtain ⟨q, hq, -, X, hX, hl, -⟩ := C82_law_partial demoSource (E := idealEnv) idealEnv_driven
    demoSource_uniform (fun m s hs => demoSource_normal m hs.le) (x := 1) (y := 3) (t := 1) (cred := 90)
    (by norm_num) one_pos (by norm_num) (by norm_num) demoSource_chisquare (n := 50) (by norm_num)
    fun _ _ => none
  exact ⟨q, hq, X, hX, hl⟩

end Verif
