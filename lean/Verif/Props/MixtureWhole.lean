import Verif.Props.Mixture
import Verif.Props.DiscreteDists

/-! # C05 and C07 about whole calls of `sample(mixture(...), n)` -/

namespace Verif

open Verif.Spec

/-! ### C05 -/

section Law
open MeasureTheory ProbabilityTheory

variable {Ω : Type} [MeasurableSpace Ω] (S : IdealSource Ω) {E : Env (ℕ → Ω) ℝ} (hE : S.Drives E)
  (hU : S.primLaw (.uniform 0 1) = unitLaw)
include hE hU

/-- **C05.** `sample(mixture(...), n)` with positive weights of sum 1 over components with laws `ν i`, any `n ≥ 1`:
the samples are independent, and each lies in a set `A` with probability `Σ wᵢ νᵢ(A)`. -/
theorem C05_whole_call {k : ℕ} {ds : Fin k → Obj (St (ℕ → Ω) ℝ) ℝ} {ν : Fin k → Measure ℝ} {ws : List ℝ}
    (hk : ws.length = k) (hd : ∀ i, Denotes S.primLaw (ds i) (ν i)) (hpos : ∀ w ∈ ws, 0 < w) (hsum : ws.sum = 1)
    {n : ℕ} (hn : 1 ≤ n) (left : ℕ → ℕ → Option (List (Scalar ℝ))) :
    ∃ X : Fin n → (ℕ → Ω) → ℝ, (∀ j, Measurable (X j)) ∧
      (∀ᵐ ω ∂(Measure.infinitePi fun _ : ℕ => S.law), ∃ z s',
        sampleObj E (.mix k ds ws none none) n none none ⟨ω, left⟩ = (.ok z, s') ∧ Reads n z fun j => X j ω) ∧
      (∀ j (A : Set ℝ), MeasurableSet A → (Measure.infinitePi fun _ : ℕ => S.law) {ω | X j ω ∈ A}
        = ∑ i : Fin k, ENNReal.ofReal (ws[i.1]'(hk ▸ i.2)) * ν i A) ∧
      iIndepFun X (Measure.infinitePi fun _ : ℕ => S.law) := by
  obtain ⟨-, X, hX, hae, hlaw, hind⟩ := C86_independent_samples S hE hU
    (Denotes.mix (lc := none) (rc := none) (lo := none) (hi := none) hk hd hpos hsum trivial trivial) hn left
  refine ⟨X, hX, hae, fun j A hA => ?_, hind⟩
  have h1 : {ω | X j ω ∈ A} = X j ⁻¹' A := rfl
  have hcl : clamp none none = id := rfl
  rw [h1, ← Measure.map_apply (hX j) hA, hlaw j, hcl, Measure.map_id, Measure.finsetSum_apply]
  simp

end Law

open MeasureTheory in
/-- 150 samples of 30 % 1 and 70 % a normal variable. -/
example : ∃ X : Fin 150 → (ℕ → ℝ × ℝ) → ℝ,
    (∀ᵐ ω ∂(Measure.infinitePi fun _ : ℕ => demoSource.law), ∃ z s',
      sampleObj idealEnv (.mix 2 ![.lit (.int 1), .leaf (.normal 0 1) none none] [3 / 10, 7 / 10] none none) 150
        none none ⟨ω, fun _ _ => none⟩ = (.ok z, s') ∧ Reads 150 z fun j => X j ω) ∧
    ∀ j, (Measure.infinitePi fun _ : ℕ => demoSource.law) {ω | X j ω ∈ ({1} : Set ℝ)}
      = ENNReal.ofReal (3 / 10) := by
  obtain ⟨X, -, h1, h2, -⟩ := C05_whole_call demoSource (E := idealEnv) idealEnv_driven demoSource_uniform
    (k := 2) (ds := ![.lit (.int 1), .leaf (.normal 0 1) none none])
    (ν := ![Measure.dirac 1, normalLaw 0 1]) (ws := [3 / 10, 7 / 10]) rfl
    (by
      intro i
      fin_cases i
      · exact Denotes.lit (by simp [IsReal])
      · exact denotes_normal (demoSource_normal 0 (s := 1) (by norm_num)))
    (by simp) (by norm_num) (n := 150) (by norm_num) (fun _ _ => none)
  refine ⟨X, h1, fun j => ?_⟩
  rw [h2 j _ (measurableSet_singleton _), Fin.sum_univ_two]
  have : normalLaw 0 1 {1} = 0 := by
    unfold normalLaw
    have := ProbabilityTheory.nullSingletonClass_gaussianReal (μ := 0) (v := .mk ((1 : ℝ) ^ 2) (sq_nonneg 1))
      (by intro h; simpa using congrArg NNReal.toReal h)
    exact measure_singleton _
  simp [this]

/-! ### C07 -/

section
variable {σ K : Type} [Field K] [LinearOrder K] [FloorRing K] [IsStrictOrderedRing K]

omit [FloorRing K] [IsStrictOrderedRing K] in
theorem nonzeroPairs_congr {β : Type} : ∀ {ws : List K} {vs us : List β}, ws.length = vs.length →
    ws.length = us.length → (∀ (i : ℕ) (w : K), ws[i]? = some w → w ≠ 0 → vs[i]? = us[i]?) →
    nonzeroPairs ws vs = nonzeroPairs ws us
  | [], _, _, _, _, _ => rfl
  | w :: ws, v :: vs, u :: us, h1, h2, h => by
    have ih := nonzeroPairs_congr (ws := ws) (vs := vs) (us := us) (by simpa using h1) (by simpa using h2)
      (fun i w' => by simpa using h (i + 1) w')
    unfold nonzeroPairs at ih ⊢
    rw [List.zip_cons_cons, List.zip_cons_cons, List.filter_cons, List.filter_cons, ih]
    by_cases hw : w = 0
    · simp [hw]
    · have : v = u := by simpa using h 0 w (by simp) hw
      rw [this]

/-- **C07.** Replacing the components of weight 0 by anything else – for example by a distribution whose sampling
raises – changes neither whether the mixture is accepted nor anything a call of `sample` returns or leaves behind:
they are never evaluated.  The weights may be given as list, tuple or array. -/
theorem C07_replaced (E : Env σ K) (ws : List K) (W : WArg K) (hW : W ∈ weightForms ws)
    (ds es : List (Obj (St σ K) K)) (h1 : ws.length = ds.length) (h2 : ws.length = es.length)
    (hsame : ∀ (i : ℕ) (w : K), ws[i]? = some w → w ≠ 0 → ds[i]? = es[i]?)
    (n : ℕ) (lc rc : Option (Scalar K)) (st : St σ K) :
    (mixtureInit W .absent (.list (ds.map .plain))).map (fun p => sampleObj E (mixtureObj p) n lc rc st)
      = (mixtureInit W .absent (.list (es.map .plain))).map fun p => sampleObj E (mixtureObj p) n lc rc st := by
  rcases eq_or_ne ds [] with rfl | hd
  · have : es = [] := List.length_eq_zero_iff.1 (by rw [← h2, h1]; rfl)
    rw [this]
  have he : es ≠ [] := by
    rintro rfl
    exact hd (List.length_eq_zero_iff.1 (by rw [← h1, h2]; rfl))
  unfold mixtureInit
  rw [C01_weights_decision _ ws ds W hW h1 hd false (by simp), C01_weights_decision _ ws es W hW h2 he false (by simp),
    nonzeroPairs_congr h1 h2 hsame]

/-- **C07** for relative weights. -/
theorem C07_replaced_relative (E : Env σ K) (rs : List K) (W : WArg K) (hW : W ∈ weightForms rs)
    (ds es : List (Obj (St σ K) K)) (h1 : rs.length = ds.length) (h2 : rs.length = es.length)
    (hsame : ∀ (i : ℕ) (r : K), rs[i]? = some r → r ≠ 0 → ds[i]? = es[i]?)
    (n : ℕ) (lc rc : Option (Scalar K)) (st : St σ K) :
    (mixtureInit .absent W (.list (ds.map .plain))).map (fun p => sampleObj E (mixtureObj p) n lc rc st)
      = (mixtureInit .absent W (.list (es.map .plain))).map fun p => sampleObj E (mixtureObj p) n lc rc st := by
  rcases eq_or_ne ds [] with rfl | hd
  · have : es = [] := List.length_eq_zero_iff.1 (by rw [← h2, h1]; rfl)
    rw [this]
  have he : es ≠ [] := by
    rintro rfl
    exact hd (List.length_eq_zero_iff.1 (by rw [← h1, h2]; rfl))
  unfold mixtureInit
  rw [C02_relative_decision _ rs ds W hW h1 hd false (by simp), C02_relative_decision _ rs es W hW h2 he false (by simp),
    nonzeroPairs_congr h1 h2 hsame]

end

/-- A component of weight 0 that cannot be sampled does no harm; with weight 1/10 it does. -/
example :
    (mixtureInit (.list [some (1 / 2), some 0, some (1 / 2)]) .absent
        (.list [.plain (demoConst 1), .plain (.leaf (.uniform 3 1) none none), .plain (demoConst 2)])).map
      (fun p => (sampleObj demoEnv (mixtureObj p) 5 none none (demoSt 0)).1)
    = .ok (.ok (.arr [.int 1, .int 1, .int 2, .int 2, .int 1])) := by
  decide +kernel

end Verif
