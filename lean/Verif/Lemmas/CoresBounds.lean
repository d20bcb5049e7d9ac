import Verif.Lemmas.CoresLaw
import Verif.Lemmas.BoundsLaw

/-!
# Helper lemmas: `sample(..., lclip, rclip, cores=c)`
-/

namespace Verif

open MeasureTheory ProbabilityTheory Spec

section
variable {Ω : Type} [MeasurableSpace Ω] (S : IdealSource Ω) {E : Env (ℕ → Ω) ℝ}
  {left : ℕ → ℕ → Option (List (Scalar ℝ))} {d : Obj (St (ℕ → Ω) ℝ) ℝ} {μ : Measure ℝ} [IsProbabilityMeasure μ]

/-- The whole call with bounds: one batch for every core, each of them independent draws, in a row, moved into the
interval once more. -/
theorem cores_law_bounds {lc rc : Option (Scalar ℝ)} {lo hi : Option ℝ} (hlo : IsBound lc lo) (hhi : IsBound rc hi)
    (hdraw : ∀ n, 1 ≤ n →
      DrawsLaw S.law left (sampleObj E d n lc rc) (Reads n) (Measure.pi fun _ : Fin n => μ))
    {cores n : ℕ} (hc : 2 ≤ cores) (hn : cores ≤ n) {sched : Sched} (hv : sched.Valid cores)
    (tmp : ℕ → Option (Samples ℝ)) :
    ∃ (k : ℕ → ℕ) (Y : (i : ℕ) → (ℕ → Ω) → Fin (k i) → ℝ), (∀ i, i + 1 < cores → k i = n / cores) ∧
      k (cores - 1) = n / cores + n % cores ∧
      (∀ i, i < cores → MeasurePreserving (Y i) (streamLaw S.law) (Measure.pi fun _ => μ)) ∧
      ∀ᵐ ω ∂(streamLaw S.law), ∃ z m', sampleCores E sched cores d n lc rc ⟨⟨ω, left⟩, tmp⟩ = (.ok z, m') ∧
        List.Forall₂ IsReal z.toList (((List.range cores).flatMap fun i => List.ofFn (Y i ω)).map (clamp lo hi)) := by
  obtain ⟨cuts, q, last, hcuts, -⟩ := C24_cuts n cores (by omega)
  obtain ⟨hl, hs, hcut, hlast⟩ := coreCuts_getD hcuts
  have hq : 1 ≤ n / cores := Nat.div_pos hn (by omega)
  have hnd : (sched.map Prod.snd).Nodup := hv.nodup_iff.2 List.nodup_range
  have hmem : ∀ i, i ∈ sched.map Prod.snd ↔ i < cores - 1 := fun i => by
    rw [List.Perm.mem_iff hv, List.mem_range]
  obtain ⟨Y, h1, h2⟩ := workers_law S cuts hdraw sched hnd
    (fun i hi => by rw [hcut i (by have := (hmem i).1 hi; omega)]; exact hq) (fun _ => id) fun _ => MeasurePreserving.id _
  obtain ⟨Y₀, next, h3, -, h5⟩ := drawsLaw_parts S (hdraw (cuts.getD (cores - 1) 0) (by omega))
  refine ⟨fun i => cuts.getD i 0, fun i => if h : i = cores - 1 then fun ω => h ▸ Y₀ ω else Y i, hcut, hlast,
    fun i hi => ?_, ?_⟩
  · by_cases h : i = cores - 1
    · subst h
      simp only [dif_pos]
      exact h3
    · simp only [h, dif_neg, not_false_eq_true]
      exact h1 i ((hmem i).2 (by omega))
  · filter_upwards [h2, h5] with ω hω hω'
    obtain ⟨own, ho, hR⟩ := hω'
    have hw : ∀ i, ∃ z, i + 1 < cores → runWorkers E d cuts lc rc sched (fun _ => ⟨ω, left⟩) tmp i = some z ∧
        Reads _ z (Y i ω) := fun i => by
      by_cases hi : i + 1 < cores
      · obtain ⟨z, hz⟩ := hω tmp i ((hmem i).2 (by omega))
        exact ⟨z, fun _ => hz⟩
      · exact ⟨own, fun h => absurd h hi⟩
    choose b hb using hw
    set y : ℕ → List ℝ :=
      fun i => List.ofFn (if h : i = cores - 1 then (h ▸ Y₀ ω : Fin (cuts.getD i 0) → ℝ) else Y i ω) with hy
    set ys := (List.range cores).flatMap y with hys
    have hlen : ys.length = n := by
      rw [hys, List.length_flatMap, ← hs]
      congr 1
      refine List.ext_getElem (by simp [hl]) fun i h1 h2 => ?_
      simp only [hy, List.length_ofFn, List.getElem_map, List.getElem_range]
      rw [List.getD_eq_getElem?_getD, List.getElem?_eq_getElem h2]
      rfl
    have hreads : Reads ys.length (.arr (ys.map .flt)) ys.get := by
      refine ⟨⟨by omega, by simp⟩, ?_⟩
      rw [List.ofFn_get]
      exact forall₂_isReal_flt _
    obtain ⟨z, hz, -, hz2⟩ := applyClips_real E.powf hlo hhi (by omega) hreads
    obtain ⟨m', hm', -⟩ := sampleCores_of_batches_bounds E sched hc d (by omega : n ≠ 0) hcuts
      ⟨⟨ω, left⟩, tmp⟩ ho (fun i => if i = cores - 1 then own else b i) (by simp)
      (fun i hi => by
        have : i ≠ cores - 1 := by omega
        simp only [this, if_false]
        exact (hb i hi).1) y
      (fun i hi => by
        by_cases h : i = cores - 1
        · subst h
          simpa [hy] using hR.2
        · simp only [hy, h, if_false, dif_neg, not_false_eq_true]
          exact (hb i (by omega)).2.2) hz
    refine ⟨z, m', hm', ?_⟩
    have e : (List.ofFn fun i => clamp lo hi (ys.get i)) = ys.map (clamp lo hi) := by
      exact List.ext_getElem (by simp) fun i h1 h2 => by simp
    rw [e] at hz2
    have e2 : ((List.range cores).flatMap fun i => List.ofFn
        ((if h : i = cores - 1 then fun ω => h ▸ Y₀ ω else Y i : (ℕ → Ω) → Fin (cuts.getD i 0) → ℝ) ω)) = ys := by
      rw [hys]
      congr 1
      funext i
      by_cases h : i = cores - 1
      · subst h; simp [hy]
      · simp [hy, h]
    rw [e2]
    exact hz2

end

end Verif
