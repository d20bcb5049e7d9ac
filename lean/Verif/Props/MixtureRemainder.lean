import Verif.Lemmas.MixRemainder
import Verif.Lemmas.MixFailure
import Verif.Lemmas.BoundsLaw
import Verif.Model.MixtureObj
import Verif.Props.Denote

/-!
# C104: mixtures whose weights do not sum to exactly 1; C09: the law of `zero_inflated`

`mixture` accepts weights whose sum is off by up to 1%.
-/

namespace Verif

open MeasureTheory ProbabilityTheory Spec

/-- **C104**: with positive weights that are off by less than 1%, `sample(mixture(...), n)` returns exactly what
it returns when the last weight is replaced by what the others leave — for up to 100 samples, or if the weights
sum to at least 1. -/
theorem C104_last_takes_rest_partial {σ K : Type} [Field K] [LinearOrder K] [IsStrictOrderedRing K] [FloorRing K]
    {E : Env σ K} (hE : E.gen.Lawful) {k : ℕ} (ds : Fin k → Obj (St σ K) K) (init : List K) (w : K)
    (hk : init.length + 1 = k) (hpos : ∀ v ∈ init, 0 < v) (hw : 0 < w) (hinit : init.sum < 1)
    (hlo : 0.99 < init.sum + w) (hhi : init.sum + w < 1.01)
    {n : ℕ} (hn : n ≤ 100 ∨ 1 ≤ init.sum + w) (lc rc l r : Option (Scalar K)) (st : St σ K) :
    sampleObj E (.mix k ds (init ++ [w]) lc rc) n l r st
      = sampleObj E (.mix k ds (init ++ [1 - init.sum]) lc rc) n l r st := by
  have hs : ∀ v : K, (init ++ [v]).sum = init.sum + v := fun v => by simp
  have hrun := mixtureRun_last (comp := fun i m => withClips E (ds i).clips (rawObj E (ds i)) m none none)
    hE hpos hw (b := 1 - init.sum) (by linarith) (by rw [hs]; ring)
    (by rw [hs]; norm_num at hlo ⊢; exact hlo) (by rw [hs]; norm_num at hhi ⊢; exact hhi)
    (List.finRange k) (by simp [hk]) (n := n) (by rw [hs]; exact hn)
  have hraw : rawObj E (.mix k ds (init ++ [w]) lc rc) n = rawObj E (.mix k ds (init ++ [1 - init.sum]) lc rc) n := hrun
  unfold sampleObj withClips
  rw [hraw]
  rfl

section

variable {Ω : Type} [MeasurableSpace Ω] (S : IdealSource Ω) {E : Env (ℕ → Ω) ℝ} (hE : S.Drives E)
  (hU : S.primLaw (.uniform 0 1) = some (volume.restrict (Set.Ico 0 1)))

include hE hU

/-- **C104**: so its samples are independent, with the given chance of each component but the last, and the rest
for the last. -/
theorem C104_law_partial {k : ℕ} {ds : Fin k → Obj (St (ℕ → Ω) ℝ) ℝ} {ν : Fin k → Measure ℝ}
    (hd : ∀ i, Denotes S.primLaw (ds i) (ν i)) {init : List ℝ} {w : ℝ} (hk : init.length + 1 = k)
    (hpos : ∀ v ∈ init, 0 < v) (hw : 0 < w) (hinit : init.sum < 1)
    (hlo : 0.99 < init.sum + w) (hhi : init.sum + w < 1.01)
    {n : ℕ} (hn : 1 ≤ n) (hn' : n ≤ 100 ∨ 1 ≤ init.sum + w) (left : ℕ → ℕ → Option (List (Scalar ℝ))) :
    ∃ X : Fin n → (ℕ → Ω) → ℝ, (∀ i, Measurable (X i)) ∧
      (∀ᵐ ω ∂(Measure.infinitePi fun _ : ℕ => S.law), ∃ z s',
        sampleObj E (.mix k ds (init ++ [w]) none none) n none none ⟨ω, left⟩ = (.ok z, s') ∧
          Reads n z fun i => X i ω) ∧
      iIndepFun X (Measure.infinitePi fun _ : ℕ => S.law) ∧
      ∀ j B, MeasurableSet B → (Measure.infinitePi fun _ : ℕ => S.law) {ω | X j ω ∈ B}
        = ∑ i : Fin k, ENNReal.ofReal (if h : i.1 < init.length then init[i.1] else 1 - init.sum) * ν i B := by
  subst hk
  have hs : (init ++ [1 - init.sum]).sum = 1 := by simp
  have hm := Denotes.mix (L := S.primLaw) (ws := init ++ [1 - init.sum]) (lc := none) (rc := none)
    (lo := none) (hi := none) (by simp) hd (by
      intro v hv
      rcases List.mem_append.1 hv with h | h
      · exact hpos v h
      · rw [List.mem_singleton.1 h]; linarith) hs trivial trivial
  obtain ⟨-, X, hX, hae, hlaw, hind⟩ := C86_independent_samples S hE hU hm hn left
  refine ⟨X, hX, ?_, hind, fun j B hB => ?_⟩
  · refine hae.mono fun ω hω => ?_
    rw [C104_last_takes_rest_partial (by rw [hE.gen]; exact S.gen_lawful) ds init w rfl hpos hw hinit hlo hhi hn']
    exact hω
  · have e : clamp none none = id := rfl
    have : {ω | X j ω ∈ B} = X j ⁻¹' B := rfl
    rw [this, ← Measure.map_apply (hX j) hB, hlaw j, e, Measure.map_id]
    simp only [Measure.coe_finsetSum, Finset.sum_apply, Measure.smul_apply, smul_eq_mul]
    refine Finset.sum_congr rfl fun i _ => ?_
    congr 2
    by_cases h : i.1 < init.length
    · rw [dif_pos h, List.getElem_append_left h]
    · rw [dif_neg h, List.getElem_append_right (by omega)]
      simp

/-- **C104** fails for more than 100 samples of weights that sum to less than 1: two or more components with a
total weight of `t` raise `IndexError` with probability exactly `1 - t ^ n`, and otherwise succeed. -/
theorem C104_failure {k : ℕ} {ds : Fin k → Obj (St (ℕ → Ω) ℝ) ℝ} {ν : Fin k → Measure ℝ}
    (hd : ∀ i, Denotes S.primLaw (ds i) (ν i)) {ws : List ℝ} (hk : ws.length = k) (h2 : 2 ≤ k)
    (hpos : ∀ v ∈ ws, 0 < v) (hlo : 0.99 < ws.sum) (hhi : ws.sum < 1)
    {lc rc : Option (Scalar ℝ)} {lo hi : Option ℝ} (hlc : IsBound lc lo) (hrc : IsBound rc hi)
    {n : ℕ} (hn : 100 < n) (left : ℕ → ℕ → Option (List (Scalar ℝ))) :
    (∀ᵐ ω ∂(Measure.infinitePi fun _ : ℕ => S.law), ∃ r s',
      sampleObj E (.mix k ds ws lc rc) n none none ⟨ω, left⟩ = (r, s') ∧
        ((∃ z x, r = .ok z ∧ Reads n z x) ∨ r = .error .indexError)) ∧
    (Measure.infinitePi fun _ : ℕ => S.law)
      {ω | ∃ s', sampleObj E (.mix k ds ws lc rc) n none none ⟨ω, left⟩ = (.error .indexError, s')}
      = ENNReal.ofReal (1 - ws.sum ^ n) := by
  have hne : ws ≠ [] := by rintro rfl; simp at hk; omega
  have hp : ∀ i, IsProbabilityMeasure (ν i) := fun i => (denotes_draws S (left := left) hE hU (hd i)).1
  obtain ⟨U, hUm, hUlaw, hae⟩ := mixtureLarge_outcome S (left := left) hE.gen hU (ν := ν)
    (comp := fun i m => withClips E (ds i).clips (rawObj E (ds i)) m none none) (vals := List.finRange k)
    (List.length_finRange) hk hpos hne n (fun i => by
      have := (denotes_draws S (left := left) hE hU (hd i)).2 n (by omega)
      simpa using this)
  have hfr : List.finRange k ≠ [] := by
    intro h
    have := congrArg List.length h
    simp at this; omega
  have hproc : (processWeightsValues (fun _ => false) (.list (ws.map some)) .absent
      (.list ((List.finRange k).map .plain)) false).result = .ok (ws, (List.finRange k).map .plain) :=
    C07_reprocessing_is_identity ws (List.finRange k) (by simp [hk]) hfr hpos
      (by norm_num at hlo ⊢; exact hlo) (by linarith)
  have hitems : ((List.finRange k).map VItem.plain).filterMap (VItem.plain? (K := ℝ)) = List.finRange k := by
    rw [List.filterMap_map]
    exact List.filterMap_some
  have hraw : ∀ st, rawObj E (.mix k ds ws lc rc) n st = mixtureLarge E
      (fun i m => withClips E (ds i).clips (rawObj E (ds i)) m none none) ws (List.finRange k) n st := by
    intro st
    simp only [rawObj]
    unfold mixtureRun
    rw [hproc]
    simp only [hitems]
    have hl := List.length_finRange (n := k)
    split
    · rename_i h
      rw [h] at hl; simp at hl; omega
    · rw [if_pos hn]
  have hsample : ∀ st, sampleObj E (.mix k ds ws lc rc) n none none st
      = SM.bind (rawObj E (.mix k ds ws lc rc) n) (fun s => SM.lift (applyClips E.powf lc rc s)) st := by
    intro st
    unfold sampleObj withClips
    rw [if_neg (by omega)]
    rfl
  have hout : ∀ᵐ ω ∂(streamLaw S.law), ∃ s',
      ((∀ j, U ω j ≤ ws.sum) → ∃ z x,
        sampleObj E (.mix k ds ws lc rc) n none none ⟨ω, left⟩ = (.ok z, s') ∧ Reads n z x) ∧
      (¬ (∀ j, U ω j ≤ ws.sum) →
        sampleObj E (.mix k ds ws lc rc) n none none ⟨ω, left⟩ = (.error .indexError, s')) := by
    filter_upwards [hae] with ω hω
    obtain ⟨s', h1, h2⟩ := hω
    refine ⟨s', fun hall => ?_, fun hall => ?_⟩
    · obtain ⟨z, x, hz, hx⟩ := h1 hall
      obtain ⟨z', hz', hx'⟩ := applyClips_real E.powf hlc hrc (by omega) hx
      exact ⟨z', _, by rw [hsample]; simp only [SM.bind, hraw, hz, SM.lift, hz'], hx'⟩
    · rw [hsample]
      simp only [SM.bind, hraw, h2 hall]
  constructor
  · refine hout.mono fun ω hω => ?_
    obtain ⟨s', h1, h2⟩ := hω
    by_cases hall : ∀ j, U ω j ≤ ws.sum
    · obtain ⟨z, x, hz, hx⟩ := h1 hall
      exact ⟨_, _, hz, Or.inl ⟨z, x, rfl, hx⟩⟩
    · exact ⟨_, _, h2 hall, Or.inr rfl⟩
  · have hset : {ω | ∃ s', sampleObj E (.mix k ds ws lc rc) n none none ⟨ω, left⟩ = (.error .indexError, s')}
        =ᵐ[streamLaw S.law] U ⁻¹' (Set.univ.pi fun _ => Set.Iic ws.sum)ᶜ := by
      refine Filter.eventuallyEq_set.2 (hout.mono fun ω hω => ?_)
      obtain ⟨s', h1, h2⟩ := hω
      have hmem : ω ∈ U ⁻¹' (Set.univ.pi fun _ => Set.Iic ws.sum)ᶜ ↔ ¬ ∀ j, U ω j ≤ ws.sum := by
        rw [Set.mem_preimage, Set.mem_compl_iff, Set.mem_univ_pi]
        rfl
      rw [hmem]
      constructor
      · rintro ⟨s, hs⟩ hall
        obtain ⟨z, x, hz, -⟩ := h1 hall
        rw [hz] at hs
        cases hs
      · exact fun hall => ⟨s', h2 hall⟩
    have hms : MeasurableSet (Set.univ.pi fun _ : Fin n => Set.Iic ws.sum) :=
      MeasurableSet.univ_pi fun _ => measurableSet_Iic
    have hpos' : 0 ≤ ws.sum := by norm_num at hlo; linarith
    show streamLaw S.law _ = _
    rw [measure_congr hset, ← Measure.map_apply hUm hms.compl, hUlaw, measure_compl hms (measure_ne_top _ _),
      Measure.pi_pi]
    simp only [measure_univ, unitLaw_Iic hpos' hhi, Finset.prod_const, Finset.card_univ, Fintype.card_fin]
    rw [ENNReal.ofReal_sub _ (pow_nonneg hpos' n), ENNReal.ofReal_one, ENNReal.ofReal_pow hpos']

omit hE hU in
/-- What `zero_inflated(p, d)` stands for. -/
theorem denotes_zeroInflated {d : Obj (St (ℕ → Ω) ℝ) ℝ} {μ : Measure ℝ} (hd : Denotes S.primLaw d μ) {p : ℝ}
    (h0 : 0 ≤ p) (h1 : p ≤ 1) :
    ∃ z ρ, zeroInflatedObj (.num p) d = .ok z ∧ Denotes S.primLaw z ρ ∧
      ∀ B, MeasurableSet B → ρ B = ENNReal.ofReal p * B.indicator 1 0 + ENNReal.ofReal (1 - p) * μ B := by
  have hzero : Denotes (S := St (ℕ → Ω) ℝ) S.primLaw (.lit (.int 0)) (Measure.dirac 0) :=
    Denotes.lit (Or.inr ⟨0, rfl, by simp⟩)
  have hone : ∀ x : Obj (St (ℕ → Ω) ℝ) ℝ, mixtureInit (K := ℝ) (.list [some 1]) .absent (.list [.plain x]) =
      .ok ([1], [.plain x]) := by
    intro x
    have := C07_reprocessing_is_identity (K := ℝ) [1] [x] rfl (by simp) (by simp) (by norm_num)
      (by norm_num)
    simpa using this
  have e : clamp none none = id := rfl
  have hsingle : ∀ (x : Obj (St (ℕ → Ω) ℝ) ℝ) (ρ : Measure ℝ), Denotes S.primLaw x ρ →
      Denotes S.primLaw (mixtureObj ([1], [.plain x])) ρ := by
    intro x ρ hx
    have := Denotes.mix (L := S.primLaw) (k := 1) (ds := fun i : Fin 1 => [x][i]) (ν := fun _ => ρ)
      (ws := [1]) (lc := none) (rc := none) (lo := none) (hi := none) rfl
      (fun i => by fin_cases i; exact hx) (by simp) (by simp) trivial trivial
    rw [e, Measure.map_id] at this
    refine (congrArg (Denotes S.primLaw (mixtureObj ([1], [.plain x]))) ?_).mp this
    simp
  by_cases hp1 : p = 1
  · refine ⟨_, _, by simp only [zeroInflatedObj, zeroInflated, hp1, hone]; norm_num; rfl, hsingle _ _ hzero,
      fun B hB => ?_⟩
    rw [hp1]
    simp [Measure.dirac_apply' _ hB]
  by_cases hp0 : p = 0
  · refine ⟨_, _, by simp only [zeroInflatedObj, zeroInflated, hp0, hone]; norm_num; rfl, hsingle _ _ hd,
      fun B hB => ?_⟩
    rw [hp0]
    simp
  have hlt : p < 1 := lt_of_le_of_ne h1 hp1
  have hpos : 0 < p := lt_of_le_of_ne h0 (Ne.symm hp0)
  have hm := Denotes.mix (L := S.primLaw) (k := 2) (ds := fun i : Fin 2 => [.lit (.int 0), d][i])
    (ν := fun i => if i.1 = 0 then Measure.dirac 0 else μ) (ws := [p, 1 - p]) (lc := none) (rc := none)
    (lo := none) (hi := none) rfl (fun i => by
      fin_cases i
      · exact hzero
      · exact hd) (by simpa using ⟨hpos, hlt⟩) (by simp) trivial trivial
  refine ⟨mixtureObj ([p, 1 - p], [.plain (.lit (.int 0)), .plain d]), _, ?_, hm, fun B hB => ?_⟩
  · unfold zeroInflatedObj zeroInflated mixtureInit
    simp only [h0, h1, and_self, not_true, if_false, hp1, hp0]
    rw [C03_single_number (fun _ => false) p _ d h0 hlt, if_neg hp0]
    rfl
  · rw [e, Measure.map_id]
    simp [Fin.sum_univ_two, Measure.dirac_apply' _ hB]

/-- **C09**: `zero_inflated(p, d)` is accepted for `p` in `[0, 1]`; its samples are independent, and each lies in
`B` with probability `p` (if 0 is in `B`) plus `1 - p` times the chance that a sample of `d` does. -/
theorem C09_law {d : Obj (St (ℕ → Ω) ℝ) ℝ} {μ : Measure ℝ} (hd : Denotes S.primLaw d μ) {p : ℝ}
    (h0 : 0 ≤ p) (h1 : p ≤ 1) {n : ℕ} (hn : 1 ≤ n) (left : ℕ → ℕ → Option (List (Scalar ℝ))) :
    ∃ z, zeroInflatedObj (.num p) d = .ok z ∧
    ∃ X : Fin n → (ℕ → Ω) → ℝ, (∀ i, Measurable (X i)) ∧
      (∀ᵐ ω ∂(Measure.infinitePi fun _ : ℕ => S.law), ∃ y s',
        sampleObj E z n none none ⟨ω, left⟩ = (.ok y, s') ∧ Reads n y fun i => X i ω) ∧
      iIndepFun X (Measure.infinitePi fun _ : ℕ => S.law) ∧
      ∀ j B, MeasurableSet B → (Measure.infinitePi fun _ : ℕ => S.law) {ω | X j ω ∈ B}
        = ENNReal.ofReal p * B.indicator 1 0 + ENNReal.ofReal (1 - p) * μ B := by
  obtain ⟨z, ρ, hz, hρ, hB⟩ := denotes_zeroInflated S hd h0 h1
  obtain ⟨-, X, hX, hae, hlaw, hind⟩ := C86_independent_samples S hE hU hρ hn left
  refine ⟨z, hz, X, hX, hae, hind, fun j B hm => ?_⟩
  have : {ω | X j ω ∈ B} = X j ⁻¹' B := rfl
  rw [this, ← Measure.map_apply (hX j) hm, hlaw j, hB B hm]

end

/-- `sample(mixture([norm(0, 1), norm(1, 1), norm(2, 1)], weights=[0.333, 0.333, 0.333]), 100)`: the third
component gets the weight 0.334. -/
example (st : St (ℕ → ℝ × ℝ) ℝ) :
    sampleObj idealEnv (.mix 3 (fun i => .leaf (.normal i.1 1) none none) [0.333, 0.333, 0.333] none none)
        100 none none st
      = sampleObj idealEnv (.mix 3 (fun i => .leaf (.normal i.1 1) none none) [0.333, 0.333, 0.334] none none)
        100 none none st := by
  have h := C104_last_takes_rest_partial (E := idealEnv) (by rw [idealEnv_driven.gen]; exact demoSource.gen_lawful)
    (fun i : Fin 3 => .leaf (.normal i.1 1) none none) [0.333, 0.333] 0.333 rfl (by norm_num) (by norm_num)
    (by norm_num) (by norm_num) (by norm_num) (n := 100) (Or.inl le_rfl) none none none none st
  norm_num at h ⊢
  exact h

/-- The same mixture sampled 1000 times raises `IndexError` more often than not. -/
example : 1 / 2 < (Measure.infinitePi fun _ : ℕ => demoSource.law)
    {ω | ∃ s', sampleObj idealEnv
      (.mix 3 (fun i => .leaf (.normal i.1 1) none none) [0.333, 0.333, 0.333] none none)
      1000 none none ⟨ω, fun _ _ => none⟩ = (.error .indexError, s')} := by
  have hd : ∀ i : Fin 3, Denotes demoSource.primLaw
      (.leaf (.normal i.1 1) none none : Obj (St (ℕ → ℝ × ℝ) ℝ) ℝ) _ := fun i =>
    denotes_normal (demoSource_normal i.1 (s := 1) (by norm_num))
  rw [(C104_failure demoSource (E := idealEnv) idealEnv_driven demoSource_uniform hd
    (ws := [0.333, 0.333, 0.333]) rfl (by norm_num) (by norm_num) (by norm_num) (by norm_num)
    (lc := none) (rc := none) (lo := none) (hi := none) trivial trivial (n := 1000) (by norm_num) fun _ _ => none).2]
  have : (1 / 2 : ENNReal) = ENNReal.ofReal (1 / 2) := by
    rw [ENNReal.ofReal_div_of_pos (by norm_num)]
    simp
  rw [this, ENNReal.ofReal_lt_ofReal_iff_of_nonneg (by norm_num)]
  have h1 : ((999 : ℝ) / 1000) ^ 250 ≤ 4 / 5 := by norm_num
  have h2 : (((999 : ℝ) / 1000) ^ 250) ^ 4 ≤ (4 / 5) ^ 4 := pow_le_pow_left₀ (by positivity) h1 4
  rw [← pow_mul] at h2
  norm_num at h2 ⊢
  generalize ((999 : ℝ) / 1000) ^ 1000 = y at h2 ⊢
  linarith

/-- `zero_inflated(0.3, norm(mean=0, sd=1))`: the value 0 comes up with probability 0.3. -/
example : ∃ z, zeroInflatedObj (.num (0.3 : ℝ)) (.leaf (.normal 0 1) none none) = .ok z ∧
    ∃ X : Fin 10 → (ℕ → ℝ × ℝ) → ℝ,
      (∀ᵐ ω ∂(Measure.infinitePi fun _ : ℕ => demoSource.law), ∃ y s',
        sampleObj idealEnv z 10 none none ⟨ω, fun _ _ => none⟩ = (.ok y, s') ∧ Reads 10 y fun i => X i ω) ∧
      ∀ j, (Measure.infinitePi fun _ : ℕ => demoSource.law) {ω | X j ω ∈ ({0} : Set ℝ)} = ENNReal.ofReal 0.3 := by
  obtain ⟨z, hz, X, -, hae, -, h⟩ := C09_law demoSource (E := idealEnv) idealEnv_driven demoSource_uniform
    (denotes_normal (demoSource_normal 0 (s := 1) (by norm_num))) (p := 0.3) (by norm_num) (by norm_num)
    (n := 10) (by norm_num) fun _ _ => none
  refine ⟨z, hz, X, hae, fun j => ?_⟩
  have hz : normalLaw 0 1 {0} = 0 := by
    have : NullSingletonClass (normalLaw 0 1) := nullSingletonClass_gaussianReal (by simp)
    exact measure_singleton 0
  rw [h j _ (measurableSet_singleton 0), hz]
  simp

end Verif
