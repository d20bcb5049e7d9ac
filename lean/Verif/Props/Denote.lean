import Verif.Lemmas.DenoteInduct
import Verif.Lemmas.DemoSource
import Verif.Lemmas.DemoGen
import Verif.Props.ExplodingDice
import Verif.Props.Params
import Verif.Lemmas.Frequency
import Mathlib.Probability.Moments.Variance

/-!
# C86–C88: samples are independent draws from the law the distribution stands for

The generator is an ideal source of randomness (`Model/IdealSource.lean`).  `Denotes` (`Spec/Denote.lean`)
says which law a distribution stands for.
-/

namespace Verif

open MeasureTheory ProbabilityTheory Spec

section

variable {Ω : Type} [MeasurableSpace Ω] (S : IdealSource Ω) {E : Env (ℕ → Ω) ℝ} (hE : S.Drives E)
  (hU : S.primLaw (.uniform 0 1) = some (volume.restrict (Set.Ico 0 1)))

include hE hU

/-- **C86**: `sample(d, n)` almost surely succeeds; its `n` numbers `X 0, …, X (n-1)` are independent and each
has the law `d` stands for. -/
theorem C86_independent_samples {d : Obj (St (ℕ → Ω) ℝ) ℝ} {μ : Measure ℝ} (hd : Denotes S.primLaw d μ)
    {n : ℕ} (hn : 1 ≤ n) (left : ℕ → ℕ → Option (List (Scalar ℝ))) :
    IsProbabilityMeasure μ ∧ ∃ X : Fin n → (ℕ → Ω) → ℝ, (∀ i, Measurable (X i)) ∧
      (∀ᵐ ω ∂(Measure.infinitePi fun _ : ℕ => S.law), ∃ z s',
        sampleObj E d n none none ⟨ω, left⟩ = (.ok z, s') ∧ Reads n z fun i => X i ω) ∧
      (∀ i, (Measure.infinitePi fun _ : ℕ => S.law).map (X i) = μ) ∧
      iIndepFun X (Measure.infinitePi fun _ : ℕ => S.law) := by
  obtain ⟨hp, h⟩ := denotes_draws S (left := left) hE hU hd
  obtain ⟨F, hF, hmap, hae⟩ := h n hn
  have hX : (streamLaw S.law).map (fun ω => (F ω).1) = Measure.pi fun _ : Fin n => μ := by
    have : (fun ω => (F ω).1) = Prod.fst ∘ F := rfl
    rw [this, ← Measure.map_map measurable_fst hF, hmap, Measure.map_fst_prod]
    simp
  have hXi : ∀ i, (streamLaw S.law).map (fun ω => (F ω).1 i) = μ := by
    intro i
    have : (fun ω => (F ω).1 i) = (fun x : Fin n → ℝ => x i) ∘ fun ω => (F ω).1 := rfl
    rw [this, ← Measure.map_map (measurable_pi_apply i) (by fun_prop), hX, pi_map_eval]
  refine ⟨hp, fun i ω => (F ω).1 i, fun i => by fun_prop, ?_, hXi, ?_⟩
  · filter_upwards [hae] with ω hω
    obtain ⟨a, ha, hR⟩ := hω
    exact ⟨a, _, ha, hR⟩
  · refine (iIndepFun_iff_map_fun_eq_pi_map fun i => by fun_prop).2 ?_
    show (streamLaw S.law).map (fun ω => (F ω).1) = Measure.pi fun i =>
      (streamLaw S.law).map fun ω => (F ω).1 i
    simp_rw [hXi]
    exact hX

/-- **C86**: what the call leaves of the random stream is again a stream of independent inputs, independent of
the samples returned. -/
theorem C86_stream_left {d : Obj (St (ℕ → Ω) ℝ) ℝ} {μ : Measure ℝ} (hd : Denotes S.primLaw d μ)
    {n : ℕ} (hn : 1 ≤ n) (left : ℕ → ℕ → Option (List (Scalar ℝ))) :
    ∃ (X : (ℕ → Ω) → Fin n → ℝ) (next : (ℕ → Ω) → ℕ → Ω), Measurable X ∧ Measurable next ∧
      (∀ᵐ ω ∂(Measure.infinitePi fun _ : ℕ => S.law), ∃ z,
        sampleObj E d n none none ⟨ω, left⟩ = (.ok z, ⟨next ω, left⟩) ∧ Reads n z (X ω)) ∧
      (Measure.infinitePi fun _ : ℕ => S.law).map next = Measure.infinitePi (fun _ : ℕ => S.law) ∧
      IndepFun X next (Measure.infinitePi fun _ : ℕ => S.law) := by
  obtain ⟨hp, h⟩ := denotes_draws S (left := left) hE hU hd
  obtain ⟨F, hF, hmap, hae⟩ := h n hn
  have hX : (streamLaw S.law).map (fun ω => (F ω).1) = Measure.pi fun _ : Fin n => μ := by
    have : (fun ω => (F ω).1) = Prod.fst ∘ F := rfl
    rw [this, ← Measure.map_map measurable_fst hF, hmap, Measure.map_fst_prod]
    simp
  have hY : (streamLaw S.law).map (fun ω => (F ω).2) = streamLaw S.law := by
    have : (fun ω => (F ω).2) = Prod.snd ∘ F := rfl
    rw [this, ← Measure.map_map measurable_snd hF, hmap, Measure.map_snd_prod]
    simp
  refine ⟨fun ω => (F ω).1, fun ω => (F ω).2, by fun_prop, by fun_prop, ?_, hY, ?_⟩
  · exact hae
  · refine (indepFun_iff_map_prod_eq_prod_map_map (by fun_prop) (by fun_prop)).2 ?_
    show (streamLaw S.law).map (fun ω => ((F ω).1, (F ω).2))
      = ((streamLaw S.law).map fun ω => (F ω).1).prod ((streamLaw S.law).map fun ω => (F ω).2)
    rw [hX, hY]
    exact hmap

/-- **C86**: the samples of two calls in a row, of the same or of different distributions, are independent. -/
theorem C86_two_calls {d d' : Obj (St (ℕ → Ω) ℝ) ℝ} {μ μ' : Measure ℝ} (hd : Denotes S.primLaw d μ)
    (hd' : Denotes S.primLaw d' μ') {n n' : ℕ} (hn : 1 ≤ n) (hn' : 1 ≤ n')
    (left : ℕ → ℕ → Option (List (Scalar ℝ))) :
    ∃ (X : (ℕ → Ω) → Fin n → ℝ) (X' : (ℕ → Ω) → Fin n' → ℝ), Measurable X ∧ Measurable X' ∧
      (∀ᵐ ω ∂(Measure.infinitePi fun _ : ℕ => S.law), ∃ z s' z' s'',
        sampleObj E d n none none ⟨ω, left⟩ = (.ok z, s') ∧ Reads n z (X ω) ∧
        sampleObj E d' n' none none s' = (.ok z', s'') ∧ Reads n' z' (X' ω)) ∧
      (Measure.infinitePi fun _ : ℕ => S.law).map X = Measure.pi (fun _ => μ) ∧
      (Measure.infinitePi fun _ : ℕ => S.law).map X' = Measure.pi (fun _ => μ') ∧
      IndepFun X X' (Measure.infinitePi fun _ : ℕ => S.law) := by
  obtain ⟨hp, h⟩ := denotes_draws S (left := left) hE hU hd
  obtain ⟨hp', h'⟩ := denotes_draws S (left := left) hE hU hd'
  obtain ⟨F, hF, hmap, hae⟩ := h n hn
  obtain ⟨F', hF', hmap', hae'⟩ := h' n' hn'
  have hY : (streamLaw S.law).map (fun ω => (F ω).2) = streamLaw S.law := by
    have : (fun ω => (F ω).2) = Prod.snd ∘ F := rfl
    rw [this, ← Measure.map_map measurable_snd hF, hmap, Measure.map_snd_prod]
    simp
  have hX : (streamLaw S.law).map (fun ω => (F ω).1) = Measure.pi fun _ : Fin n => μ := by
    have : (fun ω => (F ω).1) = Prod.fst ∘ F := rfl
    rw [this, ← Measure.map_map measurable_fst hF, hmap, Measure.map_fst_prod]
    simp
  have hX0 : (streamLaw S.law).map (fun ω => (F' ω).1) = Measure.pi fun _ : Fin n' => μ' := by
    have : (fun ω => (F' ω).1) = Prod.fst ∘ F' := rfl
    rw [this, ← Measure.map_map measurable_fst hF', hmap', Measure.map_fst_prod]
    simp
  have hX' : (streamLaw S.law).map (fun ω => (F' (F ω).2).1) = Measure.pi fun _ : Fin n' => μ' := by
    have : (fun ω => (F' (F ω).2).1) = (fun ω => (F' ω).1) ∘ fun ω => (F ω).2 := rfl
    rw [this, ← Measure.map_map (by fun_prop) (by fun_prop), hY, hX0]
  refine ⟨fun ω => (F ω).1, fun ω => (F' (F ω).2).1, by fun_prop, by fun_prop, ?_, hX, hX', ?_⟩
  · have hq : Measure.QuasiMeasurePreserving (fun ω => (F ω).2) (streamLaw S.law) (streamLaw S.law) :=
      ⟨by fun_prop, by rw [hY]⟩
    filter_upwards [hae, hq.ae hae'] with ω h1 h2
    obtain ⟨a, ha, hR⟩ := h1
    obtain ⟨a', ha', hR'⟩ := h2
    exact ⟨a, _, a', _, ha, hR, ha', hR'⟩
  · refine (indepFun_iff_map_prod_eq_prod_map_map (by fun_prop) (by fun_prop)).2 ?_
    show (streamLaw S.law).map (fun ω => ((F ω).1, (F' (F ω).2).1))
      = ((streamLaw S.law).map fun ω => (F ω).1).prod ((streamLaw S.law).map fun ω => (F' (F ω).2).1)
    rw [hX, hX']
    have : (fun ω => ((F ω).1, (F' (F ω).2).1)) = Prod.map id (fun ω => (F' ω).1) ∘ F := rfl
    rw [this, ← Measure.map_map (by fun_prop) hF, hmap,
      ← Measure.map_prod_map _ _ measurable_id (by fun_prop), Measure.map_id, hX0]

/-- **C87**: the mean of `n` samples is within `ε` of the mean of the law, except with probability at most
`variance / (n ε²)`. -/
theorem C87_mean {d : Obj (St (ℕ → Ω) ℝ) ℝ} {μ : Measure ℝ} (hd : Denotes S.primLaw d μ)
    (hμ : MemLp id 2 μ) {n : ℕ} (hn : 1 ≤ n) (left : ℕ → ℕ → Option (List (Scalar ℝ))) {ε : ℝ}
    (hε : 0 < ε) :
    (Measure.infinitePi fun _ : ℕ => S.law)
      {ω | ¬ ∃ z s' xs, sampleObj E d n none none ⟨ω, left⟩ = (.ok z, s') ∧
        List.Forall₂ IsReal z.toList xs ∧ |xs.sum / n - ∫ x, x ∂μ| < ε}
      ≤ ENNReal.ofReal (Var[id; μ] / (n * ε ^ 2)) := by
  obtain ⟨hp, X, hX, hae, hlaw, hind⟩ := C86_independent_samples S hE hU hd hn left
  set P := Measure.infinitePi fun _ : ℕ => S.law with hP
  have hn0 : (0 : ℝ) < n := by exact_mod_cast hn
  have hmem : ∀ i, MemLp (X i) 2 P := fun i => by
    have := (memLp_map_measure_iff (μ := P) (f := X i) (g := id) (p := 2)
      (by rw [hlaw]; exact hμ.1) (hX i).aemeasurable).1 (by rw [hlaw]; exact hμ)
    exact this
  have hvar : Var[∑ i, X i; P] = n * Var[id; μ] := by
    rw [IndepFun.variance_sum (fun i _ => hmem i) fun i _ j _ hij => hind.indepFun hij]
    have : ∀ i, Var[X i; P] = Var[id; μ] := fun i => by
      rw [← variance_id_map (hX i).aemeasurable, hlaw]
    simp [this]
  have hmean : P[∑ i, X i] = n * ∫ x, x ∂μ := by
    have h1 : P[∑ i, X i] = ∑ i, ∫ ω, X i ω ∂P := by
      rw [← integral_finsetSum _ fun i _ => (hmem i).integrable (by norm_num)]
      simp
    have h2 : ∀ i, ∫ ω, X i ω ∂P = ∫ x, x ∂μ := fun i => by
      rw [← hlaw i, integral_map (hX i).aemeasurable (by fun_prop)]
    rw [h1]
    simp [h2]
  have hcheb := meas_ge_le_variance_div_sq (μ := P) (X := ∑ i, X i)
    (memLp_finsetSum' _ fun i _ => hmem i) (c := n * ε) (by positivity)
  rw [hvar, hmean] at hcheb
  have e : (n * Var[id; μ] : ℝ) / (n * ε) ^ 2 = Var[id; μ] / (n * ε ^ 2) := by
    field_simp
  rw [e] at hcheb
  refine le_trans (measure_mono_ae ?_) hcheb
  filter_upwards [hae] with ω hω hbad
  obtain ⟨z, s', hz, hR⟩ := hω
  by_contra hlt
  refine hbad ⟨z, s', _, hz, hR.2, ?_⟩
  have hlt' : |∑ i, X i ω - n * ∫ x, x ∂μ| < n * ε := by
    have : ¬ (n * ε ≤ |(∑ i, X i) ω - n * ∫ x, x ∂μ|) := hlt
    simpa using this
  rw [List.sum_ofFn]
  have e2 : (∑ i, X i ω) / n - ∫ x, x ∂μ = (∑ i, X i ω - n * ∫ x, x ∂μ) / n := by
    field_simp
  rw [e2, abs_div, abs_of_pos hn0, div_lt_iff₀ hn0]
  linarith

/-- **C87**: the fraction of the `n` samples that satisfy a condition `q` is within `ε` of the probability of
`q` under the law, except with probability at most `2 exp(-2 n ε²)`. -/
theorem C87_frequency {d : Obj (St (ℕ → Ω) ℝ) ℝ} {μ : Measure ℝ} (hd : Denotes S.primLaw d μ)
    (q : ℝ → Bool) (hA : MeasurableSet {x | q x = true}) {n : ℕ} (hn : 1 ≤ n)
    (left : ℕ → ℕ → Option (List (Scalar ℝ))) {ε : ℝ} (hε : 0 < ε) :
    (Measure.infinitePi fun _ : ℕ => S.law).real
      {ω | ¬ ∃ z s' xs, sampleObj E d n none none ⟨ω, left⟩ = (.ok z, s') ∧
        List.Forall₂ IsReal z.toList xs ∧
        |((xs.countP q : ℕ) : ℝ) / n - μ.real {x | q x = true}| < ε}
      ≤ 2 * Real.exp (-2 * n * ε ^ 2) := by
  obtain ⟨hp, X, hX, hae, hlaw, hind⟩ := C86_independent_samples S hE hU hd hn left
  have hb := frequency_bound hn hX hlaw hind q hA hε
  refine le_trans (ENNReal.toReal_mono (measure_ne_top _ _) (measure_mono_ae ?_)) hb
  filter_upwards [hae] with ω hω hbad
  obtain ⟨z, s', hz, hR⟩ := hω
  by_contra hlt
  exact hbad ⟨z, s', _, hz, hR.2, not_le.1 hlt⟩

end

/-! ## C88 -/

instance (m s : ℝ) : IsProbabilityMeasure (normalLaw m s) := by
  unfold normalLaw; infer_instance

theorem denotes_normal {T : Type} {L : Prim ℝ → Option (Measure ℝ)} {m s : ℝ}
    (hN : L (.normal m s) = some (normalLaw m s)) :
    Denotes L (.leaf (.normal m s) none none : Obj T ℝ) (normalLaw m s) := by
  have := Denotes.leaf (S := T) (L := L) (l := .normal m s) (μ := normalLaw m s) (lc := none) (rc := none)
    (lo := none) (hi := none) hN trivial trivial
  have e : clamp none none = id := rfl
  rwa [e, Measure.map_id] at this

theorem denotes_lognormal {T : Type} {L : Prim ℝ → Option (Measure ℝ)} {m s : ℝ}
    (hN : L (.lognormal m s) = some (lognormalLaw m s)) :
    Denotes L (.leaf (.lognormal m s) none none : Obj T ℝ) (lognormalLaw m s) := by
  have := Denotes.leaf (S := T) (L := L) (l := .lognormal m s) (μ := lognormalLaw m s) (lc := none)
    (rc := none) (lo := none) (hi := none) hN trivial trivial
  have e : clamp none none = id := rfl
  rwa [e, Measure.map_id] at this

section

variable {Ω : Type} [MeasurableSpace Ω] (S : IdealSource Ω) {E : Env (ℕ → Ω) ℝ} (hE : S.Drives E)
  (hU : S.primLaw (.uniform 0 1) = some (volume.restrict (Set.Ico 0 1)))

include hE hU

/-- **C88**: `sample(norm(x, y, credibility), n)`: the fraction of the samples in `[x, y]` is within `ε` of the
credibility, except with probability at most `2 exp(-2 n ε²)`. -/
theorem C88_norm_frequency (hN : ∀ m s, 0 < s → S.primLaw (.normal m s) = some (normalLaw m s))
    {ppf : ℝ → ℝ} (hp : IsPpf ppf) {x y cred : ℝ} (hxy : x < y) (h0 : 0 < cred) (h1 : cred < 100) :
    ∃ m s, normalInit ppf (some x) (some y) none none cred = .ok ⟨some m, some s⟩ ∧
      ∀ n, 1 ≤ n → ∀ left (ε : ℝ), 0 < ε → (Measure.infinitePi fun _ : ℕ => S.law).real
        {ω | ¬ ∃ z s' xs, sampleObj E (.leaf (.normal m s) none none) n none none ⟨ω, left⟩ = (.ok z, s') ∧
          List.Forall₂ IsReal z.toList xs ∧
          |((xs.countP fun v => x ≤ v ∧ v ≤ y : ℕ) : ℝ) / n - cred / 100| < ε}
        ≤ 2 * Real.exp (-2 * n * ε ^ 2) := by
  obtain ⟨m, s, h, -, hs, hc⟩ := C38_norm_interval hp hxy h0 h1
  refine ⟨m, s, h, fun n hn left ε hε => ?_⟩
  have hA : {v | decide (x ≤ v ∧ v ≤ y) = true} = Set.Icc x y := by ext v; simp
  have hf := C87_frequency S hE hU (denotes_normal (T := St (ℕ → Ω) ℝ) (hN m s hs))
    (fun v => decide (x ≤ v ∧ v ≤ y)) (by rw [hA]; exact measurableSet_Icc) hn left hε
  have e : (normalLaw m s).real (Set.Icc x y) = cred / 100 := by
    rw [Measure.real, hc.inside, ENNReal.toReal_ofReal (by positivity)]
  rw [hA, e] at hf
  exact hf

/-- **C88**: the same for `lognorm(x, y, credibility)`. -/
theorem C88_lognorm_frequency
    (hN : ∀ m s, 0 < s → S.primLaw (.lognormal m s) = some (lognormalLaw m s))
    {ppf : ℝ → ℝ} (hp : IsPpf ppf) {x y cred : ℝ} (hx : 0 < x) (hxy : x < y) (h0 : 0 < cred)
    (h1 : cred < 100) :
    ∃ f m s, lognormInit ppf { x := some x, y := some y, cred := cred } = .ok f ∧
      f.normMean = some m ∧ f.normSd = some s ∧
      ∀ n, 1 ≤ n → ∀ left (ε : ℝ), 0 < ε → (Measure.infinitePi fun _ : ℕ => S.law).real
        {ω | ¬ ∃ z s' xs,
          sampleObj E (.leaf (.lognormal m s) none none) n none none ⟨ω, left⟩ = (.ok z, s') ∧
          List.Forall₂ IsReal z.toList xs ∧
          |((xs.countP fun v => x ≤ v ∧ v ≤ y : ℕ) : ℝ) / n - cred / 100| < ε}
        ≤ 2 * Real.exp (-2 * n * ε ^ 2) := by
  obtain ⟨f, m, s, h, hm, hsd, hs, hc⟩ := C39_lognorm_interval hp hx hxy h0 h1
  refine ⟨f, m, s, h, hm, hsd, fun n hn left ε hε => ?_⟩
  have hA : {v | decide (x ≤ v ∧ v ≤ y) = true} = Set.Icc x y := by ext v; simp
  have hf := C87_frequency S hE hU (denotes_lognormal (T := St (ℕ → Ω) ℝ) (hN m s hs))
    (fun v => decide (x ≤ v ∧ v ≤ y)) (by rw [hA]; exact measurableSet_Icc) hn left hε
  have e : (lognormalLaw m s).real (Set.Icc x y) = cred / 100 := by
    rw [Measure.real, hc.inside, ENNReal.toReal_ofReal (by positivity)]
  rw [hA, e] at hf
  exact hf

/-- **C88**: the samples of `norm(mean=a, sd=s) + norm(mean=b, sd=t)` are independent normal numbers with mean
`a + b` and standard deviation `√(s² + t²)`. -/
theorem C88_norm_sum {a b s t : ℝ} (h1 : S.primLaw (.normal a s) = some (normalLaw a s))
    (h2 : S.primLaw (.normal b t) = some (normalLaw b t)) {n : ℕ} (hn : 1 ≤ n)
    (left : ℕ → ℕ → Option (List (Scalar ℝ))) :
    ∃ X : Fin n → (ℕ → Ω) → ℝ, (∀ i, Measurable (X i)) ∧
      (∀ᵐ ω ∂(Measure.infinitePi fun _ : ℕ => S.law), ∃ z s',
        sampleObj E (.bin (.op .add) (.leaf (.normal a s) none none) (.leaf (.normal b t) none none)) n
          none none ⟨ω, left⟩ = (.ok z, s') ∧ Reads n z fun i => X i ω) ∧
      (∀ i, (Measure.infinitePi fun _ : ℕ => S.law).map (X i)
        = normalLaw (a + b) (Real.sqrt (s ^ 2 + t ^ 2))) ∧
      iIndepFun X (Measure.infinitePi fun _ : ℕ => S.law) := by
  have hd := Denotes.bin (S := St (ℕ → Ω) ℝ) (o := .add) rfl (denotes_normal h1) (denotes_normal h2)
    (.of_forall fun _ => trivial)
  have e : (((normalLaw a s).prod (normalLaw b t)).map fun p : ℝ × ℝ => p.1 + p.2)
      = normalLaw (a + b) (Real.sqrt (s ^ 2 + t ^ 2)) := by
    have := gaussianReal_conv_gaussianReal (m₁ := a) (m₂ := b) (v₁ := .mk (s ^ 2) (sq_nonneg s))
      (v₂ := .mk (t ^ 2) (sq_nonneg t))
    rw [Measure.conv] at this
    rw [normalLaw, normalLaw, this, normalLaw]
    congr 1
    ext
    simp [Real.sq_sqrt (by positivity : (0 : ℝ) ≤ s ^ 2 + t ^ 2)]
  rw [e] at hd
  exact (C86_independent_samples S hE hU hd hn left).2

/-- **C88**: for one object `x = norm(mean=a, sd=s)`, the samples of `x - x` are not zero: both occurrences
are sampled, and the samples are independent normal numbers with mean 0 and standard deviation `√2 s`. -/
theorem C88_norm_self_difference {a s : ℝ} (h1 : S.primLaw (.normal a s) = some (normalLaw a s)) {n : ℕ}
    (hn : 1 ≤ n) (left : ℕ → ℕ → Option (List (Scalar ℝ))) :
    ∃ X : Fin n → (ℕ → Ω) → ℝ, (∀ i, Measurable (X i)) ∧
      (∀ᵐ ω ∂(Measure.infinitePi fun _ : ℕ => S.law), ∃ z s',
        (fun x => sampleObj E (.bin (.op .sub) x x) n none none ⟨ω, left⟩)
          (.leaf (.normal a s) none none) = (.ok z, s') ∧ Reads n z fun i => X i ω) ∧
      (∀ i, (Measure.infinitePi fun _ : ℕ => S.law).map (X i) = normalLaw 0 (Real.sqrt 2 * s)) ∧
      iIndepFun X (Measure.infinitePi fun _ : ℕ => S.law) := by
  have hd := Denotes.bin (S := St (ℕ → Ω) ℝ) (o := .sub) rfl (denotes_normal h1) (denotes_normal h1)
    (.of_forall fun _ => trivial)
  have e : (((normalLaw a s).prod (normalLaw a s)).map fun p : ℝ × ℝ => p.1 - p.2)
      = normalLaw 0 (Real.sqrt 2 * s) := by
    have h3 : (fun p : ℝ × ℝ => p.1 - p.2) = (fun p : ℝ × ℝ => p.1 + p.2) ∘ Prod.map id Neg.neg := by
      ext p; simp [sub_eq_add_neg]
    rw [h3, ← Measure.map_map (by fun_prop) (by fun_prop),
      ← Measure.map_prod_map _ _ measurable_id measurable_neg, Measure.map_id]
    have := gaussianReal_conv_gaussianReal (m₁ := a) (m₂ := -a) (v₁ := .mk (s ^ 2) (sq_nonneg s))
      (v₂ := .mk (s ^ 2) (sq_nonneg s))
    rw [Measure.conv] at this
    rw [normalLaw]
    have hneg : (gaussianReal a (.mk (s ^ 2) (sq_nonneg s))).map Neg.neg
        = gaussianReal (-a) (.mk (s ^ 2) (sq_nonneg s)) := gaussianReal_map_neg
    rw [hneg, this, normalLaw]
    congr 1
    · ring
    · ext
      simp [mul_pow]
      ring
  rw [e] at hd
  exact (C86_independent_samples S hE hU hd hn left).2

end

/-! ## Examples -/

/-- An environment whose generator is the example source. -/
noncomputable def idealEnv : Env (ℕ → ℝ × ℝ) ℝ := Env.patient {
  gen := demoSource.gen
  exp := Real.exp
  log := Real.log
  powf := fun x y => some (x ^ y)
  ppf := exists_ppf.choose
  fmt := fun _ => ""
  induce := fun _ _ => .error .unmodelled
  fuel := fun _ _ => 0 }

theorem idealEnv_driven : demoSource.Drives idealEnv := ⟨rfl, Env.patient_patient _, fun _ _ _ => rfl, rfl, rfl,
  exists_ppf.choose_spec⟩

/-- A mixture of a normal variable cut off at 0, and an exploding die plus a discrete variable. -/
noncomputable def demoExpr : Obj (St (ℕ → ℝ × ℝ) ℝ) ℝ :=
  .mix 2 ![.leaf (.normal 1 2) (some (.int 0)) none,
    .bin (.op .add) (.leaf (.die ⟨6, some [6]⟩) none none)
      (.leaf (.categorical (.list ([.int 1, .int 1, .flt (5 / 2)].map .plain))) none none)]
    [3 / 10, 7 / 10] none none

example : ∃ μ, Denotes demoSource.primLaw demoExpr μ ∧ IsProbabilityMeasure μ ∧
    ∃ X : Fin 200 → (ℕ → ℝ × ℝ) → ℝ,
      (∀ᵐ ω ∂(Measure.infinitePi fun _ : ℕ => demoSource.law), ∃ z s',
        sampleObj idealEnv demoExpr 200 none none ⟨ω, fun _ _ => none⟩ = (.ok z, s') ∧
        Reads 200 z fun i => X i ω) ∧
      (∀ i, (Measure.infinitePi fun _ : ℕ => demoSource.law).map (X i) = μ) := by
  obtain ⟨-, -, ν, hν, -⟩ := C94_example
  have h1 := Denotes.leaf (S := St (ℕ → ℝ × ℝ) ℝ) (L := demoSource.primLaw) (l := .normal 1 2)
    (lc := some (.int 0)) (rc := none) (lo := some 0) (hi := none)
    (demoSource_normal 1 (by norm_num)) (Or.inr ⟨0, rfl, by simp⟩) trivial
  have h2 := Denotes.explode (S := St (ℕ → ℝ × ℝ) ℝ) (L := demoSource.primLaw) (s := 6) (faces := [6])
    (lc := none) (rc := none) (lo := none) (hi := none) ⟨1, by simp, by simp, by simp⟩
    (demoSource_dice (by norm_num)) hν trivial trivial
  have h3 := Denotes.items (S := St (ℕ → ℝ × ℝ) ℝ) (L := demoSource.primLaw)
    (vs := [.int 1, .int 1, .flt (5 / 2)]) (rs := [1, 1, 5 / 2]) (lc := none) (rc := none) (lo := none)
    (hi := none) (by simp)
    (.cons (Or.inr ⟨1, rfl, by simp⟩) (.cons (Or.inr ⟨1, rfl, by simp⟩) (.cons (Or.inl rfl) .nil)))
    trivial trivial
  have h4 := Denotes.bin (o := .add) rfl h2 h3 (.of_forall fun _ => trivial)
  have hd := Denotes.mix (k := 2) (ws := [3 / 10, 7 / 10])
    (ds := ![_, _]) (ν := ![_, _]) rfl (Fin.forall_fin_two.2 ⟨h1, h4⟩)
    (by simp) (by norm_num) (lc := none) (rc := none) (lo := none) (hi := none) trivial trivial
  obtain ⟨hp, X, -, hX, hl, -⟩ := C86_independent_samples demoSource (E := idealEnv) idealEnv_driven demoSource_uniform hd
    (n := 200) (by norm_num) fun _ _ => none
  exact ⟨_, hd, hp, X, hX, hl⟩

/-- `round(norm(mean=1, sd=2)) ** 2 // 3` -/
noncomputable def powerExpr : Obj (St (ℕ → ℝ × ℝ) ℝ) ℝ :=
  .bin (.op .floordiv) (.bin (.op .pow) (.un .round0 (.leaf (.normal 1 2) none none)) (.lit (.int 2)))
    (.lit (.int 3))

example : ∃ (μ : Measure ℝ) (X : Fin 200 → (ℕ → ℝ × ℝ) → ℝ),
    μ = (normalLaw 1 2).map (fun x => ((⌊((nearest x : ℝ) ^ 2) / 3⌋ : ℤ) : ℝ)) ∧
    (∀ᵐ ω ∂(Measure.infinitePi fun _ : ℕ => demoSource.law), ∃ z s',
      sampleObj idealEnv powerExpr 200 none none ⟨ω, fun _ _ => none⟩ = (.ok z, s') ∧
      Reads 200 z fun i => X i ω) ∧
    (∀ i, (Measure.infinitePi fun _ : ℕ => demoSource.law).map (X i) = μ) := by
  have h1 := Denotes.un (f := .round0) rfl
    (denotes_normal (T := St (ℕ → ℝ × ℝ) ℝ) (demoSource_normal 1 (s := 2) (by norm_num)))
  have l2 : Denotes (S := St (ℕ → ℝ × ℝ) ℝ) demoSource.primLaw (.lit (.int 2)) (Measure.dirac 2) :=
    .lit (Or.inr ⟨2, rfl, by norm_num⟩)
  have l3 : Denotes (S := St (ℕ → ℝ × ℝ) ℝ) demoSource.primLaw (.lit (.int 3)) (Measure.dirac 3) :=
    .lit (Or.inr ⟨3, rfl, by norm_num⟩)
  have hn : Measurable fun x : ℝ => (nearest x : ℝ) := measurable_unMeaning (f := .round0) rfl
  have h2 := Denotes.bin (o := .pow) rfl h1 l2 (by
    rw [Measure.prod_dirac, ae_map_iff (by fun_prop) (by
      have : {p : ℝ × ℝ | opDefined .pow p.1 p.2}
          = (⋃ k : ℕ, {p : ℝ × ℝ | p.2 = k}) ∪ {p | 0 < p.1 ∧ 0 ≤ p.2} := by
        ext p; simp [opDefined]
      rw [this]
      refine (MeasurableSet.iUnion fun k => ?_).union ?_
      · exact measurableSet_eq_fun measurable_snd measurable_const
      · exact (measurableSet_lt measurable_const measurable_fst).inter
          (measurableSet_le measurable_const measurable_snd))]
    exact .of_forall fun x => Or.inl ⟨2, by norm_num⟩)
  have h3 := Denotes.bin (o := .floordiv) rfl h2 l3 (by
    rw [Measure.prod_dirac, ae_map_iff (by fun_prop) (by
      exact (measurableSet_eq_fun measurable_snd measurable_const).compl)]
    exact .of_forall fun x => by norm_num [opDefined])
  obtain ⟨-, X, -, hX, hl, -⟩ := C86_independent_samples demoSource (E := idealEnv) idealEnv_driven
    demoSource_uniform h3 (n := 200) (by norm_num) fun _ _ => none
  refine ⟨_, X, rfl, hX, fun i => (hl i).trans ?_⟩
  have hp : Measurable fun p : ℝ × ℝ => p.1 ^ p.2 := measurable_opMeaning (o := .pow) rfl
  have hf : Measurable fun p : ℝ × ℝ => ((⌊p.1 / p.2⌋ : ℤ) : ℝ) := measurable_opMeaning (o := .floordiv) rfl
  rw [Measure.prod_dirac, Measure.prod_dirac, Measure.map_map hp (by fun_prop),
    Measure.map_map (hp.comp (by fun_prop)) hn, Measure.map_map hf (by fun_prop),
    Measure.map_map (hf.comp (by fun_prop)) ((hp.comp (by fun_prop)).comp hn)]
  congr 1
  funext x
  simp

example : ∃ ppf m s, IsPpf ppf ∧ normalInit ppf (some 1) (some 10) none none 90 = .ok ⟨some m, some s⟩ ∧
    (Measure.infinitePi fun _ : ℕ => demoSource.law).real
      {ω | ¬ ∃ z s' xs, sampleObj idealEnv (.leaf (.normal m s) none none) 1000 none none
          ⟨ω, fun _ _ => none⟩ = (.ok z, s') ∧ List.Forall₂ IsReal z.toList xs ∧
          |((xs.countP fun v => (1 : ℝ) ≤ v ∧ v ≤ 10 : ℕ) : ℝ) / (1000 : ℕ) - 90 / 100| < 1 / 10}
      ≤ 2 * Real.exp (-2 * (1000 : ℕ) * (1 / 10) ^ 2) := by
  obtain ⟨ppf, hp⟩ := exists_ppf
  obtain ⟨m, s, h, hf⟩ := C88_norm_frequency demoSource (E := idealEnv) idealEnv_driven demoSource_uniform
    (fun m s hs => demoSource_normal m hs.le) hp (x := 1) (y := 10) (cred := 90) (by norm_num) (by norm_num)
    (by norm_num)
  exact ⟨ppf, m, s, hp, h, hf 1000 (by norm_num) _ _ (by norm_num)⟩

example : ∃ ppf f m s, IsPpf ppf ∧
    lognormInit ppf { x := some 1, y := some 10, cred := 90 } = .ok f ∧ f.normMean = some m ∧
    f.normSd = some s ∧ (Measure.infinitePi fun _ : ℕ => demoSource.law).real
      {ω | ¬ ∃ z s' xs, sampleObj idealEnv (.leaf (.lognormal m s) none none) 1000 none none
          ⟨ω, fun _ _ => none⟩ = (.ok z, s') ∧ List.Forall₂ IsReal z.toList xs ∧
          |((xs.countP fun v => (1 : ℝ) ≤ v ∧ v ≤ 10 : ℕ) : ℝ) / (1000 : ℕ) - 90 / 100| < 1 / 10}
      ≤ 2 * Real.exp (-2 * (1000 : ℕ) * (1 / 10) ^ 2) := by
  obtain ⟨ppf, hp⟩ := exists_ppf
  obtain ⟨f, m, s, h, hm, hs, hf⟩ := C88_lognorm_frequency demoSource (E := idealEnv) idealEnv_driven demoSource_uniform
    (fun m s hs => demoSource_lognormal m hs.le) hp (x := 1) (y := 10) (cred := 90) (by norm_num)
    (by norm_num) (by norm_num) (by norm_num)
  exact ⟨ppf, f, m, s, hp, h, hm, hs, hf 1000 (by norm_num) _ _ (by norm_num)⟩

/-- The mean of 10000 samples of `norm(mean=5, sd=2)` is within 1/10 of 5 except with probability 1/25. -/
example : (Measure.infinitePi fun _ : ℕ => demoSource.law)
      {ω | ¬ ∃ z s' xs, sampleObj idealEnv (.leaf (.normal 5 2) none none) 10000 none none
        ⟨ω, fun _ _ => none⟩ = (.ok z, s') ∧ List.Forall₂ IsReal z.toList xs ∧
        |xs.sum / (10000 : ℕ) - 5| < 1 / 10} ≤ ENNReal.ofReal (1 / 25) := by
  have h := C87_mean demoSource (E := idealEnv) idealEnv_driven demoSource_uniform
    (denotes_normal (T := St (ℕ → ℝ × ℝ) ℝ) (demoSource_normal 5 (s := 2) (by norm_num)))
    (memLp_id_gaussianReal 2) (n := 10000) (by norm_num) (fun _ _ => none) (ε := 1 / 10) (by norm_num)
  have e1 : ∫ x, x ∂(normalLaw 5 2) = 5 := integral_id_gaussianReal
  have e2 : Var[id; normalLaw 5 2] = 4 := by
    rw [normalLaw, variance_id_gaussianReal]
    norm_num
  rw [e1, e2] at h
  refine h.trans (ENNReal.ofReal_le_ofReal ?_)
  norm_num

end Verif
