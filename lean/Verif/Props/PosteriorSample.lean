import Verif.Model.UpdateObj
import Verif.Props.BayesTheorem
import Verif.Props.Families
import Verif.Props.Accuracy

/-!
# Samples of `update` are samples of the posterior (C143)
-/

namespace Verif

open MeasureTheory ProbabilityTheory Spec

theorem update_lognorm_unbounded {ppf : ℝ → ℝ} {d e post : PDist} {m s x sd w : ℝ} (hd : IsLognormal d m s)
    (he : IsLognormal e x sd) (h : update ppf d e w = .ok post) : ∃ f, post = .lognorm f none none := by
  obtain ⟨_, _, _, _, rfl⟩ := hd
  obtain ⟨_, _, _, _, rfl⟩ := he
  simp only [update] at h
  rcases h1 : normalUpdate m s x sd w with er | ⟨M, S⟩
  · rw [h1] at h; cases h
  · rw [h1] at h
    change (lognormInit ppf { normMean := some M, normSd := some S } >>= fun f => Except.ok (PDist.lognorm f none none)) = _
      at h
    rcases h2 : lognormInit ppf { normMean := some M, normSd := some S } with er | f
    · rw [h2] at h; cases h
    · rw [h2] at h; cases h; exact ⟨f, rfl⟩

section

variable {Ω : Type} [MeasurableSpace Ω] (S : IdealSource Ω) (hS : Documented S) {E : Env (ℕ → Ω) ℝ} (hE : S.Drives E)

include hS hE

/-- **C143**, samples of `update(beta(a, b), beta(s, f))`: independent numbers distributed as the posterior. -/
theorem C143_beta_samples (ppf : ℝ → ℝ) {a b s f : ℝ} (ha : 0 < a) (hb : 0 < b) (hs : 0 ≤ s) (hf : 0 ≤ f) (w : ℝ)
    (left : ℕ → ℕ → Option (List (Scalar ℝ))) {n : ℕ} (hn : 1 ≤ n) {Q : List ℝ → Prop}
    (hQ : MeasurableSet {x : Fin n → ℝ | Q (List.ofFn x)}) :
    ∃ post o, update ppf (.beta a b) (.beta s f) w = .ok post ∧ post.obj = some o ∧
      sampleChance S E o left n Q =
        (Measure.pi fun _ : Fin n => posterior (betaMeasure a b) (trialsLikelihood s f)) {x | Q (List.ofFn x)} := by
  obtain ⟨A, B, h1, h2, h3, h4⟩ := C143_beta ppf ha hb hs hf w
  refine ⟨_, _, h1, rfl, ?_⟩
  rw [← h4]
  exact sampleChance_eq S hE (documented_uniform S hS) (denotes_beta S hS h2 h3) left hn hQ

/-- **C143**, samples of `update(norm(...), norm(...), evidence_weight=w)`. -/
theorem C143_normal_samples (ppf : ℝ → ℝ) {d e : PDist} {m s x sd w : ℝ} (hd : IsNormal d m s) (hs : 0 < s)
    (he : IsNormal e x sd) (hsd : 0 < sd) (hw : 0 ≤ w)
    (left : ℕ → ℕ → Option (List (Scalar ℝ))) {n : ℕ} (hn : 1 ≤ n) {Q : List ℝ → Prop}
    (hQ : MeasurableSet {x : Fin n → ℝ | Q (List.ofFn x)}) :
    ∃ post o, update ppf d e w = .ok post ∧ post.obj = some o ∧
      sampleChance S E o left n Q =
        (Measure.pi fun _ : Fin n => posterior (normalLaw m s) (measuredLikelihood x sd w)) {x | Q (List.ofFn x)} := by
  obtain ⟨M, σ, h1, h2, h4⟩ := C143_normal ppf hd hs he hsd hw
  refine ⟨_, _, h1, rfl, ?_⟩
  rw [← h4]
  exact sampleChance_eq S hE (documented_uniform S hS) (denotes_norm S hS M h2.le) left hn hQ

/-- **C143**, samples of `update(lognorm(...), lognorm(...), evidence_weight=w)`. -/
theorem C143_lognormal_samples (ppf : ℝ → ℝ) {d e : PDist} {m s x sd w : ℝ} (hd : IsLognormal d m s) (hs : 0 < s)
    (he : IsLognormal e x sd) (hsd : 0 < sd) (hw : 0 ≤ w)
    (left : ℕ → ℕ → Option (List (Scalar ℝ))) {n : ℕ} (hn : 1 ≤ n) {Q : List ℝ → Prop}
    (hQ : MeasurableSet {x : Fin n → ℝ | Q (List.ofFn x)}) :
    ∃ post o, update ppf d e w = .ok post ∧ post.obj = some o ∧
      sampleChance S E o left n Q =
        (Measure.pi fun _ : Fin n => posterior (lognormalLaw m s) fun θ => measuredLikelihood x sd w (Real.log θ))
          {x | Q (List.ofFn x)} := by
  obtain ⟨post, M, σ, h1, h3, h2, h4⟩ := C143_lognormal ppf hd hs he hsd hw
  obtain ⟨fl, rfl⟩ := update_lognorm_unbounded hd he h1
  obtain ⟨lm, ls, lc, rc, h3⟩ := h3
  cases h3
  refine ⟨_, _, h1, rfl, ?_⟩
  rw [← h4]
  exact sampleChance_eq S hE (documented_uniform S hS)
    (denotes_lognormal (hS (.lognormal M σ) _ (if_pos h2.le))) left hn hQ

end

/-! ### Examples -/

/-- Three successes and a failure after a uniform prior; the chance of another success is `laplace(3, 4) = 2/3`. -/
example (ppf : ℝ → ℝ) : update ppf (.beta 1 1) (.beta 3 1) 1 = .ok (.beta (1 + 3) (1 + 1)) ∧
    betaMeasure (1 + 3) (1 + 1) = posterior (betaMeasure 1 1) (trialsLikelihood 3 1) := by
  obtain ⟨A, B, h1, -, -, h4⟩ := C143_beta ppf one_pos one_pos (s := 3) (f := 1) (by norm_num) (by norm_num) 1
  have : update ppf (.beta 1 1) (.beta 3 1) 1 = .ok (.beta (1 + 3) (1 + 1)) := rfl
  rw [this] at h1
  cases h1
  exact ⟨this, h4⟩

example : predictive (uniformLaw 0 1) (trialsLikelihood 3 1) (fun q => ENNReal.ofReal q) = ENNReal.ofReal (2 / 3) := by
  obtain ⟨p, A, B, h1, h2, -⟩ := C143_laplace (s := 3) (n := 4) (by norm_num) (by norm_num) true (fun _ => 0) 1
  obtain ⟨q, hq, hqe, -⟩ := (C58_trials 3 4 (by norm_num) true).1 (by norm_num)
  rw [h1] at hq
  cases hq
  rw [show (4 : ℝ) - 3 = 1 by norm_num] at h2
  rw [← h2, hqe]
  norm_num

/-- The hypotheses for normal and lognormal distributions, with half a measurement. -/
example (ppf : ℝ → ℝ) :
    (∃ M S, update ppf (.norm ⟨some 10, some 2⟩ (some 0) none) (.norm ⟨some 14, some 1⟩ none none) (1 / 2) =
      .ok (.norm ⟨some M, some S⟩ none none) ∧ 0 < S ∧
      normalLaw M S = posterior (normalLaw 10 2) (measuredLikelihood 14 1 (1 / 2))) ∧
    ∃ post M S, update ppf (.lognorm ⟨some 1, some 2, none, none⟩ none none) (.lognorm ⟨some 3, some 1, none, none⟩ none none)
      (1 / 2) = .ok post ∧ IsLognormal post M S ∧ 0 < S ∧
      lognormalLaw M S = posterior (lognormalLaw 1 2) (fun θ => measuredLikelihood 3 1 (1 / 2) (Real.log θ)) :=
  ⟨C143_normal ppf ⟨_, _, rfl⟩ two_pos ⟨_, _, rfl⟩ one_pos (by norm_num),
    C143_lognormal ppf ⟨_, _, _, _, rfl⟩ two_pos ⟨_, _, _, _, rfl⟩ one_pos (by norm_num)⟩

/-- Nothing happened in 20 years: something happens in the next 10 with probability 1/3. -/
example (fixed : Bool) : predictive flatRate (eventsLikelihood 0 20) (someEvent 10) = ENNReal.ofReal (1 / 3) := by
  obtain ⟨p, h1, h2⟩ := C143_laplace_time (s := 0) (t := 20) (r := 10) (by norm_num) (by norm_num) fixed
  obtain ⟨⟨q, hq, hqe, -⟩, -⟩ := C58_time 0 20 10 (by norm_num) (by norm_num) fixed
  rw [h1] at hq
  cases hq
  simp only [true_or, if_true, Nat.cast_zero] at h2
  rw [← h2, hqe]
  congr 1
  simp only [timeExponent, if_true]
  rw [Real.rpow_neg_one]
  norm_num

/-- The rates of gamma(2, 1) and gamma(3, 1): 5 events in the time 2 have mean 5/2, the update has mean 5. -/
example (ppf : ℝ → ℝ) : ∃ A C m, update ppf (.gamma 2 1 none none) (.gamma 3 1 none none) 1 = .ok (.gamma A C none none) ∧
    HasMean (posterior (gammaMeasure 2 (1 / 1)) (eventsLikelihood 3 (1 / 1))) m ∧ m < A * C := by
  obtain ⟨A, C, m, h1, -, -, h2, -, h3, -⟩ := C143_gamma_fails ppf (a := 2) (c := 1) (a' := 3) (c' := 1) two_pos one_pos
    three_pos one_pos
  exact ⟨A, C, m, h1, h2, h3⟩

end Verif
