import Verif.Spec.Update
import Verif.Props.Weights
import Verif.Lemmas.Sample
import Mathlib.Probability.ConditionalProbability

/-!
# C52, C53, C54, C79, C80: updating and averaging distributions, Bayes' rule
-/

namespace Verif

open MeasureTheory ProbabilityTheory Verif.Spec

set_option linter.unusedSectionVars false

/-! ## The normal formula -/

theorem normalUpdate_valid {m s : ℝ} (hs : 0 < s) {e : Evidence} (he : e.Valid) :
    ∃ M S, normalUpdate m s e.mean e.sd e.weight = .ok (M, S) ∧ 0 < S ∧
      1 / S ^ 2 = 1 / s ^ 2 + e.precision ∧
      M * (1 / S ^ 2) = m * (1 / s ^ 2) + e.precision * e.mean := by
  obtain ⟨h1, h2⟩ := he
  have hp : 0 < s ^ 2 := by positivity
  have hq : 0 < e.sd ^ 2 := by positivity
  have hd : 0 < e.weight * s ^ 2 + e.sd ^ 2 := by positivity
  have hv : 0 < e.sd ^ 2 * s ^ 2 / (e.weight * s ^ 2 + e.sd ^ 2) := by positivity
  refine ⟨(e.sd ^ 2 * m + e.weight * (s ^ 2 * e.mean)) / (e.weight * s ^ 2 + e.sd ^ 2),
    Real.sqrt (e.sd ^ 2 * s ^ 2 / (e.weight * s ^ 2 + e.sd ^ 2)), ?_, Real.sqrt_pos.2 hv, ?_, ?_⟩
  · simp only [normalUpdate, pyDiv, mathSqrt, if_neg hd.ne', if_neg (not_lt.2 hv.le), bind,
      Except.bind]
  · rw [Real.sq_sqrt hv.le, Evidence.precision]
    field_simp
    ring
  · rw [Real.sq_sqrt hv.le, Evidence.precision]
    field_simp

/-- Repeated application of the formula. -/
noncomputable def normalUpdateAll : ℝ → ℝ → List Evidence → Except PyErr (ℝ × ℝ)
  | m, s, [] => .ok (m, s)
  | m, s, e :: es => do
    let r ← normalUpdate m s e.mean e.sd e.weight
    normalUpdateAll r.1 r.2 es

theorem normalUpdateAll_valid :
    ∀ (es : List Evidence) {m s : ℝ}, 0 < s → (∀ e ∈ es, e.Valid) →
      ∃ M S, normalUpdateAll m s es = .ok (M, S) ∧ 0 < S ∧
        1 / S ^ 2 = 1 / s ^ 2 + (es.map Evidence.precision).sum ∧
        M * (1 / S ^ 2) = m * (1 / s ^ 2) + (es.map fun e => e.precision * e.mean).sum
  | [], m, s, hs, _ => ⟨m, s, rfl, hs, by simp, by simp⟩
  | e :: es, m, s, hs, h => by
    obtain ⟨M1, S1, h1, h2, h3, h4⟩ := normalUpdate_valid (m := m) hs (h e (by simp))
    obtain ⟨M, S, k1, k2, k3, k4⟩ := normalUpdateAll_valid es (m := M1) h2
      (fun e he => h e (by simp [he]))
    refine ⟨M, S, ?_, k2, ?_, ?_⟩
    · simp only [normalUpdateAll, h1, bind, Except.bind]
      exact k1
    · rw [k3, h3, List.map_cons, List.sum_cons]; ring
    · rw [k4, h4, List.map_cons, List.sum_cons]; ring

theorem inv_sq_inj {a b : ℝ} (ha : 0 < a) (hb : 0 < b) (h : 1 / a ^ 2 = 1 / b ^ 2) : a = b := by
  have h1 : a ^ 2 = b ^ 2 := by
    have := congrArg (fun x => 1 / x) h
    simpa using this
  have := (sq_eq_sq₀ ha.le hb.le).1 h1
  exact this

theorem normalUpdateAll_perm {es es' : List Evidence} (hp : es.Perm es') {m s : ℝ} (hs : 0 < s)
    (h : ∀ e ∈ es, e.Valid) : normalUpdateAll m s es = normalUpdateAll m s es' := by
  obtain ⟨M, S, h1, h2, h3, h4⟩ := normalUpdateAll_valid es (m := m) hs h
  obtain ⟨M', S', k1, k2, k3, k4⟩ := normalUpdateAll_valid es' (m := m) hs
    (fun e he => h e (hp.mem_iff.2 he))
  have hS : S = S' := inv_sq_inj h2 k2 (by rw [h3, k3, (hp.map _).sum_eq])
  subst hS
  have hM : M = M' := by
    have : M * (1 / S ^ 2) = M' * (1 / S ^ 2) := by rw [h4, k4, (hp.map _).sum_eq]
    exact mul_right_cancel₀ (by positivity) this
  rw [h1, k1, hM]

/-! ## C52 -/

theorem update_normal {ppf : ℝ → ℝ} {d e : PDist} {m s em es w M S : ℝ} (hd : IsNormal d m s)
    (he : IsNormal e em es) (h : normalUpdate m s em es w = .ok (M, S)) :
    update ppf d e w = .ok (.norm ⟨some M, some S⟩ none none) := by
  obtain ⟨lc, rc, rfl⟩ := hd
  obtain ⟨lc', rc', rfl⟩ := he
  simp [update, h, bind, Except.bind, normalInit, outOfOrder]

theorem updateAll_normal {ppf : ℝ → ℝ} :
    ∀ (evs : List (PDist × Evidence)) (d : PDist) {m s : ℝ}, IsNormal d m s → 0 < s →
      (∀ x ∈ evs, IsNormal x.1 x.2.mean x.2.sd ∧ x.2.Valid) →
      ∃ M S, normalUpdateAll m s (evs.map Prod.snd) = .ok (M, S) ∧
        ((evs = [] ∧ updateAll ppf d (evs.map fun x => (x.1, x.2.weight)) = .ok d) ∨
          (evs ≠ [] ∧ updateAll ppf d (evs.map fun x => (x.1, x.2.weight)) =
            .ok (.norm ⟨some M, some S⟩ none none)))
  | [], d, m, s, _, _, _ => ⟨m, s, rfl, Or.inl ⟨rfl, rfl⟩⟩
  | x :: evs, d, m, s, hd, hs, h => by
    obtain ⟨hx, hv⟩ := h x (by simp)
    obtain ⟨M1, S1, h1, h2, -, -⟩ := normalUpdate_valid (m := m) hs hv
    obtain ⟨M, S, k1, k2⟩ := updateAll_normal (ppf := ppf) evs (.norm ⟨some M1, some S1⟩ none none)
      ⟨none, none, rfl⟩ h2 (fun y hy => h y (by simp [hy]))
    refine ⟨M, S, ?_, Or.inr ⟨by simp, ?_⟩⟩
    · simp only [List.map_cons, normalUpdateAll, h1, bind, Except.bind]
      exact k1
    · simp only [List.map_cons, updateAll, update_normal hd hx h1, bind, Except.bind]
      rcases k2 with ⟨rfl, k⟩ | ⟨-, k⟩
      · rw [k]
        simp only [List.map_nil, normalUpdateAll, Except.ok.injEq, Prod.mk.injEq] at k1
        rw [k1.1, k1.2]
      · exact k

/-- **C52**: updating a normal prior with any sequence of normal evidence with weights `≥ 0` succeeds and
gives a normal distribution whose precision is the sum of the precisions (evidence counted with its
weight) and whose mean is the precision-weighted mean. -/
theorem C52_precision (ppf : ℝ → ℝ) (d : PDist) (m s : ℝ) (hd : IsNormal d m s) (hs : 0 < s)
    (evs : List (PDist × Evidence))
    (h : ∀ x ∈ evs, IsNormal x.1 x.2.mean x.2.sd ∧ x.2.Valid) :
    ∃ post M S, updateAll ppf d (evs.map fun x => (x.1, x.2.weight)) = .ok post ∧
      IsNormal post M S ∧ 0 < S ∧
      1 / S ^ 2 = 1 / s ^ 2 + (evs.map fun x => x.2.weight * (1 / x.2.sd ^ 2)).sum ∧
      M = (m * (1 / s ^ 2) + (evs.map fun x => x.2.weight * (1 / x.2.sd ^ 2) * x.2.mean).sum) /
        (1 / s ^ 2 + (evs.map fun x => x.2.weight * (1 / x.2.sd ^ 2)).sum) := by
  obtain ⟨M, S, h1, h2⟩ := updateAll_normal (ppf := ppf) evs d hd hs h
  obtain ⟨M', S', k1, k2, k3, k4⟩ := normalUpdateAll_valid (evs.map Prod.snd) (m := m) hs (by
    intro e he
    obtain ⟨x, hx, rfl⟩ := List.mem_map.1 he
    exact (h x hx).2)
  rw [h1] at k1
  simp only [Except.ok.injEq, Prod.mk.injEq] at k1
  obtain ⟨rfl, rfl⟩ := k1
  rw [List.map_map] at k3 k4
  have k3' : 1 / S ^ 2 = 1 / s ^ 2 + (evs.map fun x => x.2.weight * (1 / x.2.sd ^ 2)).sum := k3
  have k4' : M * (1 / S ^ 2) = m * (1 / s ^ 2) +
    (evs.map fun x => x.2.weight * (1 / x.2.sd ^ 2) * x.2.mean).sum := k4
  have hM : M = (m * (1 / s ^ 2) + (evs.map fun x => x.2.weight * (1 / x.2.sd ^ 2) * x.2.mean).sum) /
        (1 / s ^ 2 + (evs.map fun x => x.2.weight * (1 / x.2.sd ^ 2)).sum) := by
    rw [← k4', ← k3', mul_div_assoc, div_self (by positivity), mul_one]
  rcases h2 with ⟨rfl, h2⟩ | ⟨-, h2⟩
  · refine ⟨d, M, S, h2, ?_, k2, k3', hM⟩
    simp only [List.map_nil, normalUpdateAll, Except.ok.injEq, Prod.mk.injEq] at h1
    rw [← h1.1, ← h1.2]
    exact hd
  · exact ⟨_, M, S, h2, ⟨none, none, rfl⟩, k2, k3', hM⟩

/-- **C52**: the order of the evidence does not matter. -/
theorem C52_order (ppf : ℝ → ℝ) (d : PDist) (m s : ℝ) (hd : IsNormal d m s) (hs : 0 < s)
    (evs evs' : List (PDist × Evidence)) (hp : evs.Perm evs')
    (h : ∀ x ∈ evs, IsNormal x.1 x.2.mean x.2.sd ∧ x.2.Valid) :
    updateAll ppf d (evs.map fun x => (x.1, x.2.weight)) =
      updateAll ppf d (evs'.map fun x => (x.1, x.2.weight)) := by
  obtain ⟨M, S, h1, h2⟩ := updateAll_normal (ppf := ppf) evs d hd hs h
  obtain ⟨M', S', k1, k2⟩ := updateAll_normal (ppf := ppf) evs' d hd hs
    (fun x hx => h x (hp.mem_iff.2 hx))
  rw [← normalUpdateAll_perm (hp.map _) hs (by
    intro e he
    obtain ⟨x, hx, rfl⟩ := List.mem_map.1 he
    exact (h x hx).2), h1] at k1
  simp only [Except.ok.injEq, Prod.mk.injEq] at k1
  obtain ⟨rfl, rfl⟩ := k1
  rcases h2 with ⟨rfl, h2⟩ | ⟨hne, h2⟩
  · have : evs' = [] := hp.nil_eq.symm
    subst this
    rfl
  · rcases k2 with ⟨rfl, -⟩ | ⟨-, k2⟩
    · exact absurd hp.eq_nil hne
    · rw [h2, k2]

/-- **C52**: the posterior mean stays between the smallest and the largest of the means involved, and the
standard deviation does not grow. -/
theorem C52_between (ppf : ℝ → ℝ) (d : PDist) (m s : ℝ) (hd : IsNormal d m s) (hs : 0 < s)
    (evs : List (PDist × Evidence))
    (h : ∀ x ∈ evs, IsNormal x.1 x.2.mean x.2.sd ∧ x.2.Valid) (lo hi : ℝ)
    (hm : lo ≤ m ∧ m ≤ hi) (hms : ∀ x ∈ evs, lo ≤ x.2.mean ∧ x.2.mean ≤ hi) :
    ∃ post M S, updateAll ppf d (evs.map fun x => (x.1, x.2.weight)) = .ok post ∧
      IsNormal post M S ∧ lo ≤ M ∧ M ≤ hi ∧ 0 < S ∧ S ≤ s := by
  obtain ⟨post, M, S, h1, h2, h3, h4, h5⟩ := C52_precision ppf d m s hd hs evs h
  have hw : ∀ x ∈ evs, 0 ≤ x.2.weight * (1 / x.2.sd ^ 2) := fun x hx => by
    obtain ⟨-, hv1, hv2⟩ := h x hx
    positivity
  have hsum : 0 ≤ (evs.map fun x => x.2.weight * (1 / x.2.sd ^ 2)).sum :=
    List.sum_nonneg (by
      intro y hy
      obtain ⟨x, hx, rfl⟩ := List.mem_map.1 hy
      exact hw x hx)
  have hs2 : 0 < 1 / s ^ 2 := by positivity
  have hden : 0 < 1 / s ^ 2 + (evs.map fun x => x.2.weight * (1 / x.2.sd ^ 2)).sum := by linarith
  refine ⟨post, M, S, h1, h2, ?_, ?_, h3, ?_⟩
  · rw [h5, le_div_iff₀ hden, mul_add]
    have h6 : lo * (evs.map fun x => x.2.weight * (1 / x.2.sd ^ 2)).sum ≤
        (evs.map fun x => x.2.weight * (1 / x.2.sd ^ 2) * x.2.mean).sum := by
      rw [← List.sum_map_mul_left]
      apply List.sum_le_sum
      intro x hx
      rw [mul_comm lo]
      exact mul_le_mul_of_nonneg_left (hms x hx).1 (hw x hx)
    have h7 := mul_le_mul_of_nonneg_right hm.1 hs2.le
    linarith
  · rw [h5, div_le_iff₀ hden, mul_add]
    have h6 : (evs.map fun x => x.2.weight * (1 / x.2.sd ^ 2) * x.2.mean).sum ≤
        hi * (evs.map fun x => x.2.weight * (1 / x.2.sd ^ 2)).sum := by
      rw [← List.sum_map_mul_left]
      apply List.sum_le_sum
      intro x hx
      rw [mul_comm hi]
      exact mul_le_mul_of_nonneg_left (hms x hx).2 (hw x hx)
    have h7 := mul_le_mul_of_nonneg_right hm.2 hs2.le
    linarith
  · have h6 : 1 / s ^ 2 ≤ 1 / S ^ 2 := by rw [h4]; linarith
    have h7 : S ^ 2 ≤ s ^ 2 := (one_div_le_one_div (by positivity) (by positivity)).1 h6
    exact (sq_le_sq₀ h3.le hs.le).1 h7

/-- **C52**: evidence of weight zero leaves mean and standard deviation as they are. -/
theorem C52_weight_zero (ppf : ℝ → ℝ) (d e : PDist) (m s em es : ℝ) (hd : IsNormal d m s) (hs : 0 < s)
    (he : IsNormal e em es) (hes : 0 < es) :
    update ppf d e 0 = .ok (.norm ⟨some m, some s⟩ none none) := by
  apply update_normal hd he
  have h1 : es ^ 2 ≠ 0 := by positivity
  have h2 : (es ^ 2 * m) / es ^ 2 = m := by field_simp
  have h3 : (es ^ 2 * s ^ 2) / es ^ 2 = s ^ 2 := by field_simp
  simp [normalUpdate, pyDiv, mathSqrt, h1, h2, h3, bind, Except.bind, Real.sqrt_sq hs.le,
    not_lt.2 (sq_nonneg s)]

/-- **C52**: the posterior is the Bayesian one: its density is proportional to the prior density times the
evidence density to the power of the weight. -/
theorem C52_bayes (ppf : ℝ → ℝ) (d : PDist) (m s : ℝ) (hd : IsNormal d m s) (hs : 0 < s)
    (e : PDist) (em es w : ℝ) (he : IsNormal e em es) (hes : 0 < es) (hw : 0 ≤ w) :
    ∃ M S, update ppf d e w = .ok (.norm ⟨some M, some S⟩ none none) ∧ 0 < S ∧
      ∃ c, 0 < c ∧ ∀ θ, gaussianPDFReal m (s ^ 2).toNNReal θ *
        gaussianPDFReal em (es ^ 2).toNNReal θ ^ w = c * gaussianPDFReal M (S ^ 2).toNNReal θ := by
  obtain ⟨M, S, h1, h2, h3, h4⟩ := normalUpdate_valid (m := m) hs (e := ⟨em, es, w⟩) ⟨hes, hw⟩
  simp only [Evidence.precision] at h1 h3 h4
  refine ⟨M, S, update_normal hd he h1, h2, ?_⟩
  have hq : ∀ {a : ℝ}, 0 < a → 0 < Real.sqrt (2 * Real.pi * a ^ 2) := fun ha =>
    Real.sqrt_pos.2 (by have := Real.pi_pos; positivity)
  refine ⟨(Real.sqrt (2 * Real.pi * s ^ 2))⁻¹ * (Real.sqrt (2 * Real.pi * es ^ 2))⁻¹ ^ w *
    Real.sqrt (2 * Real.pi * S ^ 2) *
    Real.exp (-m ^ 2 / (2 * s ^ 2) + w * (-em ^ 2 / (2 * es ^ 2)) + M ^ 2 / (2 * S ^ 2)), ?_, ?_⟩
  · have := hq hs
    have := hq hes
    have := hq h2
    positivity
  · intro θ
    have hc : ∀ a : ℝ, ((a ^ 2).toNNReal : ℝ) = a ^ 2 := fun a => Real.coe_toNNReal _ (sq_nonneg a)
    simp only [gaussianPDFReal, hc]
    rw [Real.mul_rpow (inv_nonneg.2 (Real.sqrt_nonneg _)) (Real.exp_pos _).le, ← Real.exp_mul]
    have key : -(θ - m) ^ 2 / (2 * s ^ 2) + -(θ - em) ^ 2 / (2 * es ^ 2) * w =
        (-m ^ 2 / (2 * s ^ 2) + w * (-em ^ 2 / (2 * es ^ 2)) + M ^ 2 / (2 * S ^ 2)) +
          -(θ - M) ^ 2 / (2 * S ^ 2) := by
      have e1 : ∀ x a : ℝ, x / (2 * a ^ 2) = x * (1 / a ^ 2) / 2 := fun x a => by
        rw [mul_one_div, div_div, mul_comm 2]
      simp only [e1]
      linear_combination (-(θ ^ 2 / 2)) * h3.symm + θ * h4.symm
    have hS := (hq h2).ne'
    calc _ = (Real.sqrt (2 * Real.pi * s ^ 2))⁻¹ * (Real.sqrt (2 * Real.pi * es ^ 2))⁻¹ ^ w *
          Real.exp (-(θ - m) ^ 2 / (2 * s ^ 2) + -(θ - em) ^ 2 / (2 * es ^ 2) * w) := by
            rw [Real.exp_add]; ring
      _ = _ := by
            rw [key, Real.exp_add]
            field_simp

/-- The hypotheses of C52 can be met with two pieces of evidence: prior `N(0,1)`, evidence `N(3,1)` of
weight 2 and `N(6,2)` of weight 4: the precisions are 1, 2, 1. -/
example : ∃ post M S, updateAll (fun _ => 1) (.norm ⟨some 0, some 1⟩ none none)
    [(.norm ⟨some 3, some 1⟩ none none, 2), (.norm ⟨some 6, some 2⟩ none none, 4)] = .ok post ∧
    IsNormal post M S ∧ 1 / S ^ 2 = 4 ∧ M = 3 := by
  obtain ⟨post, M, S, h1, h2, -, h3, h4⟩ := C52_precision (fun _ => 1)
    (.norm ⟨some 0, some 1⟩ none none) 0 1 ⟨_, _, rfl⟩ one_pos
    [(.norm ⟨some 3, some 1⟩ none none, ⟨3, 1, 2⟩), (.norm ⟨some 6, some 2⟩ none none, ⟨6, 2, 4⟩)]
    (by
      intro x hx
      simp only [List.mem_cons, List.not_mem_nil, or_false] at hx
      rcases hx with rfl | rfl
      · exact ⟨⟨_, _, rfl⟩, by norm_num, by norm_num⟩
      · exact ⟨⟨_, _, rfl⟩, by norm_num, by norm_num⟩)
  refine ⟨post, M, S, h1, h2, ?_, ?_⟩
  · rw [h3]; norm_num
  · rw [h4]; norm_num

/-! ## C53 -/

theorem lognormInit_params (ppf : ℝ → ℝ) (M S : ℝ) :
    ∃ lm ls, lognormInit ppf { normMean := some M, normSd := some S } = .ok ⟨some M, some S, lm, ls⟩ :=
  ⟨_, _, by simp [lognormInit, logChecks, outOfOrder, bind, Except.bind]; exact ⟨rfl, rfl⟩⟩

/-- **C53**, lognormal: the update is the normal update of the logarithms, for all arguments, errors
included. -/
theorem C53_lognormal (ppf : ℝ → ℝ) (d e d' e' : PDist) (m s em es w : ℝ) (hd : IsLognormal d m s)
    (he : IsLognormal e em es) (hd' : IsNormal d' m s) (he' : IsNormal e' em es) :
    (∀ err, update ppf d' e' w = .error err → update ppf d e w = .error err) ∧
    (∀ post, update ppf d' e' w = .ok post → ∃ M S lpost, IsNormal post M S ∧
      update ppf d e w = .ok lpost ∧ IsLognormal lpost M S) := by
  obtain ⟨lm, ls, lc, rc, rfl⟩ := hd
  obtain ⟨lm', ls', lc', rc', rfl⟩ := he
  obtain ⟨a, b, rfl⟩ := hd'
  obtain ⟨a', b', rfl⟩ := he'
  simp only [update]
  cases hn : normalUpdate m s em es w with
  | error err =>
    constructor
    · intro err' h
      simpa [bind, Except.bind] using h
    · intro post h
      simp [bind, Except.bind] at h
  | ok r =>
    obtain ⟨M, S⟩ := r
    obtain ⟨x, y, hl⟩ := lognormInit_params ppf M S
    constructor
    · intro err' h
      simp [bind, Except.bind, normalInit, outOfOrder] at h
    · intro post h
      simp [bind, Except.bind, normalInit, outOfOrder] at h
      refine ⟨M, S, .lognorm ⟨some M, some S, x, y⟩ none none, ⟨none, none, h.symm⟩, ?_,
        ⟨x, y, none, none, rfl⟩⟩
      simp only [bind, Except.bind, hl]

theorem updateAll_lognormal {ppf : ℝ → ℝ} :
    ∀ (evs : List (PDist × Evidence)) (d : PDist) {m s : ℝ}, IsLognormal d m s → 0 < s →
      (∀ x ∈ evs, IsLognormal x.1 x.2.mean x.2.sd ∧ x.2.Valid) →
      ∃ M S, normalUpdateAll m s (evs.map Prod.snd) = .ok (M, S) ∧
        ((evs = [] ∧ updateAll ppf d (evs.map fun x => (x.1, x.2.weight)) = .ok d) ∨
          (evs ≠ [] ∧ ∃ f, lognormInit ppf { normMean := some M, normSd := some S } = .ok f ∧
            updateAll ppf d (evs.map fun x => (x.1, x.2.weight)) = .ok (.lognorm f none none)))
  | [], d, m, s, _, _, _ => ⟨m, s, rfl, Or.inl ⟨rfl, rfl⟩⟩
  | x :: evs, d, m, s, hd, hs, h => by
    obtain ⟨hx, hv⟩ := h x (by simp)
    obtain ⟨M1, S1, h1, h2, -, -⟩ := normalUpdate_valid (m := m) hs hv
    obtain ⟨lm1, ls1, hl1⟩ := lognormInit_params ppf M1 S1
    obtain ⟨M, S, k1, k2⟩ := updateAll_lognormal (ppf := ppf) evs
      (.lognorm ⟨some M1, some S1, lm1, ls1⟩ none none) ⟨lm1, ls1, none, none, rfl⟩ h2
      (fun y hy => h y (by simp [hy]))
    have hu : update ppf d x.1 x.2.weight = .ok (.lognorm ⟨some M1, some S1, lm1, ls1⟩ none none) := by
      obtain ⟨a, b, c, d', rfl⟩ := hd
      obtain ⟨a', b', c', d'', hx⟩ := hx
      rw [hx]
      simp only [update, h1, bind, Except.bind, hl1]
    refine ⟨M, S, ?_, Or.inr ⟨by simp, ?_⟩⟩
    · simp only [List.map_cons, normalUpdateAll, h1, bind, Except.bind]
      exact k1
    · simp only [List.map_cons, updateAll, hu, bind, Except.bind]
      rcases k2 with ⟨rfl, k⟩ | ⟨-, k⟩
      · simp only [List.map_nil, normalUpdateAll, Except.ok.injEq, Prod.mk.injEq] at k1
        rw [← k1.1, ← k1.2]
        exact ⟨_, hl1, k⟩
      · exact k

/-- **C53**, lognormal: the order of the evidence does not matter. -/
theorem C53_lognormal_order (ppf : ℝ → ℝ) (d : PDist) (m s : ℝ) (hd : IsLognormal d m s) (hs : 0 < s)
    (evs evs' : List (PDist × Evidence)) (hp : evs.Perm evs')
    (h : ∀ x ∈ evs, IsLognormal x.1 x.2.mean x.2.sd ∧ x.2.Valid) :
    updateAll ppf d (evs.map fun x => (x.1, x.2.weight)) =
      updateAll ppf d (evs'.map fun x => (x.1, x.2.weight)) := by
  obtain ⟨M, S, h1, h2⟩ := updateAll_lognormal (ppf := ppf) evs d hd hs h
  obtain ⟨M', S', k1, k2⟩ := updateAll_lognormal (ppf := ppf) evs' d hd hs
    (fun x hx => h x (hp.mem_iff.2 hx))
  rw [← normalUpdateAll_perm (hp.map _) hs (by
    intro e he
    obtain ⟨x, hx, rfl⟩ := List.mem_map.1 he
    exact (h x hx).2), h1] at k1
  simp only [Except.ok.injEq, Prod.mk.injEq] at k1
  obtain ⟨rfl, rfl⟩ := k1
  rcases h2 with ⟨rfl, h2⟩ | ⟨hne, f, hf, h2⟩
  · have : evs' = [] := hp.nil_eq.symm
    subst this
    rfl
  · rcases k2 with ⟨rfl, -⟩ | ⟨-, f', hf', k2⟩
    · exact absurd hp.eq_nil hne
    · rw [h2, k2]
      rw [hf] at hf'
      cases hf'
      rfl

/-- **C53**, beta: the parameters add up, the weights are ignored; hence the order does not matter. -/
theorem C53_beta (ppf : ℝ → ℝ) :
    ∀ (evs : List ((ℝ × ℝ) × ℝ)) (a b : ℝ),
      updateAll ppf (.beta a b) (evs.map fun x => (.beta x.1.1 x.1.2, x.2)) =
        .ok (.beta (a + (evs.map fun x => x.1.1).sum) (b + (evs.map fun x => x.1.2).sum))
  | [], a, b => by simp [updateAll]
  | x :: evs, a, b => by
    simp only [List.map_cons, updateAll, update, bind, Except.bind, List.sum_cons]
    rw [C53_beta ppf evs]
    simp only [add_assoc]

/-- **C53**, beta: this is the Bayesian update for `a'` observed successes and `b'` failures: the new
density is proportional to the old one times the likelihood. -/
theorem C53_beta_bayes (ppf : ℝ → ℝ) (a b a' b' w : ℝ) :
    ∃ A B, update ppf (.beta a b) (.beta a' b') w = .ok (.beta A B) ∧
      ∀ θ : ℝ, 0 < θ → θ < 1 → (θ ^ (a - 1) * (1 - θ) ^ (b - 1)) * (θ ^ a' * (1 - θ) ^ b') =
        θ ^ (A - 1) * (1 - θ) ^ (B - 1) := by
  refine ⟨a + a', b + b', rfl, fun θ h0 h1 => ?_⟩
  have h2 : 0 < 1 - θ := by linarith
  rw [show a + a' - 1 = (a - 1) + a' by ring, show b + b' - 1 = (b - 1) + b' by ring,
    Real.rpow_add h0, Real.rpow_add h2]
  ring

/-- One piece of gamma evidence: shape, scale, weight. -/
structure GEvidence where
  shape : ℝ
  scale : ℝ
  weight : ℝ

/-- The evidence makes sense. -/
def GEvidence.Valid (e : GEvidence) : Prop := 0 < e.shape ∧ 0 < e.scale ∧ 0 ≤ e.weight

theorem update_gamma {ppf : ℝ → ℝ} {d x : PDist} {a c : ℝ} (hd : IsGamma d a c) (ha : 0 < a)
    (hc : 0 < c) {e : GEvidence} (hx : IsGamma x e.shape e.scale) (he : e.Valid) :
    ∃ C, update ppf d x e.weight = .ok (.gamma (a + e.shape * e.weight) C none none) ∧ 0 < C ∧
      (a + e.shape * e.weight) / C = a / c + e.shape * e.weight / e.scale := by
  obtain ⟨h1, h2, h3⟩ := he
  obtain ⟨_, _, rfl⟩ := hd
  obtain ⟨_, _, rfl⟩ := hx
  have hA : 0 < a + e.shape * e.weight := by positivity
  have hR : 0 < (a * (1 / c) + e.shape * e.weight * (1 / e.scale)) / (a + e.shape * e.weight) := by
    positivity
  refine ⟨1 / ((a * (1 / c) + e.shape * e.weight * (1 / e.scale)) / (a + e.shape * e.weight)), ?_,
    by positivity, ?_⟩
  · simp only [update, pyDiv, if_neg hc.ne', if_neg h2.ne', if_neg hA.ne', if_neg hR.ne', bind,
      Except.bind]
  · rw [div_div_eq_mul_div, div_one, mul_div_cancel₀ _ hA.ne']
    ring

/-- **C53**, gamma: the (weighted) shapes add up, and so does shape times rate, so that the rate is the
shape-weighted mean of the rates. -/
theorem C53_gamma (ppf : ℝ → ℝ) :
    ∀ (evs : List (PDist × GEvidence)) (d : PDist) (a c : ℝ), IsGamma d a c → 0 < a → 0 < c →
      (∀ x ∈ evs, IsGamma x.1 x.2.shape x.2.scale ∧ x.2.Valid) →
      ∃ post A C, updateAll ppf d (evs.map fun x => (x.1, x.2.weight)) = .ok post ∧
        IsGamma post A C ∧ (evs ≠ [] → post = .gamma A C none none) ∧ 0 < A ∧ 0 < C ∧
        A = a + (evs.map fun x => x.2.shape * x.2.weight).sum ∧
        A * (1 / C) = a * (1 / c) + (evs.map fun x => x.2.shape * x.2.weight * (1 / x.2.scale)).sum
  | [], d, a, c, hd, ha, hc, _ => ⟨d, a, c, rfl, hd, by simp, ha, hc, by simp, by simp⟩
  | x :: evs, d, a, c, hd, ha, hc, h => by
    obtain ⟨hx, hv⟩ := h x (by simp)
    obtain ⟨C1, h1, h2, h3⟩ := update_gamma (ppf := ppf) hd ha hc hx hv
    have hA1 : 0 < a + x.2.shape * x.2.weight := by
      have := hv.1; have := hv.2.2; positivity
    obtain ⟨post, A, C, k1, k2, k3, k4, k5, k6, k7⟩ := C53_gamma ppf evs
      (.gamma (a + x.2.shape * x.2.weight) C1 none none) _ _ ⟨none, none, rfl⟩ hA1 h2
      (fun y hy => h y (by simp [hy]))
    refine ⟨post, A, C, ?_, k2, ?_, k4, k5, ?_, ?_⟩
    · simp only [List.map_cons, updateAll, h1, bind, Except.bind]
      exact k1
    · intro _
      by_cases hev : evs = []
      · subst hev
        simp only [List.map_nil, updateAll, Except.ok.injEq, List.sum_nil, add_zero] at k1 k6
        obtain ⟨lc, rc, hg⟩ := k2
        rw [hg] at k1
        cases k1
        exact hg
      · exact k3 hev
    · rw [k6, List.map_cons, List.sum_cons]; ring
    · rw [k7, List.map_cons, List.sum_cons, mul_one_div, h3]; ring

/-- **C53**, gamma: the order of the evidence does not matter. -/
theorem C53_gamma_order (ppf : ℝ → ℝ) (evs evs' : List (PDist × GEvidence)) (hp : evs.Perm evs')
    (d : PDist) (a c : ℝ) (hd : IsGamma d a c) (ha : 0 < a) (hc : 0 < c)
    (h : ∀ x ∈ evs, IsGamma x.1 x.2.shape x.2.scale ∧ x.2.Valid) :
    updateAll ppf d (evs.map fun x => (x.1, x.2.weight)) =
      updateAll ppf d (evs'.map fun x => (x.1, x.2.weight)) := by
  by_cases hev : evs = []
  · subst hev
    have : evs' = [] := hp.nil_eq.symm
    subst this
    rfl
  · have hev' : evs' ≠ [] := fun h' => hev (by subst h'; exact hp.eq_nil)
    obtain ⟨post, A, C, k1, -, k3, k4, k5, k6, k7⟩ := C53_gamma ppf evs d a c hd ha hc h
    obtain ⟨post', A', C', l1, -, l3, l4, l5, l6, l7⟩ := C53_gamma ppf evs' d a c hd ha hc
      (fun x hx => h x (hp.mem_iff.2 hx))
    have hA : A = A' := by rw [k6, l6, (hp.map _).sum_eq]
    subst hA
    have hC : 1 / C = 1 / C' := by
      have : A * (1 / C) = A * (1 / C') := by rw [k7, l7, (hp.map _).sum_eq]
      exact mul_left_cancel₀ k4.ne' this
    have hC' : C = C' := by
      have := congrArg (fun x => 1 / x) hC
      simpa using this
    rw [k1, l1, k3 hev, l3 hev', hC']

/-- The four kinds that can be updated. -/
inductive Kind where
  | norm | lognorm | beta | gamma
  deriving DecidableEq

/-- The kind of a distribution, if it is one of the four. -/
def PDist.kind : PDist → Option Kind
  | .norm _ _ _ => some .norm
  | .lognorm _ _ _ => some .lognorm
  | .beta _ _ => some .beta
  | .gamma _ _ _ _ => some .gamma
  | .other _ => none

/-- **C53**: different kinds, or kinds other than the four, raise ValueError; and a successful update has
the kind of its arguments. -/
theorem C53_kinds (ppf : ℝ → ℝ) (prior evidence : PDist) (w : ℝ) :
    (prior.kind ≠ evidence.kind ∨ prior.kind = none →
      update ppf prior evidence w = .error .valueError) ∧
    (∀ post, update ppf prior evidence w = .ok post →
      post.kind = prior.kind ∧ prior.kind = evidence.kind ∧ prior.kind ≠ none) := by
  constructor
  · intro h
    cases prior <;> cases evidence <;> simp [PDist.kind] at h <;> rfl
  · intro post h
    cases prior with
    | norm p lc rc =>
      cases evidence with
      | norm e lc' rc' =>
        simp only [update] at h
        split at h
        · rename_i pm ps em es _ _ _ _
          cases hn : normalUpdate pm ps em es w with
          | error e => rw [hn] at h; simp [bind, Except.bind] at h
          | ok r =>
            rw [hn] at h
            simp [bind, Except.bind, normalInit, outOfOrder] at h
            rw [← h]
            simp [PDist.kind]
        · cases h
      | _ => simp [update] at h
    | lognorm p lc rc =>
      cases evidence with
      | lognorm e lc' rc' =>
        simp only [update] at h
        split at h
        · rename_i pm ps em es _ _ _ _
          cases hn : normalUpdate pm ps em es w with
          | error e => rw [hn] at h; simp [bind, Except.bind] at h
          | ok r =>
            obtain ⟨x, y, hl⟩ := lognormInit_params ppf r.1 r.2
            rw [hn] at h
            simp only [bind, Except.bind, hl, Except.ok.injEq] at h
            rw [← h]
            simp [PDist.kind]
        · cases h
      | _ => simp [update] at h
    | beta a b =>
      cases evidence with
      | beta a' b' =>
        simp only [update, Except.ok.injEq] at h
        rw [← h]
        simp [PDist.kind]
      | _ => simp [update] at h
    | gamma a b lc rc =>
      cases evidence with
      | gamma a' b' lc' rc' =>
        simp only [update] at h
        obtain ⟨x1, -, h⟩ := Except.bind_ok_iff.1 h
        obtain ⟨x2, -, h⟩ := Except.bind_ok_iff.1 h
        obtain ⟨x3, -, h⟩ := Except.bind_ok_iff.1 h
        obtain ⟨x4, -, h⟩ := Except.bind_ok_iff.1 h
        cases h
        simp [PDist.kind]
      | _ => simp [update] at h
    | other c => simp [update] at h

/-! ## C79 -/

/-- The mean of a distribution object, as the theory of the four families has it. -/
noncomputable def PDist.expectation : PDist → Option ℝ
  | .norm f _ _ => f.mean
  | .lognorm f _ _ => do
    let m ← f.normMean
    let s ← f.normSd
    some (Real.exp (m + s ^ 2 / 2))
  | .beta a b => some (a / (a + b))
  | .gamma shape scale _ _ => some (shape * scale)
  | .other _ => none

/-- **C79** for normal distributions. -/
theorem C79_between_normal_partial (ppf : ℝ → ℝ) (d e : PDist) (m s em es w : ℝ)
    (hd : IsNormal d m s) (hs : 0 < s) (he : IsNormal e em es) (hes : 0 < es) (hw : 0 ≤ w) :
    ∃ post M, update ppf d e w = .ok post ∧ post.expectation = some M ∧ min m em ≤ M ∧ M ≤ max m em := by
  obtain ⟨post, M, S, h1, ⟨lc, rc, rfl⟩, h3, h4, -, -⟩ := C52_between ppf d m s hd hs
    [(e, ⟨em, es, w⟩)] (by
      intro x hx
      simp only [List.mem_cons, List.not_mem_nil, or_false] at hx
      subst hx
      exact ⟨he, hes, hw⟩) (min m em) (max m em) ⟨min_le_left _ _, le_max_left _ _⟩ (by
      intro x hx
      simp only [List.mem_cons, List.not_mem_nil, or_false] at hx
      subst hx
      exact ⟨min_le_right _ _, le_max_right _ _⟩)
  refine ⟨.norm ⟨some M, some S⟩ lc rc, M, ?_, rfl, h3, h4⟩
  simp only [List.map_cons, List.map_nil, updateAll] at h1
  obtain ⟨x, hx, hy⟩ := Except.bind_ok_iff.1 h1
  cases hy
  exact hx

/-- **C79** for beta distributions. -/
theorem C79_between_beta_partial (ppf : ℝ → ℝ) (a b a' b' w : ℝ) (ha : 0 < a) (hb : 0 < b) (ha' : 0 < a')
    (hb' : 0 < b') :
    ∃ post M, update ppf (.beta a b) (.beta a' b') w = .ok post ∧ post.expectation = some M ∧
      min (a / (a + b)) (a' / (a' + b')) ≤ M ∧ M ≤ max (a / (a + b)) (a' / (a' + b')) := by
  refine ⟨_, _, rfl, rfl, ?_, ?_⟩
  · rcases le_total (a / (a + b)) (a' / (a' + b')) with h | h
    · rw [min_eq_left h]
      rw [div_le_div_iff₀ (by positivity) (by positivity)] at h ⊢
      nlinarith
    · rw [min_eq_right h]
      rw [div_le_div_iff₀ (by positivity) (by positivity)] at h ⊢
      nlinarith
  · rcases le_total (a / (a + b)) (a' / (a' + b')) with h | h
    · rw [max_eq_right h]
      rw [div_le_div_iff₀ (by positivity) (by positivity)] at h ⊢
      nlinarith
    · rw [max_eq_left h]
      rw [div_le_div_iff₀ (by positivity) (by positivity)] at h ⊢
      nlinarith

/-- **C79 fails** for gamma distributions: updating any gamma distribution with itself doubles the mean. -/
theorem C79_between_gamma_fails (ppf : ℝ → ℝ) (shape scale : ℝ) (h1 : 0 < shape) (h2 : 0 < scale) :
    ∃ post, update ppf (.gamma shape scale none none) (.gamma shape scale none none) 1 = .ok post ∧
      post.expectation = some (2 * (shape * scale)) ∧ shape * scale < 2 * (shape * scale) := by
  obtain ⟨C, h, hC, h3⟩ := update_gamma (ppf := ppf) ⟨none, none, rfl⟩ h1 h2
    (e := ⟨shape, scale, 1⟩) ⟨none, none, rfl⟩ ⟨h1, h2, zero_le_one⟩
  refine ⟨_, h, ?_, ?_⟩
  · simp only [PDist.expectation, Option.some.injEq]
    have : C = scale := by
      simp only [mul_one] at h3
      field_simp at h3
      nlinarith
    rw [this]
    ring
  · have : 0 < shape * scale := by positivity
    linarith

/-- **C79 fails** for lognormal distributions: updating any lognormal distribution with itself makes the
mean smaller. -/
theorem C79_between_lognormal_fails (ppf : ℝ → ℝ) (m s : ℝ) (hs : 0 < s) (d : PDist)
    (hd : IsLognormal d m s) :
    ∃ post M M', update ppf d d 1 = .ok post ∧ d.expectation = some M ∧ post.expectation = some M' ∧
      M' < M := by
  obtain ⟨M, S, h1, h2, h3, h4⟩ := normalUpdate_valid (m := m) hs (e := ⟨m, s, 1⟩) ⟨hs, zero_le_one⟩
  simp only [Evidence.precision, one_mul] at h1 h3 h4
  obtain ⟨x, y, hl⟩ := lognormInit_params ppf M S
  obtain ⟨a, b, c, d', rfl⟩ := hd
  refine ⟨.lognorm ⟨some M, some S, x, y⟩ none none, _, _, ?_, rfl, rfl, ?_⟩
  · simp only [update, h1, bind, Except.bind, hl]
  · apply Real.exp_lt_exp.2
    have hs2 : 0 < 1 / s ^ 2 := by positivity
    have hM : M = m := by
      have : M * (1 / S ^ 2) = m * (1 / S ^ 2) := by rw [h4, h3]; ring
      exact mul_right_cancel₀ (by positivity) this
    have hS : S ^ 2 < s ^ 2 := by
      apply (one_div_lt_one_div (by positivity) (by positivity)).1
      rw [h3]; linarith
    rw [hM]
    linarith

/-! ## C54 -/

/-- **C54**: with a positive denominator the result is a probability. -/
theorem C54_range (l l' p : ℝ) (hl : 0 ≤ l) (hl' : 0 ≤ l') (hp : 0 ≤ p ∧ p ≤ 1)
    (hd : l * p + l' * (1 - p) ≠ 0) :
    ∃ q, simpleBayes l l' p = .ok q ∧ 0 ≤ q ∧ q ≤ 1 := by
  have h1 : 0 ≤ l * p := mul_nonneg hl hp.1
  have h2 : 0 ≤ l' * (1 - p) := mul_nonneg hl' (by linarith [hp.2])
  have h3 : 0 < l * p + l' * (1 - p) := lt_of_le_of_ne (by linarith) (Ne.symm hd)
  refine ⟨_, by rw [simpleBayes, pyDiv, if_neg hd], by positivity, ?_⟩
  rw [div_le_one h3]
  linarith

/-- **C54**: posterior odds are the likelihood ratio times the prior odds. -/
theorem C54_odds (l l' p : ℝ) (hl : 0 ≤ l) (hl' : 0 < l') (hp : 0 ≤ p) (hp1 : p < 1) :
    ∃ q, simpleBayes l l' p = .ok q ∧ q < 1 ∧ q / (1 - q) = l / l' * (p / (1 - p)) := by
  have h1 : 0 ≤ l * p := mul_nonneg hl hp
  have h2 : 0 < 1 - p := by linarith
  have h3 : 0 < l' * (1 - p) := by positivity
  have hd : 0 < l * p + l' * (1 - p) := by linarith
  have hq : 1 - l * p / (l * p + l' * (1 - p)) = l' * (1 - p) / (l * p + l' * (1 - p)) := by
    field_simp
    ring
  refine ⟨_, by rw [simpleBayes, pyDiv, if_neg hd.ne'], ?_, ?_⟩
  · rw [div_lt_one hd]; linarith
  · rw [hq]
    field_simp

/-- **C54**: a larger prior gives a larger posterior. -/
theorem C54_monotone (l l' p p' : ℝ) (hl : 0 ≤ l) (hl' : 0 ≤ l') (hp : 0 ≤ p) (hpp : p ≤ p')
    (hp' : p' ≤ 1) (hd : l * p + l' * (1 - p) ≠ 0) (hd' : l * p' + l' * (1 - p') ≠ 0) :
    ∃ q q', simpleBayes l l' p = .ok q ∧ simpleBayes l l' p' = .ok q' ∧ q ≤ q' := by
  have pos : ∀ x, 0 ≤ x → x ≤ 1 → l * x + l' * (1 - x) ≠ 0 → 0 < l * x + l' * (1 - x) := by
    intro x h0 h1 h2
    have h3 : 0 ≤ l * x := mul_nonneg hl h0
    have h4 : 0 ≤ l' * (1 - x) := mul_nonneg hl' (by linarith)
    exact lt_of_le_of_ne (by linarith) (Ne.symm h2)
  have h1 := pos p hp (by linarith) hd
  have h2 := pos p' (by linarith) hp' hd'
  refine ⟨_, _, by rw [simpleBayes, pyDiv, if_neg hd], by rw [simpleBayes, pyDiv, if_neg hd'], ?_⟩
  rw [div_le_div_iff₀ h1 h2]
  have : 0 ≤ l * l' * (p' - p) := by
    have := mul_nonneg hl hl'
    exact mul_nonneg this (by linarith)
  nlinarith

/-- **C54**: two updates in a row are one update with the products of the likelihoods, whether or not the
second one raises. -/
theorem C54_sequential (l l' k k' p q : ℝ) (h : simpleBayes l l' p = .ok q) :
    simpleBayes k k' q = simpleBayes (l * k) (l' * k') p := by
  unfold simpleBayes pyDiv at h ⊢
  split_ifs at h with hd
  simp only [Except.ok.injEq] at h
  subst h
  have e1 : 1 - l * p / (l * p + l' * (1 - p)) = l' * (1 - p) / (l * p + l' * (1 - p)) := by
    field_simp
    ring
  have e2 : k * (l * p / (l * p + l' * (1 - p))) + k' * (1 - l * p / (l * p + l' * (1 - p))) =
      (l * k * p + l' * k' * (1 - p)) / (l * p + l' * (1 - p)) := by
    rw [e1]; field_simp
  rw [e2]
  by_cases hz : l * k * p + l' * k' * (1 - p) = 0
  · rw [if_pos (by rw [hz, zero_div]), if_pos hz]
  · rw [if_neg (div_ne_zero hz hd), if_neg hz]
    congr 1
    field_simp

/-- **C54**: it is Bayes' rule: on every probability space, for every hypothesis `H` and evidence `A` for
which the conditional probabilities are defined. -/
theorem C54_bayes_rule {Ω : Type} [MeasurableSpace Ω] (μ : Measure Ω) [IsProbabilityMeasure μ]
    (H A : Set Ω) (hH : MeasurableSet H) (hA : MeasurableSet A) (h0 : μ H ≠ 0) (h1 : μ Hᶜ ≠ 0)
    (h2 : μ A ≠ 0) :
    simpleBayes (μ[|H].real A) (μ[|Hᶜ].real A) (μ.real H) = .ok (μ[|A].real H) := by
  have r0 : μ.real H ≠ 0 := (measureReal_ne_zero_iff).2 h0
  have r1 : μ.real Hᶜ ≠ 0 := (measureReal_ne_zero_iff).2 h1
  have r2 : μ.real A ≠ 0 := (measureReal_ne_zero_iff).2 h2
  have c1 : μ[|H].real A = μ.real (H ∩ A) / μ.real H := by
    rw [Measure.real, cond_apply hH, ENNReal.toReal_mul, ENNReal.toReal_inv, inv_mul_eq_div]; rfl
  have c2 : μ[|Hᶜ].real A = μ.real (Hᶜ ∩ A) / μ.real Hᶜ := by
    rw [Measure.real, cond_apply hH.compl, ENNReal.toReal_mul, ENNReal.toReal_inv, inv_mul_eq_div]; rfl
  have c3 : μ[|A].real H = μ.real (A ∩ H) / μ.real A := by
    rw [Measure.real, cond_apply hA, ENNReal.toReal_mul, ENNReal.toReal_inv, inv_mul_eq_div]; rfl
  have c4 : 1 - μ.real H = μ.real Hᶜ := by rw [probReal_compl_eq_one_sub hH]
  have c5 : μ.real (H ∩ A) + μ.real (Hᶜ ∩ A) = μ.real A := by
    rw [Set.inter_comm H, Set.inter_comm Hᶜ, ← Set.sdiff_eq]
    exact measureReal_inter_add_sdiff hH
  rw [simpleBayes, c1, c2, c4, div_mul_cancel₀ _ r0, div_mul_cancel₀ _ r1, c5, pyDiv, if_neg r2, c3,
    Set.inter_comm]

/-- The example of the documentation. -/
example : ∃ q, simpleBayes 0.8 0.096 0.01 = .ok q ∧ 0.0776 < q ∧ q < 0.0777 := by
  refine ⟨_, by rw [simpleBayes, pyDiv, if_neg (by norm_num)], ?_, ?_⟩ <;> norm_num

/-- The hypotheses of `C54_bayes_rule` are met by a fair coin. -/
example : ∃ (μ : Measure Bool) (_ : IsProbabilityMeasure μ) (H A : Set Bool), MeasurableSet H ∧
    MeasurableSet A ∧ μ H ≠ 0 ∧ μ Hᶜ ≠ 0 ∧ μ A ≠ 0 := by
  refine ⟨(1 / 2 : ENNReal) • Measure.dirac true + (1 / 2 : ENNReal) • Measure.dirac false, ⟨?_⟩,
    {true}, Set.univ, trivial, trivial, ?_, ?_, ?_⟩
  · simp [ENNReal.inv_two_add_inv_two]
  · simp
  · simp
  · simp [ENNReal.inv_two_add_inv_two]

/-! ## C80 -/

variable {K : Type} [Field K] [LinearOrder K] [IsStrictOrderedRing K] {α : Type}

/-- **C80**: by default both distributions get weight one half; a weight `w` in `[0,1)` goes to the prior
and the rest to the evidence; two weights are used as given (within the tolerance). -/
theorem C80_average (prior evidence : α) :
    averageDists (K := K) prior evidence = .ok ([1 / 2, 1 / 2], [.plain prior, .plain evidence]) ∧
    (∀ w : K, 0 ≤ w → w < 1 → averageDists prior evidence (.num w) =
      if w = 0 then .ok ([1], [.plain evidence])
      else .ok ([w, 1 - w], [.plain prior, .plain evidence])) ∧
    (∀ w v : K, 0 < w → 0 < v → w + v = 1 → averageDists prior evidence (.list [some w, some v]) =
      .ok ([w, v], [.plain prior, .plain evidence])) ∧
    (∀ r q : K, 0 < r → 0 < q → averageDists prior evidence .absent (.list [some r, some q]) =
      .ok ([r / (r + q), q / (r + q)], [.plain prior, .plain evidence])) := by
  have h2 : ∀ w v : K, 0 < w → 0 < v → w + v = 1 →
      averageDists prior evidence (.list [some w, some v]) =
        .ok ([w, v], [.plain prior, .plain evidence]) := by
    intro w v hw hv hs
    have := C01_weights_decision (fun _ : α => false) [w, v] [prior, evidence]
      (.list [some w, some v]) (by simp [weightForms]) rfl (by simp) false (by simp)
    have hacc : Acceptable [w, v] := by
      refine ⟨?_, ?_, ?_⟩
      · intro x hx
        simp only [List.mem_cons, List.not_mem_nil, or_false] at hx
        rcases hx with rfl | rfl
        · exact hw.le
        · exact hv.le
      · simp only [List.sum_cons, List.sum_nil, add_zero, hs]; norm_num
      · simp only [List.sum_cons, List.sum_nil, add_zero, hs]; norm_num
    rw [if_pos hacc] at this
    simp only [averageDists, mixtureInit]
    simp only [List.map_cons, List.map_nil] at this
    rw [this]
    simp [nonzeroPairs, hw.ne', hv.ne']
  refine ⟨h2 _ _ (by norm_num) (by norm_num) (by norm_num), ?_, h2, ?_⟩
  · intro w h0 h1
    exact C03_single_number (fun _ : α => false) w prior evidence h0 h1
  · intro r q hr hq
    have := C02_relative_decision (fun _ : α => false) [r, q] [prior, evidence]
      (.list [some r, some q]) (by simp [weightForms]) rfl (by simp) false (by simp)
    have hsum : 0 < r + q := by linarith
    simp only [averageDists, mixtureInit]
    simp only [List.map_cons, List.map_nil] at this
    rw [this]
    simp only [List.sum_cons, List.sum_nil, add_zero, if_neg hsum.ne']
    rw [if_pos]
    · simp [nonzeroPairs, hr.ne', hq.ne']
    · intro x hx
      simp only [List.mem_cons, List.not_mem_nil, or_false] at hx
      rcases hx with rfl | rfl <;> positivity

/-- **C80 fails** for `relative_weights`: with `weights` left at its default every call that passes
`relative_weights` raises ValueError. -/
theorem C80_relative_fails (prior evidence : α) (r : WArg K) (hr : r.isAbsent = false) :
    averageDists (K := K) prior evidence (relativeWeights := r) = .error .valueError :=
  (C01_refused (fun _ : α => false) false).1 _ _ _ rfl hr

end Verif
