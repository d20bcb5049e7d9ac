import Verif.Props.Update

/-!
# C125: what `evidence_weight` means

`updateAll ppf prior [(e, w₁), …, (e, wₖ)]` is calling `update` with the same evidence `e` again and again, with
weights `w₁, …, wₖ`.
-/

namespace Verif

theorem sum_map_mul_const {c : ℝ} : ∀ ws : List ℝ, (ws.map fun w => w * c).sum = ws.sum * c
  | [] => by simp
  | w :: ws => by simp [sum_map_mul_const ws, add_mul]

/-- The formula for normal distributions, applied with the weights one after the other or all at once. -/
theorem normalUpdateAll_weights {m s em es : ℝ} (hs : 0 < s) (hes : 0 < es) (ws : List ℝ)
    (hw : ∀ w ∈ ws, 0 ≤ w) :
    normalUpdateAll m s (ws.map fun w => ⟨em, es, w⟩) = normalUpdate m s em es ws.sum := by
  have hsum : 0 ≤ ws.sum := List.sum_nonneg hw
  obtain ⟨M, S, h1, h2, h3, h4⟩ := normalUpdate_valid (m := m) hs (e := ⟨em, es, ws.sum⟩) ⟨hes, hsum⟩
  obtain ⟨M', S', k1, k2, k3, k4⟩ := normalUpdateAll_valid (ws.map fun w => (⟨em, es, w⟩ : Evidence))
    (m := m) hs (by
      intro e he
      obtain ⟨w, hw', rfl⟩ := List.mem_map.1 he
      exact ⟨hes, hw w hw'⟩)
  have e1 : ((ws.map fun w => (⟨em, es, w⟩ : Evidence)).map Evidence.precision).sum
      = Evidence.precision ⟨em, es, ws.sum⟩ := by
    rw [List.map_map]
    exact sum_map_mul_const (c := 1 / es ^ 2) ws
  have e2 : ((ws.map fun w => (⟨em, es, w⟩ : Evidence)).map fun e => e.precision * e.mean).sum
      = Evidence.precision ⟨em, es, ws.sum⟩ * em := by
    rw [List.map_map]
    have : ((fun e : Evidence => e.precision * e.mean) ∘ fun w => (⟨em, es, w⟩ : Evidence))
        = fun w => w * (1 / es ^ 2 * em) := by
      funext w
      simp only [Function.comp, Evidence.precision]
      ring
    rw [this, sum_map_mul_const, Evidence.precision]
    ring
  have hS : S = S' := inv_sq_inj h2 k2 (by rw [h3, k3, e1])
  subst hS
  have hM : M = M' := by
    have : M * (1 / S ^ 2) = M' * (1 / S ^ 2) := by rw [h4, k4, e2]
    exact mul_right_cancel₀ (by positivity) this
  rw [k1, ← hM]
  exact h1.symm

/-- **C125**, normal distributions: using the same evidence again and again, with weights `w₁, …, wₖ`, is using it
once with weight `w₁ + … + wₖ`. -/
theorem C125_normal (ppf : ℝ → ℝ) (d e : PDist) (m s em es : ℝ) (hd : IsNormal d m s) (hs : 0 < s)
    (he : IsNormal e em es) (hes : 0 < es) (ws : List ℝ) (hne : ws ≠ []) (hw : ∀ w ∈ ws, 0 ≤ w) :
    updateAll ppf d (ws.map fun w => (e, w)) = update ppf d e ws.sum := by
  obtain ⟨M, S, h1, h2⟩ := updateAll_normal (ppf := ppf) (ws.map fun w => (e, (⟨em, es, w⟩ : Evidence))) d hd hs
    (by
      intro x hx
      obtain ⟨w, hw', rfl⟩ := List.mem_map.1 hx
      exact ⟨he, hes, hw w hw'⟩)
  simp only [List.map_map] at h1 h2
  have h1' : normalUpdate m s em es ws.sum = .ok (M, S) := by
    rw [← normalUpdateAll_weights hs hes ws hw]
    exact h1
  rw [update_normal hd he h1']
  rcases h2 with ⟨h, -⟩ | ⟨-, h⟩
  · exact absurd (List.map_eq_nil_iff.1 h) hne
  · exact h

/-- **C125**, lognormal distributions: the same. -/
theorem C125_lognormal (ppf : ℝ → ℝ) (d e : PDist) (m s em es : ℝ) (hd : IsLognormal d m s) (hs : 0 < s)
    (he : IsLognormal e em es) (hes : 0 < es) (ws : List ℝ) (hne : ws ≠ []) (hw : ∀ w ∈ ws, 0 ≤ w) :
    updateAll ppf d (ws.map fun w => (e, w)) = update ppf d e ws.sum := by
  obtain ⟨M, S, h1, h2⟩ := updateAll_lognormal (ppf := ppf) (ws.map fun w => (e, (⟨em, es, w⟩ : Evidence))) d hd
    hs (by
      intro x hx
      obtain ⟨w, hw', rfl⟩ := List.mem_map.1 hx
      exact ⟨he, hes, hw w hw'⟩)
  simp only [List.map_map] at h1 h2
  have h1' : normalUpdate m s em es ws.sum = .ok (M, S) := by
    rw [← normalUpdateAll_weights hs hes ws hw]
    exact h1
  rcases h2 with ⟨h, -⟩ | ⟨-, f, hf, h⟩
  · exact absurd (List.map_eq_nil_iff.1 h) hne
  · have hu : update ppf d e ws.sum = .ok (.lognorm f none none) := by
      obtain ⟨a, b, c, d', rfl⟩ := hd
      obtain ⟨a', b', c', d'', rfl⟩ := he
      simp only [update, h1', bind, Except.bind, hf]
    rw [hu]
    exact h

/-- **C125**, gamma distributions: the same. -/
theorem C125_gamma (ppf : ℝ → ℝ) (d e : PDist) (a c ea ec : ℝ) (hd : IsGamma d a c) (ha : 0 < a) (hc : 0 < c)
    (he : IsGamma e ea ec) (hea : 0 < ea) (hec : 0 < ec) (ws : List ℝ) (hne : ws ≠ [])
    (hw : ∀ w ∈ ws, 0 ≤ w) :
    updateAll ppf d (ws.map fun w => (e, w)) = update ppf d e ws.sum := by
  have hsum : 0 ≤ ws.sum := List.sum_nonneg hw
  obtain ⟨post, A, C, k1, -, k3, k4, k5, k6, k7⟩ := C53_gamma ppf
    (ws.map fun w => (e, (⟨ea, ec, w⟩ : GEvidence))) d a c hd ha hc (by
      intro x hx
      obtain ⟨w, hw', rfl⟩ := List.mem_map.1 hx
      exact ⟨he, hea, hec, hw w hw'⟩)
  obtain ⟨C', l1, l2, l3⟩ := update_gamma (ppf := ppf) hd ha hc (e := ⟨ea, ec, ws.sum⟩) he ⟨hea, hec, hsum⟩
  simp only [List.map_map] at k1 k6 k7
  have hA : A = a + ea * ws.sum := by
    rw [k6]
    have := sum_map_mul_const (c := ea) ws
    rw [mul_comm ea, ← this]
    congr 2
    apply List.map_congr_left
    intro w _
    exact mul_comm _ _
  have hq : A * (1 / C) = A * (1 / C') := by
    rw [k7, hA, mul_one_div (a + ea * ws.sum), l3]
    have := sum_map_mul_const (c := ea * (1 / ec)) ws
    rw [show ea * ws.sum / ec = ws.sum * (ea * (1 / ec)) by ring, ← this, mul_one_div]
    congr 2
    apply List.map_congr_left
    intro w _
    simp only [Function.comp]
    ring
  have hC : C = C' := by
    have := congrArg (fun x => 1 / x) (mul_left_cancel₀ k4.ne' hq)
    simpa using this
  rw [l1, ← hA, ← hC]
  have := k3 (by simpa using hne)
  rw [this] at k1
  exact k1

/-- **C125**, weight 0: the evidence has no effect (lognormal and gamma distributions; normal distributions are
`C52_weight_zero`). The bounds of the prior are dropped. -/
theorem C125_weight_zero (ppf : ℝ → ℝ) (d e : PDist) :
    (∀ m s em es, IsLognormal d m s → 0 < s → IsLognormal e em es → 0 < es →
      ∃ post, update ppf d e 0 = .ok post ∧ IsLognormal post m s) ∧
    (∀ a c ea ec, IsGamma d a c → 0 < a → 0 < c → IsGamma e ea ec → 0 < ea → 0 < ec →
      update ppf d e 0 = .ok (.gamma a c none none)) := by
  constructor
  · intro m s em es hd hs he hes
    obtain ⟨-, h⟩ := C53_lognormal ppf d e (.norm ⟨some m, some s⟩ none none) (.norm ⟨some em, some es⟩ none none)
      m s em es 0 hd he ⟨_, _, rfl⟩ ⟨_, _, rfl⟩
    obtain ⟨M, S, lpost, h1, h2, h3⟩ := h _ (C52_weight_zero ppf _ _ m s em es ⟨_, _, rfl⟩ hs ⟨_, _, rfl⟩ hes)
    obtain ⟨_, _, h1⟩ := h1
    cases h1
    exact ⟨lpost, h2, h3⟩
  · intro a c ea ec hd ha hc he hea hec
    obtain ⟨C, l1, l2, l3⟩ := update_gamma (ppf := ppf) hd ha hc (e := ⟨ea, ec, 0⟩) he ⟨hea, hec, le_rfl⟩
    simp only [mul_zero, add_zero, zero_div] at l1 l3
    have : C = c := by
      field_simp at l3
      exact l3.symm
    rw [l1, this]

open Filter Topology in
/-- **C125**, large weights: as the weight grows the posterior of a normal prior closes in on the mean of the
evidence and its standard deviation goes to 0. -/
theorem C125_limit (ppf : ℝ → ℝ) (d e : PDist) (m s em es : ℝ) (hd : IsNormal d m s) (hs : 0 < s)
    (he : IsNormal e em es) (hes : 0 < es) :
    ∃ M S : ℝ → ℝ, (∀ w, 0 ≤ w → update ppf d e w = .ok (.norm ⟨some (M w), some (S w)⟩ none none)) ∧
      Tendsto M atTop (𝓝 em) ∧ Tendsto S atTop (𝓝 0) := by
  have key : ∀ w : ℝ, ∃ p : ℝ × ℝ, 0 ≤ w → update ppf d e w = .ok (.norm ⟨some p.1, some p.2⟩ none none) ∧
      0 < p.2 ∧ 1 / p.2 ^ 2 = 1 / s ^ 2 + w * (1 / es ^ 2) ∧
      p.1 * (1 / p.2 ^ 2) = m * (1 / s ^ 2) + w * (1 / es ^ 2) * em := by
    intro w
    by_cases hw : 0 ≤ w
    · obtain ⟨M, S, h1, h2, h3, h4⟩ := normalUpdate_valid (m := m) hs (e := ⟨em, es, w⟩) ⟨hes, hw⟩
      exact ⟨(M, S), fun _ => ⟨update_normal hd he h1, h2, h3, h4⟩⟩
    · exact ⟨(0, 0), fun h => absurd h hw⟩
  choose p hp using key
  have hD : Tendsto (fun w : ℝ => 1 / s ^ 2 + w * (1 / es ^ 2)) atTop atTop :=
    tendsto_atTop_add_const_left _ _ (tendsto_id.atTop_mul_const (by positivity))
  refine ⟨fun w => (p w).1, fun w => (p w).2, fun w hw => (hp w hw).1, ?_, ?_⟩
  · have h0 : Tendsto (fun w : ℝ => em + (m - em) * (1 / s ^ 2) / (1 / s ^ 2 + w * (1 / es ^ 2))) atTop
        (𝓝 (em + 0)) := tendsto_const_nhds.add (tendsto_const_nhds.div_atTop hD)
    rw [add_zero] at h0
    refine h0.congr' ?_
    filter_upwards [eventually_ge_atTop (0 : ℝ)] with w hw
    obtain ⟨-, h2, h3, h4⟩ := hp w hw
    rw [h3] at h4
    have hpos : 0 < 1 / s ^ 2 + w * (1 / es ^ 2) := by positivity
    rw [eq_comm, ← mul_left_inj' hpos.ne', h4, add_mul, div_mul_cancel₀ _ hpos.ne']
    ring
  · have h0 : Tendsto (fun w : ℝ => Real.sqrt (1 / (1 / s ^ 2 + w * (1 / es ^ 2)))) atTop (𝓝 0) := by
      have := (Real.continuous_sqrt.tendsto 0).comp (tendsto_const_nhds (x := (1 : ℝ)).div_atTop hD)
      rw [Real.sqrt_zero] at this
      exact this
    refine h0.congr' ?_
    filter_upwards [eventually_ge_atTop (0 : ℝ)] with w hw
    obtain ⟨-, h2, h3, -⟩ := hp w hw
    rw [← h3, one_div_one_div, Real.sqrt_sq h2.le]

/-- **C125** fails for beta distributions, where the weight is ignored: evidence of weight 0 changes every prior,
and using the evidence twice is never the same as using it once with weight 2. -/
theorem C125_beta_fails (ppf : ℝ → ℝ) (a b a' b' : ℝ) (ha' : 0 < a') :
    (∃ post, update ppf (.beta a b) (.beta a' b') 0 = .ok post ∧ post ≠ .beta a b) ∧
    updateAll ppf (.beta a b) [(.beta a' b', 1), (.beta a' b', 1)] ≠
      update ppf (.beta a b) (.beta a' b') (1 + 1) := by
  refine ⟨⟨_, rfl, ?_⟩, ?_⟩
  · intro h
    simp only [PDist.beta.injEq] at h
    linarith [h.1]
  · intro h
    simp only [updateAll, update, bind, Except.bind, Except.ok.injEq, PDist.beta.injEq] at h
    linarith [h.1]

/-- What holds for beta distributions: using evidence `k` times is using evidence with `k`-fold parameters once. -/
theorem C125_beta_partial (ppf : ℝ → ℝ) (a b a' b' w : ℝ) (ws : List ℝ) :
    updateAll ppf (.beta a b) (ws.map fun w => (.beta a' b', w)) =
      .ok (.beta (a + ws.length * a') (b + ws.length * b')) ∧
    update ppf (.beta a b) (.beta (ws.length * a') (ws.length * b')) w =
      .ok (.beta (a + ws.length * a') (b + ws.length * b')) := by
  refine ⟨?_, rfl⟩
  have := C53_beta ppf (ws.map fun w => ((a', b'), w)) a b
  simp only [List.map_map] at this
  have e : ∀ c : ℝ, (ws.map fun _ => c).sum = ws.length * c := by
    intro c
    rw [List.map_const', List.sum_replicate, nsmul_eq_mul]
  rw [show ((fun x : (ℝ × ℝ) × ℝ => x.1.1) ∘ fun w : ℝ => ((a', b'), w)) = fun _ => a' from rfl,
    show ((fun x : (ℝ × ℝ) × ℝ => x.1.2) ∘ fun w : ℝ => ((a', b'), w)) = fun _ => b' from rfl, e, e] at this
  exact this

/-- A case: three updates with weights 1, 2, 1/2 against one with weight 7/2. -/
example (ppf : ℝ → ℝ) :
    updateAll ppf (.norm ⟨some 0, some 2⟩ none none)
        ([1, 2, 1 / 2].map fun w => (.norm ⟨some 3, some 1⟩ none none, w)) =
      update ppf (.norm ⟨some 0, some 2⟩ none none) (.norm ⟨some 3, some 1⟩ none none) (7 / 2) := by
  rw [C125_normal ppf _ _ 0 2 3 1 ⟨_, _, rfl⟩ (by norm_num) ⟨_, _, rfl⟩ (by norm_num) _ (by simp)
    (by intro w hw; simp only [List.mem_cons, List.not_mem_nil, or_false] at hw
        rcases hw with rfl | rfl | rfl <;> norm_num)]
  congr 1
  norm_num [List.sum_cons]

example (ppf : ℝ → ℝ) :
    updateAll ppf (.gamma 2 1 none none) ([1, 2].map fun w => (.gamma 3 (1 / 2) none none, w)) =
      update ppf (.gamma 2 1 none none) (.gamma 3 (1 / 2) none none) 3 := by
  rw [C125_gamma ppf _ _ 2 1 3 (1 / 2) ⟨_, _, rfl⟩ (by norm_num) (by norm_num) ⟨_, _, rfl⟩ (by norm_num)
    (by norm_num) _ (by simp)
    (by intro w hw; simp only [List.mem_cons, List.not_mem_nil, or_false] at hw
        rcases hw with rfl | rfl <;> norm_num)]
  congr 1
  norm_num [List.sum_cons]

example (ppf : ℝ → ℝ) (f : _) (hf : lognormInit ppf { normMean := some 0, normSd := some 2 } = .ok f) :
    updateAll ppf (.lognorm f none none) ([1, 2].map fun w => (.lognorm f none none, w)) =
      update ppf (.lognorm f none none) (.lognorm f none none) ([1, 2] : List ℝ).sum := by
  obtain ⟨x, y, h⟩ := lognormInit_params ppf 0 2
  rw [h] at hf
  cases hf
  exact C125_lognormal ppf _ _ 0 2 0 2 ⟨_, _, _, _, rfl⟩ (by norm_num) ⟨_, _, _, _, rfl⟩ (by norm_num) _ (by simp)
    (by intro w hw; simp only [List.mem_cons, List.not_mem_nil, or_false] at hw
        rcases hw with rfl | rfl <;> norm_num)

end Verif
