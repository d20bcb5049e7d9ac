import Verif.Props.Odds
import Verif.Props.Update

/-!
# Pooling forecasts with `geomean_odds` (C145)

Two ways to bring new evidence into a pooled forecast: every forecaster updates with `simple_bayes` and
the posteriors are pooled, or the priors are pooled and the pool is updated.  `geomean_odds` gives the
same answer either way, treats an event and its opposite alike, and never falls when a forecaster
becomes more confident.  The plain geometric mean of the probabilities does neither.
-/

namespace Verif
open Verif.Spec

/-- A number below one is determined by its odds. -/
theorem odds_inj {p q : ℝ} (hp : p < 1) (hq : q < 1) (h : p / (1 - p) = q / (1 - q)) : p = q := by
  have h1 : (1 : ℝ) - p ≠ 0 := by linarith
  have h2 : (1 : ℝ) - q ≠ 0 := by linarith
  rw [div_eq_div_iff h1 h2] at h
  linarith

/-- Multiplying all values by `c` multiplies the weighted geometric mean by `c`. -/
theorem wgeo_mul (ws vs : List ℝ) (c : ℝ) (hc : 0 < c) (hpos : ∀ v ∈ vs, 0 < v)
    (hs : ((ws.zip vs).map Prod.fst).sum ≠ 0) : wgeo ws (vs.map (c * ·)) = c * wgeo ws vs := by
  have hpos' : ∀ v ∈ vs.map (c * ·), 0 < v := by
    intro v hv
    obtain ⟨x, hx, rfl⟩ := List.mem_map.1 hv
    exact mul_pos hc (hpos x hx)
  rw [wgeo_eq _ _ hpos', wgeo_eq _ _ hpos, List.zip_map_right, List.map_map, List.map_map]
  have key : ∀ l : List (ℝ × ℝ), (∀ p ∈ l, 0 < p.2) →
      (l.map ((fun p => p.1 * Real.log p.2) ∘ Prod.map id (c * ·))).sum =
        (l.map Prod.fst).sum * Real.log c + (l.map fun p => p.1 * Real.log p.2).sum := by
    intro l
    induction l with
    | nil => intro _; simp
    | cons a l ih =>
      intro h
      have ha := h a (by simp)
      simp only [List.map_cons, List.sum_cons, ih fun p hp => h p (by simp [hp]), Function.comp,
        Prod.map, id, Real.log_mul hc.ne' ha.ne']
      ring
  rw [key _ fun p hp => hpos _ (List.of_mem_zip hp).2]
  have hfst : (ws.zip vs).map (Prod.fst ∘ Prod.map id (c * ·)) = (ws.zip vs).map Prod.fst := by
    simp [Function.comp_def]
  rw [hfst, add_div, mul_div_cancel_left₀ _ hs, Real.exp_add, Real.exp_log hc]

/-- Replacing all values by their inverses inverts the weighted geometric mean. -/
theorem wgeo_inv (ws vs : List ℝ) (hpos : ∀ v ∈ vs, 0 < v) :
    wgeo ws (vs.map (·⁻¹)) = (wgeo ws vs)⁻¹ := by
  have hpos' : ∀ v ∈ vs.map (·⁻¹), 0 < v := by
    intro v hv
    obtain ⟨x, hx, rfl⟩ := List.mem_map.1 hv
    exact inv_pos.2 (hpos x hx)
  rw [wgeo_eq _ _ hpos', wgeo_eq _ _ hpos, List.zip_map_right, List.map_map, List.map_map, ← Real.exp_neg]
  have hfst : (ws.zip vs).map (Prod.fst ∘ Prod.map id (·⁻¹)) = (ws.zip vs).map Prod.fst := by
    simp [Function.comp_def]
  rw [hfst, ← neg_div]
  congr 2
  generalize ws.zip vs = l
  induction l with
  | nil => simp
  | cons a l ih =>
    simp only [List.map_cons, List.sum_cons, ih, Function.comp, Prod.map, id, Real.log_inv]
    ring

/-- The weighted geometric mean grows with the values. -/
theorem wgeo_mono (l : List (ℝ × ℝ × ℝ)) (hw : ∀ t ∈ l, 0 ≤ t.1) (hpos : ∀ t ∈ l, 0 < t.2.1)
    (hle : ∀ t ∈ l, t.2.1 ≤ t.2.2) :
    wgeo (l.map (·.1)) (l.map (·.2.1)) ≤ wgeo (l.map (·.1)) (l.map (·.2.2)) := by
  have hz : ∀ f : ℝ × ℝ × ℝ → ℝ, (l.map (·.1)).zip (l.map f) = l.map fun t => (t.1, f t) := by
    intro f
    rw [List.zip_map']
  rw [wgeo_eq, wgeo_eq, hz, hz, List.map_map, List.map_map, List.map_map, List.map_map]
  · refine Real.exp_le_exp.2 (div_le_div_of_nonneg_right ?_ ?_)
    · refine List.sum_le_sum ?_
      intro t ht
      exact mul_le_mul_of_nonneg_left (Real.log_le_log (hpos t ht) (hle t ht)) (hw t ht)
    · refine List.sum_nonneg ?_
      intro x hx
      obtain ⟨t, ht, rfl⟩ := List.mem_map.1 hx
      exact hw t ht
  · intro v hv
    obtain ⟨t, ht, rfl⟩ := List.mem_map.1 hv
    exact (hpos t ht).trans_le (hle t ht)
  · intro v hv
    obtain ⟨t, ht, rfl⟩ := List.mem_map.1 hv
    exact hpos t ht

theorem reduceOption_map' {α β : Type} (f : α → β) (os : List (Option α)) :
    (os.map (Option.map f)).reduceOption = os.reduceOption.map f := by
  induction os with
  | nil => rfl
  | cons a l ih =>
    cases a with
    | none => simpa [List.reduceOption_cons_of_none] using ih
    | some x => simpa [List.reduceOption_cons_of_some] using ih

theorem mem_map_option {α β : Type} {f : α → β} {os : List (Option α)} {y : β}
    (h : some y ∈ os.map (Option.map f)) : ∃ x, some x ∈ os ∧ f x = y := by
  obtain ⟨o, ho, e⟩ := List.mem_map.1 h
  cases o with
  | none => simp at e
  | some x => exact ⟨x, ho, by simpa using e⟩

/-- What updating does to a probability strictly between 0 and 1. -/
theorem posterior_between {l l' p q : ℝ} (hl : 0 < l) (hl' : 0 < l') (hp : 0 < p ∧ p < 1)
    (h : simpleBayes l l' p = .ok q) : (0 < q ∧ q < 1) ∧ q / (1 - q) = l / l' * (p / (1 - p)) := by
  obtain ⟨q', e, h1, h2⟩ := C54_odds l l' p hl.le hl' hp.1.le hp.2
  rw [h] at e
  obtain rfl := Except.ok.inj e
  refine ⟨⟨?_, h1⟩, h2⟩
  have h3 : 0 < l / l' * (p / (1 - p)) := mul_pos (div_pos hl hl') (div_pos hp.1 (by linarith [hp.2]))
  rw [← h2] at h3
  by_contra hq
  have := div_nonpos_of_nonpos_of_nonneg (not_lt.1 hq) (by linarith : (0 : ℝ) ≤ 1 - q)
  linarith

/-- **C145**: new evidence, of likelihood `l` if the event happens and `l'` if it does not.  If `post p`
is what `simple_bayes` makes of each forecast `p`, then pooling the updated forecasts gives what
`simple_bayes` makes of the pooled forecast; missing forecasts are ignored in both. -/
theorem C145_evidence (os : List (Option ℝ)) (h01 : ∀ p, some p ∈ os → 0 < p ∧ p < 1)
    (h2 : 2 ≤ os.reduceOption.length) (l l' : ℝ) (hl : 0 < l) (hl' : 0 < l') (post : ℝ → ℝ)
    (hpost : ∀ p, some p ∈ os → simpleBayes l l' p = .ok (post p)) :
    ∃ g q, geomeanOdds (.list (os.map .plain)) = .ok g ∧
      geomeanOdds (.list ((os.map (Option.map post)).map .plain)) = .ok q ∧
      simpleBayes l l' g = .ok q := by
  obtain ⟨g, e1, g0, g1, eg⟩ := C57_unweighted_partial os h01 h2
  have hb := fun p hp => posterior_between hl hl' (h01 p hp) (hpost p hp)
  obtain ⟨q, e2, q0, q1, eq⟩ := C57_unweighted_partial (os.map (Option.map post)) (by
    intro y hy
    obtain ⟨x, hx, rfl⟩ := mem_map_option hy
    exact (hb x hx).1) (by rw [reduceOption_map', List.length_map]; exact h2)
  refine ⟨g, q, e1, e2, ?_⟩
  obtain ⟨q', e3, q1', eq'⟩ := C54_odds l l' g hl.le hl' g0.le g1
  rw [e3]
  congr 1
  refine odds_inj q1' q1 ?_
  rw [eq', eg, eq, reduceOption_map', List.length_map, List.map_map]
  have hc : 0 < l / l' := div_pos hl hl'
  have hn : (0 : ℝ) < (os.reduceOption.length : ℝ) := by
    exact_mod_cast (by omega : 0 < os.reduceOption.length)
  have key : ∀ ps : List ℝ, (∀ p ∈ ps, some p ∈ os) →
      (ps.map ((fun p => p / (1 - p)) ∘ post)).prod =
        (l / l') ^ (ps.length : ℝ) * (ps.map fun p => p / (1 - p)).prod ∧
      0 < (ps.map fun p => p / (1 - p)).prod := by
    intro ps
    induction ps with
    | nil => intro _; simp
    | cons a ps ih =>
      intro h
      obtain ⟨i1, i2⟩ := ih fun p hp => h p (by simp [hp])
      have ha := h a (by simp)
      refine ⟨?_, ?_⟩
      · simp only [List.map_cons, List.prod_cons, Function.comp, (hb a ha).2, List.length_cons]
        rw [i1, Nat.cast_add, Real.rpow_add hc, Nat.cast_one, Real.rpow_one]
        ring
      · simp only [List.map_cons, List.prod_cons]
        exact mul_pos (div_pos (h01 a ha).1 (by linarith [(h01 a ha).2])) i2
  obtain ⟨k1, k2⟩ := key os.reduceOption fun p hp => List.reduceOption_mem_iff.1 hp
  rw [k1, Real.mul_rpow (Real.rpow_nonneg hc.le _) k2.le, ← Real.rpow_mul hc.le,
    mul_one_div_cancel hn.ne', Real.rpow_one]

/-- **C145** (weights): the same for every acceptable list of weights with at least two non-zero
weights, however it is given. -/
theorem C145_evidence_weights (ws ps : List ℝ) (W : WArg ℝ) (hW : W ∈ weightForms ws)
    (hlen : ws.length = ps.length) (hacc : Acceptable ws) (h01 : ∀ p ∈ ps, 0 < p ∧ p < 1)
    (h2 : 2 ≤ (nonzeroPairs ws ps).length) (d : Bool) (l l' : ℝ) (hl : 0 < l) (hl' : 0 < l')
    (post : ℝ → ℝ) (hpost : ∀ p ∈ ps, simpleBayes l l' p = .ok (post p)) :
    ∃ g q, geomeanOdds (numbers ps) W .absent d = .ok g ∧
      geomeanOdds (numbers (ps.map post)) W .absent d = .ok q ∧ simpleBayes l l' g = .ok q := by
  have hb := fun p hp => posterior_between hl hl' (h01 p hp) (hpost p hp)
  obtain ⟨g, e1, g0, g1, eg⟩ := C57_weights_partial ws ps W hW hlen hacc h01 h2 d
  obtain ⟨q, e2, q0, q1, eq⟩ := C57_weights_partial ws (ps.map post) W hW (by simpa using hlen) hacc (by
    intro y hy
    obtain ⟨x, hx, rfl⟩ := List.mem_map.1 hy
    exact (hb x hx).1) (by
      rw [nonzeroPairs, List.zip_map_right, List.filter_map, List.length_map]
      exact h2) d
  refine ⟨g, q, e1, e2, ?_⟩
  obtain ⟨q', e3, q1', eq'⟩ := C54_odds l l' g hl.le hl' g0.le g1
  rw [e3]
  congr 1
  refine odds_inj q1' q1 ?_
  rw [eq', eg, eq]
  have hm : (ps.map post).map (fun p => p / (1 - p)) =
      (ps.map fun p => p / (1 - p)).map (l / l' * ·) := by
    rw [List.map_map, List.map_map]
    exact List.map_congr_left fun p hp => (hb p hp).2
  rw [hm, wgeo_mul _ _ _ (div_pos hl hl')]
  · intro v hv
    obtain ⟨p, hp, rfl⟩ := List.mem_map.1 hv
    exact div_pos (h01 p hp).1 (by linarith [(h01 p hp).2])
  · rw [map_fst_zip' ws _ (by simpa using hlen)]
    intro h0
    have := hacc.2
    rw [h0] at this
    norm_num at this

/-- **C145**: pooling the chances that the event does not happen gives the chance that it does not
happen. -/
theorem C145_complement (os : List (Option ℝ)) (h01 : ∀ p, some p ∈ os → 0 < p ∧ p < 1)
    (h2 : 2 ≤ os.reduceOption.length) :
    ∃ g, geomeanOdds (.list (os.map .plain)) = .ok g ∧
      geomeanOdds (.list ((os.map (Option.map (1 - ·))).map .plain)) = .ok (1 - g) := by
  obtain ⟨g, e1, g0, g1, eg⟩ := C57_unweighted_partial os h01 h2
  obtain ⟨q, e2, q0, q1, eq⟩ := C57_unweighted_partial (os.map (Option.map (1 - ·))) (by
    intro y hy
    obtain ⟨x, hx, rfl⟩ := mem_map_option hy
    have := h01 x hx
    exact ⟨by linarith [this.2], by linarith [this.1]⟩) (by
      rw [reduceOption_map', List.length_map]; exact h2)
  refine ⟨g, e1, ?_⟩
  rw [e2]
  congr 1
  refine odds_inj q1 (by linarith) ?_
  rw [eq, sub_sub_cancel, ← inv_div g, eg, reduceOption_map', List.length_map, List.map_map]
  have key : ∀ ps : List ℝ, (∀ p ∈ ps, some p ∈ os) →
      (ps.map ((fun p => p / (1 - p)) ∘ (1 - ·))).prod = ((ps.map fun p => p / (1 - p)).prod)⁻¹ ∧
      0 < (ps.map fun p => p / (1 - p)).prod := by
    intro ps
    induction ps with
    | nil => intro _; simp
    | cons a ps ih =>
      intro h
      obtain ⟨i1, i2⟩ := ih fun p hp => h p (by simp [hp])
      have ha := h01 a (h a (by simp))
      refine ⟨?_, ?_⟩
      · simp only [List.map_cons, List.prod_cons, Function.comp] at i1 ⊢
        rw [i1, mul_inv, inv_div, sub_sub_cancel]
      · simp only [List.map_cons, List.prod_cons]
        exact mul_pos (div_pos ha.1 (by linarith [ha.2])) i2
  obtain ⟨k1, k2⟩ := key os.reduceOption fun p hp => List.reduceOption_mem_iff.1 hp
  rw [k1, Real.inv_rpow k2.le]

/-- **C145** (weights). -/
theorem C145_complement_weights (ws ps : List ℝ) (W : WArg ℝ) (hW : W ∈ weightForms ws)
    (hlen : ws.length = ps.length) (hacc : Acceptable ws) (h01 : ∀ p ∈ ps, 0 < p ∧ p < 1)
    (h2 : 2 ≤ (nonzeroPairs ws ps).length) (d : Bool) :
    ∃ g, geomeanOdds (numbers ps) W .absent d = .ok g ∧
      geomeanOdds (numbers (ps.map (1 - ·))) W .absent d = .ok (1 - g) := by
  obtain ⟨g, e1, g0, g1, eg⟩ := C57_weights_partial ws ps W hW hlen hacc h01 h2 d
  obtain ⟨q, e2, q0, q1, eq⟩ := C57_weights_partial ws (ps.map (1 - ·)) W hW (by simpa using hlen) hacc
    (by
      intro y hy
      obtain ⟨x, hx, rfl⟩ := List.mem_map.1 hy
      have := h01 x hx
      exact ⟨by linarith [this.2], by linarith [this.1]⟩) (by
      rw [nonzeroPairs, List.zip_map_right, List.filter_map, List.length_map]
      exact h2) d
  refine ⟨g, e1, ?_⟩
  rw [e2]
  congr 1
  refine odds_inj q1 (by linarith) ?_
  have hm : (ps.map (1 - ·)).map (fun p => p / (1 - p)) = (ps.map fun p => p / (1 - p)).map (·⁻¹) := by
    rw [List.map_map, List.map_map]
    refine List.map_congr_left fun p hp => ?_
    simp only [Function.comp, sub_sub_cancel, inv_div]
  rw [eq, sub_sub_cancel, ← inv_div g, eg, hm, wgeo_inv]
  intro v hv
  obtain ⟨p, hp, rfl⟩ := List.mem_map.1 hv
  exact div_pos (h01 p hp).1 (by linarith [(h01 p hp).2])

/-- **C145**: when no forecaster lowers their probability, the pooled forecast does not fall.  The
triples are weight, probability before and probability after. -/
theorem C145_monotone (l : List (ℝ × ℝ × ℝ)) (W : WArg ℝ) (hW : W ∈ weightForms (l.map (·.1)))
    (hacc : Acceptable (l.map (·.1))) (h01 : ∀ t ∈ l, 0 < t.2.1 ∧ t.2.1 ≤ t.2.2 ∧ t.2.2 < 1)
    (h2 : 2 ≤ (l.filter fun t => t.1 ≠ 0).length) (d : Bool) :
    ∃ g g', geomeanOdds (numbers (l.map (·.2.1))) W .absent d = .ok g ∧
      geomeanOdds (numbers (l.map (·.2.2))) W .absent d = .ok g' ∧ g ≤ g' := by
  have hnz : ∀ f : ℝ × ℝ × ℝ → ℝ, 2 ≤ (nonzeroPairs (l.map (·.1)) (l.map f)).length := by
    intro f
    rw [nonzeroPairs, List.zip_map', List.filter_map, List.length_map]
    exact h2
  obtain ⟨g, e1, g0, g1, eg⟩ := C57_weights_partial (l.map (·.1)) (l.map (·.2.1)) W hW (by simp) hacc
    (by
      intro p hp
      obtain ⟨t, ht, rfl⟩ := List.mem_map.1 hp
      have := h01 t ht
      exact ⟨this.1, by linarith [this.2.1, this.2.2]⟩) (hnz _) d
  obtain ⟨q, e2, q0, q1, eq⟩ := C57_weights_partial (l.map (·.1)) (l.map (·.2.2)) W hW (by simp) hacc
    (by
      intro p hp
      obtain ⟨t, ht, rfl⟩ := List.mem_map.1 hp
      have := h01 t ht
      exact ⟨by linarith [this.1, this.2.1], this.2.2⟩) (hnz _) d
  refine ⟨g, q, e1, e2, ?_⟩
  have hm := wgeo_mono (l.map fun t => (t.1, t.2.1 / (1 - t.2.1), t.2.2 / (1 - t.2.2))) (by
      intro t ht
      obtain ⟨s, hs, rfl⟩ := List.mem_map.1 ht
      exact hacc.1 _ (List.mem_map.2 ⟨s, hs, rfl⟩)) (by
      intro t ht
      obtain ⟨s, hs, rfl⟩ := List.mem_map.1 ht
      have := h01 s hs
      exact div_pos this.1 (by linarith [this.2.1, this.2.2])) (by
      intro t ht
      obtain ⟨s, hs, rfl⟩ := List.mem_map.1 ht
      have := h01 s hs
      change s.2.1 / (1 - s.2.1) ≤ s.2.2 / (1 - s.2.2)
      rw [div_le_div_iff₀ (by linarith [this.2.1, this.2.2]) (by linarith [this.2.2])]
      nlinarith [this.2.1])
  simp only [List.map_map] at hm eg eq
  have hm' : g / (1 - g) ≤ q / (1 - q) := by
    rw [eg, eq]
    exact hm
  rw [div_le_div_iff₀ (by linarith) (by linarith)] at hm'
  linarith

/-- **C145** is false of the plain geometric mean: of the probabilities 1/5 and 4/5 it makes 2/5, and so
it does of the probabilities of the opposite, 4/5 and 1/5; new evidence does not commute with it
either. -/
theorem C145_geomean_fails :
    geomean (numbers [1/5, 4/5]) = .ok (2/5) ∧ geomean (numbers [1 - 1/5, 1 - 4/5]) = .ok (2/5) ∧
    simpleBayes 4 1 (1/5) = .ok (1/2) ∧ simpleBayes 4 1 (4/5) = .ok (16/17) ∧
    simpleBayes 4 1 (2/5) = .ok (8/11) ∧ geomean (numbers [1/2, 16/17]) ≠ .ok (8/11) := by
  have h1 : ∀ a b : ℝ, 0 < a → 0 < b → geomean (numbers [a, b]) = .ok (Real.sqrt (a * b)) := by
    intro a b ha hb
    have := C56_unweighted [some a, some b] (by simp) (by
      intro v hv
      simp only [List.mem_cons, Option.some.injEq, List.not_mem_nil, or_false] at hv
      rcases hv with rfl | rfl <;> assumption)
    rw [if_neg (by simp)] at this
    unfold numbers
    simp only [List.map_cons, List.map_nil] at this ⊢
    rw [this]
    simp only [List.reduceOption_cons_of_some, List.reduceOption_nil, List.prod_cons, List.prod_nil,
      List.length_cons, List.length_nil, mul_one, Real.sqrt_eq_rpow]
    norm_num
  refine ⟨?_, ?_, ?_, ?_, ?_, ?_⟩
  · rw [h1 _ _ (by norm_num) (by norm_num), show (1/5 : ℝ) * (4/5) = (2/5) ^ 2 by norm_num,
      Real.sqrt_sq (by norm_num)]
  · rw [h1 _ _ (by norm_num) (by norm_num), show (1 - 1/5 : ℝ) * (1 - 4/5) = (2/5) ^ 2 by norm_num,
      Real.sqrt_sq (by norm_num)]
  · norm_num [simpleBayes, pyDiv]
  · norm_num [simpleBayes, pyDiv]
  · norm_num [simpleBayes, pyDiv]
  · rw [h1 _ _ (by norm_num) (by norm_num)]
    intro h
    have h2 := Except.ok.inj h
    have h3 := Real.sq_sqrt (show (0 : ℝ) ≤ 1/2 * (16/17) by norm_num)
    rw [h2] at h3
    norm_num at h3

/-- The hypotheses are met: three forecasts, one of them missing, and evidence twice as likely if the
event happens. -/
example : ∃ g q, geomeanOdds (.list ([some (1/2), none, some (1/3)].map .plain)) = .ok g ∧
    geomeanOdds (.list ([some (2/3), none, some (1/2)].map .plain)) = .ok q ∧
    simpleBayes (4/5) (2/5) g = .ok q := by
  have h := C145_evidence [some (1/2), none, some (1/3)] (by
    intro p hp
    simp only [List.mem_cons, Option.some.injEq, reduceCtorEq, List.not_mem_nil, or_false, false_or] at hp
    rcases hp with rfl | rfl <;> norm_num) (by simp) (4/5) (2/5) (by norm_num) (by norm_num)
    (fun p => 4/5 * p / (4/5 * p + 2/5 * (1 - p))) (by
      intro p hp
      simp only [List.mem_cons, Option.some.injEq, reduceCtorEq, List.not_mem_nil, or_false,
        false_or] at hp
      rcases hp with rfl | rfl <;> norm_num [simpleBayes, pyDiv])
  norm_num at h ⊢
  exact h

example : ∃ g g', geomeanOdds (numbers [1/2, 1/3]) (.list ([1/4, 3/4].map some)) .absent true = .ok g ∧
    geomeanOdds (numbers [1/2, 2/3]) (.list ([1/4, 3/4].map some)) .absent true = .ok g' ∧ g ≤ g' := by
  have h := C145_monotone [(1/4, 1/2, 1/2), (3/4, 1/3, 2/3)] (.list ([1/4, 3/4].map some))
    (by simp [weightForms]) (by norm_num [Acceptable]) (by
      intro t ht
      simp only [List.mem_cons, List.not_mem_nil, or_false] at ht
      rcases ht with rfl | rfl <;> norm_num) (by norm_num [List.filter]) true
  simpa using h

end Verif
