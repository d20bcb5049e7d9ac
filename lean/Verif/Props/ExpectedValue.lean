import Verif.Props.Moments
import Verif.Lemmas.LawSource
import Verif.Spec.ExpectedValue

/-!
# C110: expected values worked out by hand
-/

namespace Verif

open MeasureTheory ProbabilityTheory Spec Filter Topology

theorem HasVar.second {μ : Measure ℝ} [IsProbabilityMeasure μ] {m v : ℝ} (h : HasVar μ v) (hm : HasMean μ m) :
    Integrable (fun x => x ^ 2) μ ∧ ∫ x, x ^ 2 ∂μ = v + m ^ 2 := by
  refine ⟨h.1.integrable_sq, ?_⟩
  have e := variance_eq_sub h.1
  have e1 : ∫ x, (id ^ 2 : ℝ → ℝ) x ∂μ = ∫ x, x ^ 2 ∂μ := rfl
  have e2 : ∫ x, id x ∂μ = m := hm.2
  rw [h.2, e1, e2] at e
  linarith

theorem clamp_none : clamp none none = id := rfl

section

variable {Ω : Type} [MeasurableSpace Ω] (S : IdealSource Ω) {E : Env (ℕ → Ω) ℝ} (hS : Documented S)

include hS

theorem documented_uniform : S.primLaw (.uniform 0 1) = some unitLaw := by
  rw [hS _ (uniformLaw 0 1) (by simp [numpyLaw]), uniformLaw_unit]

theorem documented_leafMean {l : Leaf ℝ} {m : ℝ} (h : LeafMean l m) :
    ∃ μ, leafLaw S.primLaw l = some μ ∧ HasMean μ m := by
  cases h with
  | @uniform x y h => exact ⟨_, hS (.uniform x y) _ (if_pos h), uniform_hasMean h⟩
  | @normal m s h => exact ⟨_, hS (.normal m s) _ (if_pos h), normal_hasMean m s⟩
  | @lognormal m s h => exact ⟨_, hS (.lognormal m s) _ (if_pos h), lognormal_hasMean m s⟩
  | @invlognormal m s h =>
    refine ⟨_, by rw [leafLaw, hS (.lognormal m s) (lognormalLaw m s) (if_pos h)]; rfl, ?_⟩
    have := invlognormal_eq m s
    rw [invlognormalLaw] at this
    beta_reduce
    rw [this]
    exact lognormal_hasMean (-m) s
  | @binomial n p h0 h1 h2 =>
    refine ⟨_, hS (.binomial n p) _ (dif_pos ⟨h0, h1, h2⟩), ?_⟩
    have := binomial_hasMean n.toNat ⟨p, h1, h2⟩
    have e : ((n.toNat : ℕ) : ℝ) = (n : ℝ) := by exact_mod_cast congrArg (Int.cast : ℤ → ℝ) (Int.toNat_of_nonneg h0)
    rwa [e] at this
  | @beta a b ha hb => exact ⟨_, hS (.beta a b) _ (if_pos ⟨ha, hb⟩), beta_hasMean ha hb⟩
  | bernoulli h0 h1 =>
    exact ⟨_, by rw [leafLaw, documented_uniform S hS]; rfl, bernoulli_hasMean h0 h1⟩
  | poisson h => exact ⟨_, hS (.poisson m) _ (dif_pos h), poisson_hasMean (.mk m h)⟩
  | chisquare h =>
    refine ⟨_, hS (.chisquare m) _ (if_pos h), ?_⟩
    have := gamma_hasMean (a := m / 2) (r := 1 / 2) (by linarith) (by norm_num)
    rwa [show m / 2 / (1 / 2) = m by ring] at this
  | exponential h =>
    refine ⟨_, hS (.exponential m) _ (if_pos h), ?_⟩
    have := gamma_hasMean (a := 1) (r := 1 / m) one_pos (by positivity)
    rwa [show 1 / (1 / m) = m by simp] at this
  | @gamma a s ha hs =>
    refine ⟨_, hS (.gamma a s) _ (if_pos ⟨ha, hs⟩), ?_⟩
    have := gamma_hasMean (a := a) (r := 1 / s) ha (by positivity)
    rwa [show a / (1 / s) = a * s by simp] at this
  | @pareto a ha =>
    have h0 : 0 < a := by linarith
    refine ⟨_, by rw [leafLaw, hS (.pareto a) _ (if_pos h0)]; rfl, ?_⟩
    beta_reduce
    rw [Measure.map_map (by fun_prop) (by fun_prop)]
    have : ((fun x : ℝ => x + 1) ∘ fun x => x - 1) = id := by funext x; simp
    rw [this, Measure.map_id]
    exact pareto_hasMean ha
  | @triangular l m r h1 h2 h3 =>
    exact ⟨_, hS (.triangular l m r) _ (if_pos ⟨h1, h2, h3⟩), triangular_hasMean h1 h2 h3⟩
  | @pert l m r lam h1 h2 h3 h4 =>
    have g0 : 0 < r - l := by linarith
    have g1 : 0 ≤ (m - l) / (r - l) := div_nonneg (by linarith) g0.le
    have g2 : 0 ≤ (m - r) / (l - r) := div_nonneg_of_nonpos (by linarith) (by linarith)
    have a1 : 0 < 1 + lam * ((m - l) / (r - l)) := by positivity
    have a2 : 0 < 1 + lam * ((m - r) / (l - r)) := by positivity
    have hp := isProbabilityMeasureBeta a1 a2
    refine ⟨_, by rw [leafLaw, hS (.beta _ _) _ (if_pos ⟨a1, a2⟩)]; rfl, ?_⟩
    have := (beta_hasMean a1 a2).affine l (r - l)
    convert this using 1
    have e : (m - r) / (l - r) = (r - m) / (r - l) := by
      rw [← neg_sub r m, ← neg_sub r l, neg_div_neg_eq]
    have g3 : r - l ≠ 0 := g0.ne'
    have g4 : lam + 2 ≠ 0 := by positivity
    have e2 : 1 + lam * ((m - l) / (r - l)) + (1 + lam * ((m - r) / (l - r))) = lam + 2 := by
      rw [e]
      field_simp
      ring
    rw [e2]
    field_simp
    ring
  | @geometric p h0 h1 =>
    refine ⟨_, hS (.geometric p) _ (dif_pos ⟨h0, h1⟩), ?_⟩
    exact geometric_hasMean (p := ⟨p, h0.le, h1⟩) fun h => h0.ne' (congrArg Subtype.val h)
  | @die s h =>
    refine ⟨_, hS (.integers 1 (s + 1)) _ (if_pos (by omega)), ?_⟩
    have := integers_hasMean (lo := 1) (hi := s + 1) (by omega)
    convert this using 1
    push_cast
    ring

theorem documented_leafVar {l : Leaf ℝ} {v : ℝ} (h : LeafVar l v) :
    ∃ μ, leafLaw S.primLaw l = some μ ∧ HasVar μ v := by
  cases h with
  | @uniform x y h => exact ⟨_, hS (.uniform x y) _ (if_pos h), uniform_hasVar h⟩
  | @normal m s h => exact ⟨_, hS (.normal m s) _ (if_pos h), normal_hasVar m s⟩
  | @lognormal m s h => exact ⟨_, hS (.lognormal m s) _ (if_pos h), lognormal_hasVar m s⟩
  | @invlognormal m s h =>
    refine ⟨_, by rw [leafLaw, hS (.lognormal m s) (lognormalLaw m s) (if_pos h)]; rfl, ?_⟩
    have := invlognormal_eq m s
    rw [invlognormalLaw] at this
    beta_reduce
    rw [this]
    have := lognormal_hasVar (-m) s
    rwa [show 2 * -m + s ^ 2 = -2 * m + s ^ 2 by ring] at this
  | @binomial n p h0 h1 h2 =>
    refine ⟨_, hS (.binomial n p) _ (dif_pos ⟨h0, h1, h2⟩), ?_⟩
    have := binomial_hasVar n.toNat ⟨p, h1, h2⟩
    have e : ((n.toNat : ℕ) : ℝ) = (n : ℝ) := by exact_mod_cast congrArg (Int.cast : ℤ → ℝ) (Int.toNat_of_nonneg h0)
    rwa [e] at this
  | @beta a b ha hb => exact ⟨_, hS (.beta a b) _ (if_pos ⟨ha, hb⟩), beta_hasVar ha hb⟩
  | bernoulli h0 h1 =>
    exact ⟨_, by rw [leafLaw, documented_uniform S hS]; rfl, bernoulli_hasVar h0 h1⟩
  | poisson h => exact ⟨_, hS (.poisson v) _ (dif_pos h), poisson_hasVar (.mk v h)⟩
  | @chisquare df h =>
    refine ⟨_, hS (.chisquare df) _ (if_pos h), ?_⟩
    have := gamma_hasVar (a := df / 2) (r := 1 / 2) (by linarith) (by norm_num)
    rwa [show df / 2 / (1 / 2) ^ 2 = 2 * df by ring] at this
  | @exponential s h =>
    refine ⟨_, hS (.exponential s) _ (if_pos h), ?_⟩
    have := gamma_hasVar (a := 1) (r := 1 / s) one_pos (by positivity)
    rwa [show 1 / (1 / s) ^ 2 = s ^ 2 by simp] at this
  | @gamma a s ha hs =>
    refine ⟨_, hS (.gamma a s) _ (if_pos ⟨ha, hs⟩), ?_⟩
    have := gamma_hasVar (a := a) (r := 1 / s) ha (by positivity)
    rwa [show a / (1 / s) ^ 2 = a * s ^ 2 by simp] at this
  | @pareto a ha =>
    have h0 : 0 < a := by linarith
    refine ⟨_, by rw [leafLaw, hS (.pareto a) _ (if_pos h0)]; rfl, ?_⟩
    beta_reduce
    rw [Measure.map_map (by fun_prop) (by fun_prop)]
    have : ((fun x : ℝ => x + 1) ∘ fun x => x - 1) = id := by funext x; simp
    rw [this, Measure.map_id]
    exact pareto_hasVar ha
  | @triangular l m r h1 h2 h3 =>
    exact ⟨_, hS (.triangular l m r) _ (if_pos ⟨h1, h2, h3⟩), triangular_hasVar h1 h2 h3⟩
  | @pert l m r lam mean h1 h2 h3 h4 h5 =>
    have g0 : 0 < r - l := by linarith
    have g1 : 0 ≤ (m - l) / (r - l) := div_nonneg (by linarith) g0.le
    have g2 : 0 ≤ (m - r) / (l - r) := div_nonneg_of_nonpos (by linarith) (by linarith)
    have a1 : 0 < 1 + lam * ((m - l) / (r - l)) := by positivity
    have a2 : 0 < 1 + lam * ((m - r) / (l - r)) := by positivity
    have hp := isProbabilityMeasureBeta a1 a2
    refine ⟨_, by rw [leafLaw, hS (.beta _ _) _ (if_pos ⟨a1, a2⟩)]; rfl, ?_⟩
    have := (beta_hasVar a1 a2).affine l (r - l)
    convert this using 1
    have e : (m - r) / (l - r) = (r - m) / (r - l) := by
      rw [← neg_sub r m, ← neg_sub r l, neg_div_neg_eq]
    have g3 : r - l ≠ 0 := g0.ne'
    have g4 : lam + 2 ≠ 0 := by positivity
    have g5 : lam + 2 + 1 ≠ 0 := by positivity
    have g6 : lam + 3 ≠ 0 := by positivity
    have e2 : 1 + lam * ((m - l) / (r - l)) + (1 + lam * ((m - r) / (l - r))) = lam + 2 := by
      rw [e]
      field_simp
      ring
    rw [e2, h5, e]
    field_simp
    ring
  | @geometric p h0 h1 =>
    refine ⟨_, hS (.geometric p) _ (dif_pos ⟨h0, h1⟩), ?_⟩
    exact geometric_hasVar (p := ⟨p, h0.le, h1⟩) fun h => h0.ne' (congrArg Subtype.val h)
  | @die s h =>
    refine ⟨_, hS (.integers 1 (s + 1)) _ (if_pos (by omega)), ?_⟩
    have := integers_hasVar (lo := 1) (hi := s + 1) (by omega)
    convert this using 1
    push_cast
    ring

variable (hE : S.Drives E)

include hE

theorem denotes_prob {d : Obj (St (ℕ → Ω) ℝ) ℝ} {μ : Measure ℝ} (hd : Denotes S.primLaw d μ) :
    IsProbabilityMeasure μ :=
  (C86_independent_samples S hE (documented_uniform S hS) hd (n := 1) le_rfl fun _ _ => none).1

omit hS hE in
theorem table_moment {ws rs : List ℝ} (hw : ∀ w ∈ ws, 0 < w) (f : ℝ → ℝ) :
    Integrable f ((ws.zip rs).map fun p => ENNReal.ofReal p.1 • Measure.dirac p.2).sum ∧
    ∫ x, f x ∂((ws.zip rs).map fun p => ENNReal.ofReal p.1 • Measure.dirac p.2).sum
      = ((ws.zip rs).map fun p => p.1 * f p.2).sum := by
  induction ws generalizing rs with
  | nil => simp
  | cons w ws ih =>
    cases rs with
    | nil => simp
    | cons r rs =>
      obtain ⟨h1, h2⟩ := ih (rs := rs) fun w h => hw w (List.mem_cons_of_mem _ h)
      have hi : Integrable f (ENNReal.ofReal w • Measure.dirac r) :=
        (integrable_dirac (by simp)).smul_measure ENNReal.ofReal_ne_top
      simp only [List.zip_cons_cons, List.map_cons, List.sum_cons]
      refine ⟨hi.add_measure h1, ?_⟩
      rw [integral_add_measure hi h1, h2, integral_smul_measure, integral_dirac,
        ENNReal.toReal_ofReal (hw w List.mem_cons_self).le, smul_eq_mul]

omit hS hE in
theorem items_moment {rs : List ℝ} (hr : rs ≠ []) (f : ℝ → ℝ) :
    Integrable f ((rs.length : ENNReal)⁻¹ • (rs.map Measure.dirac).sum) ∧
    ∫ x, f x ∂((rs.length : ENNReal)⁻¹ • (rs.map Measure.dirac).sum) = meanOf (rs.map f) := by
  have h : Integrable f (rs.map Measure.dirac).sum ∧ ∫ x, f x ∂(rs.map Measure.dirac).sum = (rs.map f).sum := by
    clear hr
    induction rs with
    | nil => simp
    | cons r rs ih =>
      have hi : Integrable f (Measure.dirac r) := integrable_dirac (by simp)
      simp only [List.map_cons, List.sum_cons]
      exact ⟨hi.add_measure ih.1, by rw [integral_add_measure hi ih.1, ih.2, integral_dirac]⟩
  have hl : rs.length ≠ 0 := fun h => hr (List.length_eq_zero_iff.1 h)
  refine ⟨h.1.smul_measure (ENNReal.inv_ne_top.2 (by exact_mod_cast hl)), ?_⟩
  rw [integral_smul_measure, h.2, ENNReal.toReal_inv, ENNReal.toReal_natCast, meanOf, List.length_map, smul_eq_mul]
  field_simp

theorem meanIs_law {d : Obj (St (ℕ → Ω) ℝ) ℝ} {m : ℝ} (h : MeanIs d m) :
    ∃ μ, Denotes S.primLaw d μ ∧ HasMean μ m := by
  induction h with
  | @lit v r hv => exact ⟨_, .lit hv, integrable_dirac (by simp), integral_dirac _ _⟩
  | @const v r hv =>
    refine ⟨_, .const (lc := none) (rc := none) (lo := none) (hi := none) hv trivial trivial, ?_⟩
    rw [clamp_none, Measure.map_id]
    exact ⟨integrable_dirac (by simp), integral_dirac _ _⟩
  | @leaf l m hl =>
    obtain ⟨μ, hμ, hm⟩ := documented_leafMean S hS hl
    refine ⟨_, .leaf (lc := none) (rc := none) (lo := none) (hi := none) hμ trivial trivial, ?_⟩
    rwa [clamp_none, Measure.map_id]
  | @items vs rs hne hr =>
    have hne' : rs ≠ [] := fun h => hne (List.length_eq_zero_iff.1 (by rw [hr.length_eq, h]; rfl))
    refine ⟨_, .items (lc := none) (rc := none) (lo := none) (hi := none) hne hr trivial trivial, ?_⟩
    rw [clamp_none, Measure.map_id]
    have := items_moment hne' fun x => x
    rwa [List.map_id'] at this
  | @table vs rs ws hl hr hw hs =>
    refine ⟨_, .table (lc := none) (rc := none) (lo := none) (hi := none) (Or.inl rfl) hl hr hw hs trivial trivial, ?_⟩
    rw [clamp_none, Measure.map_id]
    exact table_moment hw fun x => x
  | @neg a m _ ih =>
    obtain ⟨μ, hd, hm⟩ := ih
    have := denotes_prob S hS hE hd
    refine ⟨_, .un (f := .neg) rfl hd, ?_⟩
    have h := hm.affine 0 (-1)
    simp only [zero_add, neg_mul, one_mul] at h
    exact h
  | @add a b m m' _ _ iha ihb =>
    obtain ⟨μ, ha, h1, e1⟩ := iha
    obtain ⟨ν, hb, h2, e2⟩ := ihb
    have := denotes_prob S hS hE ha
    have := denotes_prob S hS hE hb
    refine ⟨_, .bin (o := .add) rfl ha hb (.of_forall fun _ => trivial), ?_, ?_⟩
    · exact (integrable_map_measure (by fun_prop) (by fun_prop)).2 ((h1.comp_fst ν).add (h2.comp_snd μ))
    · rw [integral_map (by fun_prop) (by fun_prop), integral_add (h1.comp_fst ν) (h2.comp_snd μ),
        integral_fun_fst (fun x : ℝ => x), integral_fun_snd (fun x : ℝ => x), e1, e2]
      simp
  | @sub a b m m' _ _ iha ihb =>
    obtain ⟨μ, ha, h1, e1⟩ := iha
    obtain ⟨ν, hb, h2, e2⟩ := ihb
    have := denotes_prob S hS hE ha
    have := denotes_prob S hS hE hb
    refine ⟨_, .bin (o := .sub) rfl ha hb (.of_forall fun _ => trivial), ?_, ?_⟩
    · exact (integrable_map_measure (by fun_prop) (by fun_prop)).2 ((h1.comp_fst ν).sub (h2.comp_snd μ))
    · rw [integral_map (by fun_prop) (by fun_prop), integral_sub (h1.comp_fst ν) (h2.comp_snd μ),
        integral_fun_fst (fun x : ℝ => x), integral_fun_snd (fun x : ℝ => x), e1, e2]
      simp
  | @mul a b m m' _ _ iha ihb =>
    obtain ⟨μ, ha, h1, e1⟩ := iha
    obtain ⟨ν, hb, h2, e2⟩ := ihb
    have := denotes_prob S hS hE ha
    have := denotes_prob S hS hE hb
    refine ⟨_, .bin (o := .mul) rfl ha hb (.of_forall fun _ => trivial), ?_, ?_⟩
    · exact (integrable_map_measure (by fun_prop) (by fun_prop)).2 (h1.mul_prod h2)
    · rw [integral_map (by fun_prop) (by fun_prop), ← e1, ← e2]
      exact integral_prod_mul (fun x : ℝ => x) fun x : ℝ => x
  | @div a v m c _ hv hc ih =>
    obtain ⟨μ, ha, hm⟩ := ih
    have := denotes_prob S hS hE ha
    refine ⟨_, .bin (o := .truediv) rfl ha (.lit hv) ?_, ?_⟩
    · rw [Measure.prod_dirac, ae_map_iff (by fun_prop) (by
        simp only [opDefined]
        exact (measurable_snd (measurableSet_singleton (0 : ℝ))).compl)]
      exact .of_forall fun _ => hc
    · rw [Measure.prod_dirac, Measure.map_map (by fun_prop) (by fun_prop)]
      have h := hm.affine 0 c⁻¹
      have e : ((fun p : ℝ × ℝ => p.1 / p.2) ∘ fun x => (x, c)) = fun x => 0 + c⁻¹ * x := by
        funext x
        simp only [Function.comp]
        ring
      rw [e]
      convert h using 1
      ring
  | @mix k ds m ws hk _ hw hs ih =>
    choose ν hd hm using ih
    have hp : ∀ i, IsProbabilityMeasure (ν i) := fun i => denotes_prob S hS hE (hd i)
    refine ⟨_, .mix (lc := none) (rc := none) (lo := none) (hi := none) hk hd hw hs trivial trivial, ?_⟩
    rw [clamp_none, Measure.map_id]
    have hint : ∀ i : Fin k, Integrable (fun x : ℝ => x) (ENNReal.ofReal (ws[i.1]'(hk ▸ i.2)) • ν i) := fun i =>
      (hm i).1.smul_measure ENNReal.ofReal_ne_top
    refine ⟨integrable_finsetSum_measure.2 fun i _ => hint i, ?_⟩
    rw [integral_finsetSum_measure fun i _ => hint i]
    refine Finset.sum_congr rfl fun i _ => ?_
    rw [integral_smul_measure, ENNReal.toReal_ofReal (hw _ (List.getElem_mem _)).le, smul_eq_mul, (hm i).2]

/-- **C110**: if the numbers of the generator have numpy's documented laws, the mean of the samples tends to the
mean worked out by hand. -/
theorem C110_mean {d : Obj (St (ℕ → Ω) ℝ) ℝ} {m : ℝ} (h : MeanIs d m) : StatTends S E d meanOf m := by
  obtain ⟨μ, hd, hi, rfl⟩ := meanIs_law S hS hE h
  exact C102_mean S hE (documented_uniform S hS) hd hi

omit hS hE in
theorem dirac_hasVar (r : ℝ) : HasVar (Measure.dirac r) 0 :=
  hasVar_of (m := r) (q := r ^ 2) ⟨integrable_dirac (by simp), integral_dirac _ _⟩ (integrable_dirac (by simp))
    (integral_dirac _ _) (by ring)

omit hS hE in
theorem varOf_eq {rs : List ℝ} (h : rs ≠ []) : varOf rs = meanOf (rs.map fun x => x ^ 2) - meanOf rs ^ 2 := by
  have hl : (rs.length : ℝ) ≠ 0 := by
    exact_mod_cast fun h0 => h (List.length_eq_zero_iff.1 h0)
  set c := meanOf rs with hc
  have hsum : rs.sum = rs.length * c := by rw [hc, meanOf]; field_simp
  have e : ∀ l : List ℝ, (l.map fun x => (x - c) ^ 2).sum
      = (l.map fun x => x ^ 2).sum - 2 * c * l.sum + l.length * c ^ 2 := by
    intro l
    induction l with
    | nil => simp
    | cons x l ih =>
      simp only [List.map_cons, List.sum_cons, ih, List.length_cons]
      push_cast
      ring
  rw [varOf, ← hc, meanOf, meanOf, e, hsum, List.length_map, List.length_map]
  field_simp
  ring

omit hS hE in
theorem table_var {ws rs : List ℝ} {c : ℝ} (hl : ws.length = rs.length) (hs : ws.sum = 1)
    (hc : c = ((ws.zip rs).map fun p => p.1 * p.2).sum) :
    ((ws.zip rs).map fun p => p.1 * (p.2 - c) ^ 2).sum
      = ((ws.zip rs).map fun p => p.1 * p.2 ^ 2).sum - c ^ 2 := by
  have e : ∀ ws rs : List ℝ, ws.length = rs.length → ((ws.zip rs).map fun p => p.1 * (p.2 - c) ^ 2).sum
      = ((ws.zip rs).map fun p => p.1 * p.2 ^ 2).sum - 2 * c * ((ws.zip rs).map fun p => p.1 * p.2).sum
        + c ^ 2 * ws.sum := by
    intro ws
    induction ws with
    | nil => simp
    | cons w ws ih =>
      intro rs h
      cases rs with
      | nil => simp at h
      | cons r rs =>
        simp only [List.zip_cons_cons, List.map_cons, List.sum_cons, ih rs (by simpa using h)]
        ring
  rw [e ws rs hl, ← hc, hs]
  ring

theorem momentsAre_law {d : Obj (St (ℕ → Ω) ℝ) ℝ} {m v : ℝ} (h : MomentsAre d m v) :
    ∃ μ, Denotes S.primLaw d μ ∧ HasMean μ m ∧ HasVar μ v := by
  induction h with
  | @lit v r hv =>
    exact ⟨_, .lit hv, ⟨integrable_dirac (by simp), integral_dirac _ _⟩, dirac_hasVar r⟩
  | @const v r hv =>
    refine ⟨_, .const (lc := none) (rc := none) (lo := none) (hi := none) hv trivial trivial, ?_⟩
    rw [clamp_none, Measure.map_id]
    exact ⟨⟨integrable_dirac (by simp), integral_dirac _ _⟩, dirac_hasVar r⟩
  | @leaf l m v hl hv =>
    obtain ⟨μ, hμ, hm⟩ := documented_leafMean S hS hl
    obtain ⟨μ', hμ', hv⟩ := documented_leafVar S hS hv
    rw [hμ] at hμ'
    obtain rfl := Option.some.inj hμ'
    refine ⟨_, .leaf (lc := none) (rc := none) (lo := none) (hi := none) hμ trivial trivial, ?_⟩
    rw [clamp_none, Measure.map_id]
    exact ⟨hm, hv⟩
  | @items vs rs hne hr =>
    have hne' : rs ≠ [] := fun h => hne (List.length_eq_zero_iff.1 (by rw [hr.length_eq, h]; rfl))
    have hd := Denotes.items (S := St (ℕ → Ω) ℝ) (L := S.primLaw) (lc := none) (rc := none) (lo := none)
      (hi := none) hne hr trivial trivial
    have hp := denotes_prob S hS hE hd
    rw [clamp_none, Measure.map_id] at hd hp
    have h1 := items_moment hne' fun x => x
    have h2 := items_moment hne' fun x => x ^ 2
    rw [List.map_id'] at h1
    exact ⟨_, hd, h1, hasVar_of h1 h2.1 h2.2 (varOf_eq hne')⟩
  | @table vs rs ws mean hl hr hw hs hmean =>
    have hd := Denotes.table (S := St (ℕ → Ω) ℝ) (L := S.primLaw) (lc := none) (rc := none) (lo := none)
      (hi := none) (Or.inl rfl) hl hr hw hs trivial trivial
    have hp := denotes_prob S hS hE hd
    rw [clamp_none, Measure.map_id] at hd hp
    have h1 := table_moment (rs := rs) hw fun x => x
    have h2 := table_moment (rs := rs) hw fun x => x ^ 2
    rw [← hmean] at h1
    exact ⟨_, hd, h1, hasVar_of h1 h2.1 h2.2 (table_var (hl.trans hr.length_eq) hs hmean)⟩
  | @neg a m v _ ih =>
    obtain ⟨μ, hd, hm, hv⟩ := ih
    have := denotes_prob S hS hE hd
    have h := hm.affine 0 (-1)
    have h' := hv.affine 0 (-1)
    simp only [zero_add, neg_mul, one_mul, neg_one_sq] at h h'
    exact ⟨_, .un (f := .neg) rfl hd, h, h'⟩
  | @add a b m m' v v' _ _ iha ihb =>
    obtain ⟨μ, ha, h1, g1⟩ := iha
    obtain ⟨ν, hb, h2, g2⟩ := ihb
    have hp := denotes_prob S hS hE ha
    have hq := denotes_prob S hS hE hb
    have hd := Denotes.bin (o := .add) rfl ha hb (.of_forall fun _ => trivial)
    have hpd := denotes_prob S hS hE hd
    obtain ⟨s1, t1⟩ := g1.second h1
    obtain ⟨s2, t2⟩ := g2.second h2
    have hm : HasMean ((μ.prod ν).map fun p : ℝ × ℝ => p.1 + p.2) (m + m') := by
      refine ⟨(integrable_map_measure (by fun_prop) (by fun_prop)).2 ((h1.1.comp_fst ν).add (h2.1.comp_snd μ)), ?_⟩
      rw [integral_map (by fun_prop) (by fun_prop), integral_add (h1.1.comp_fst ν) (h2.1.comp_snd μ),
        integral_fun_fst (fun x : ℝ => x), integral_fun_snd (fun x : ℝ => x), h1.2, h2.2]
      simp
    have e : (fun p : ℝ × ℝ => (p.1 + p.2) ^ 2) = fun p => p.1 ^ 2 + 2 * (p.1 * p.2) + p.2 ^ 2 := by
      funext p
      ring
    have i1 : Integrable (fun p : ℝ × ℝ => p.1 ^ 2) (μ.prod ν) := s1.comp_fst ν
    have i2 : Integrable (fun p : ℝ × ℝ => p.2 ^ 2) (μ.prod ν) := s2.comp_snd μ
    have i3 : Integrable (fun p : ℝ × ℝ => 2 * (p.1 * p.2)) (μ.prod ν) := (h1.1.mul_prod h2.1).const_mul 2
    have hsq : Integrable (fun p : ℝ × ℝ => (p.1 + p.2) ^ 2) (μ.prod ν) := by
      rw [e]
      exact (i1.add i3).add i2
    refine ⟨_, hd, hm, hasVar_of hm ((integrable_map_measure (by fun_prop) (by fun_prop)).2 hsq)
      (q := v + m ^ 2 + 2 * (m * m') + (v' + m' ^ 2)) ?_ (by ring)⟩
    have i4 : Integrable (fun p : ℝ × ℝ => p.1 ^ 2 + 2 * (p.1 * p.2)) (μ.prod ν) := i1.add i3
    rw [integral_map (by fun_prop) (by fun_prop), e, integral_add i4 i2, integral_add i1 i3,
      integral_fun_fst (fun x : ℝ => x ^ 2), integral_fun_snd (fun x : ℝ => x ^ 2), integral_const_mul, t1, t2]
    have := integral_prod_mul (μ := μ) (ν := ν) (fun x : ℝ => x) fun x : ℝ => x
    rw [this, h1.2, h2.2]
    simp
  | @sub a b m m' v v' _ _ iha ihb =>
    obtain ⟨μ, ha, h1, g1⟩ := iha
    obtain ⟨ν, hb, h2, g2⟩ := ihb
    have hp := denotes_prob S hS hE ha
    have hq := denotes_prob S hS hE hb
    have hd := Denotes.bin (o := .sub) rfl ha hb (.of_forall fun _ => trivial)
    have hpd := denotes_prob S hS hE hd
    obtain ⟨s1, t1⟩ := g1.second h1
    obtain ⟨s2, t2⟩ := g2.second h2
    have hm : HasMean ((μ.prod ν).map fun p : ℝ × ℝ => p.1 - p.2) (m - m') := by
      refine ⟨(integrable_map_measure (by fun_prop) (by fun_prop)).2 ((h1.1.comp_fst ν).sub (h2.1.comp_snd μ)), ?_⟩
      rw [integral_map (by fun_prop) (by fun_prop), integral_sub (h1.1.comp_fst ν) (h2.1.comp_snd μ),
        integral_fun_fst (fun x : ℝ => x), integral_fun_snd (fun x : ℝ => x), h1.2, h2.2]
      simp
    have e : (fun p : ℝ × ℝ => (p.1 - p.2) ^ 2) = fun p => p.1 ^ 2 - 2 * (p.1 * p.2) + p.2 ^ 2 := by
      funext p
      ring
    have i1 : Integrable (fun p : ℝ × ℝ => p.1 ^ 2) (μ.prod ν) := s1.comp_fst ν
    have i2 : Integrable (fun p : ℝ × ℝ => p.2 ^ 2) (μ.prod ν) := s2.comp_snd μ
    have i3 : Integrable (fun p : ℝ × ℝ => 2 * (p.1 * p.2)) (μ.prod ν) := (h1.1.mul_prod h2.1).const_mul 2
    have hsq : Integrable (fun p : ℝ × ℝ => (p.1 - p.2) ^ 2) (μ.prod ν) := by
      rw [e]
      exact (i1.sub i3).add i2
    refine ⟨_, hd, hm, hasVar_of hm ((integrable_map_measure (by fun_prop) (by fun_prop)).2 hsq)
      (q := v + m ^ 2 - 2 * (m * m') + (v' + m' ^ 2)) ?_ (by ring)⟩
    have i4 : Integrable (fun p : ℝ × ℝ => p.1 ^ 2 - 2 * (p.1 * p.2)) (μ.prod ν) := i1.sub i3
    rw [integral_map (by fun_prop) (by fun_prop), e, integral_add i4 i2, integral_sub i1 i3,
      integral_fun_fst (fun x : ℝ => x ^ 2), integral_fun_snd (fun x : ℝ => x ^ 2), integral_const_mul, t1, t2]
    have := integral_prod_mul (μ := μ) (ν := ν) (fun x : ℝ => x) fun x : ℝ => x
    rw [this, h1.2, h2.2]
    simp
  | @mul a b m m' v v' _ _ iha ihb =>
    obtain ⟨μ, ha, h1, g1⟩ := iha
    obtain ⟨ν, hb, h2, g2⟩ := ihb
    have hp := denotes_prob S hS hE ha
    have hq := denotes_prob S hS hE hb
    have hd := Denotes.bin (o := .mul) rfl ha hb (.of_forall fun _ => trivial)
    have hpd := denotes_prob S hS hE hd
    obtain ⟨s1, t1⟩ := g1.second h1
    obtain ⟨s2, t2⟩ := g2.second h2
    have hm : HasMean ((μ.prod ν).map fun p : ℝ × ℝ => p.1 * p.2) (m * m') := by
      refine ⟨(integrable_map_measure (by fun_prop) (by fun_prop)).2 (h1.1.mul_prod h2.1), ?_⟩
      rw [integral_map (by fun_prop) (by fun_prop), ← h1.2, ← h2.2]
      exact integral_prod_mul (fun x : ℝ => x) fun x : ℝ => x
    have e : (fun p : ℝ × ℝ => (p.1 * p.2) ^ 2) = fun p => p.1 ^ 2 * p.2 ^ 2 := by
      funext p
      ring
    have hsq : Integrable (fun p : ℝ × ℝ => (p.1 * p.2) ^ 2) (μ.prod ν) := by
      rw [e]
      exact s1.mul_prod s2
    refine ⟨_, hd, hm, hasVar_of hm ((integrable_map_measure (by fun_prop) (by fun_prop)).2 hsq)
      (q := (v + m ^ 2) * (v' + m' ^ 2)) ?_ (by ring)⟩
    rw [integral_map (by fun_prop) (by fun_prop), e, ← t1, ← t2]
    exact integral_prod_mul (fun x : ℝ => x ^ 2) fun x : ℝ => x ^ 2
  | @div a w m v c _ hw hc ih =>
    obtain ⟨μ, ha, hm, hv⟩ := ih
    have := denotes_prob S hS hE ha
    refine ⟨_, .bin (o := .truediv) rfl ha (.lit hw) ?_, ?_⟩
    · rw [Measure.prod_dirac, ae_map_iff (by fun_prop) (by
        simp only [opDefined]
        exact (measurable_snd (measurableSet_singleton (0 : ℝ))).compl)]
      exact .of_forall fun _ => hc
    · rw [Measure.prod_dirac, Measure.map_map (by fun_prop) (by fun_prop)]
      have h := hm.affine 0 c⁻¹
      have h' := hv.affine 0 c⁻¹
      have e : ((fun p : ℝ × ℝ => p.1 / p.2) ∘ fun x => (x, c)) = fun x => 0 + c⁻¹ * x := by
        funext x
        simp only [Function.comp]
        ring
      rw [e]
      rw [show 0 + c⁻¹ * m = m / c by ring] at h
      rw [show c⁻¹ ^ 2 * v = v / c ^ 2 by rw [inv_pow]; ring] at h'
      exact ⟨h, h'⟩
  | @mix k ds m v ws mean hk _ hw hs hmean ih =>
    choose ν hd hm hv using ih
    have hp : ∀ i, IsProbabilityMeasure (ν i) := fun i => denotes_prob S hS hE (hd i)
    have hD := Denotes.mix (lc := none) (rc := none) (lo := none) (hi := none) hk hd hw hs trivial trivial
    have hpD := denotes_prob S hS hE hD
    rw [clamp_none, Measure.map_id] at hD hpD
    have hw' : ∀ i : Fin k, 0 ≤ ws[i.1]'(hk ▸ i.2) := fun i => (hw _ (List.getElem_mem _)).le
    have h1 : ∀ i : Fin k, Integrable (fun x : ℝ => x) (ENNReal.ofReal (ws[i.1]'(hk ▸ i.2)) • ν i) := fun i =>
      (hm i).1.smul_measure ENNReal.ofReal_ne_top
    have h2 : ∀ i : Fin k, Integrable (fun x : ℝ => x ^ 2) (ENNReal.ofReal (ws[i.1]'(hk ▸ i.2)) • ν i) := fun i =>
      ((hv i).second (hm i)).1.smul_measure ENNReal.ofReal_ne_top
    have hM : HasMean (∑ i : Fin k, ENNReal.ofReal (ws[i.1]'(hk ▸ i.2)) • ν i) mean := by
      refine ⟨integrable_finsetSum_measure.2 fun i _ => h1 i, ?_⟩
      rw [integral_finsetSum_measure fun i _ => h1 i]
      refine Eq.trans ?_ hmean.symm
      refine Finset.sum_congr rfl fun i _ => ?_
      rw [integral_smul_measure, ENNReal.toReal_ofReal (hw' i), smul_eq_mul, (hm i).2]
    have hone : ∑ i : Fin k, ws[i.1]'(hk ▸ i.2) = 1 := by
      subst hk
      rw [← hs]
      exact (Fin.sum_univ_getElem ws)
    refine ⟨_, hD, hM, hasVar_of hM (integrable_finsetSum_measure.2 fun i _ => h2 i)
      (q := ∑ i : Fin k, ws[i.1]'(hk ▸ i.2) * (v i + m i ^ 2)) ?_ ?_⟩
    · rw [integral_finsetSum_measure fun i _ => h2 i]
      refine Finset.sum_congr rfl fun i _ => ?_
      rw [integral_smul_measure, ENNReal.toReal_ofReal (hw' i), smul_eq_mul, ((hv i).second (hm i)).2]
    · have e : ∀ i : Fin k, ws[i.1]'(hk ▸ i.2) * (v i + (m i - mean) ^ 2)
          = ws[i.1]'(hk ▸ i.2) * (v i + m i ^ 2) - 2 * mean * (ws[i.1]'(hk ▸ i.2) * m i)
            + mean ^ 2 * ws[i.1]'(hk ▸ i.2) := fun i => by ring
      rw [Finset.sum_congr rfl fun i _ => e i, Finset.sum_add_distrib, Finset.sum_sub_distrib,
        ← Finset.mul_sum, ← Finset.mul_sum, ← hmean, hone]
      ring

/-- **C110**: likewise for the variance. -/
theorem C110_variance {d : Obj (St (ℕ → Ω) ℝ) ℝ} {m v : ℝ} (h : MomentsAre d m v) :
    StatTends S E d meanOf m ∧ StatTends S E d varOf v := by
  obtain ⟨μ, hd, ⟨hi, rfl⟩, hv, rfl⟩ := momentsAre_law S hS hE h
  exact ⟨C102_mean S hE (documented_uniform S hS) hd hi, C102_variance S hE (documented_uniform S hS) hd hv⟩

end

/-- **C110**: there is a generator with numpy's documented laws. -/
theorem C110_generator : ∃ S : IdealSource (Prim ℝ → ℝ), Documented S ∧ ∃ E, S.Drives E :=
  ⟨numpySource, fun p μ h => by rw [numpySource_primLaw, h],
    Env.patient
      { gen := numpySource.gen
        exp := Real.exp
        log := Real.log
        powf := fun x y => some (x ^ y)
        ppf := exists_ppf.choose
        fmt := fun _ => ""
        induce := fun _ _ => .error .unmodelled
        fuel := fun _ _ => 0 },
    ⟨rfl, Env.patient_patient _, fun _ _ _ => rfl, rfl, rfl, exists_ppf.choose_spec⟩⟩

/-- A cost estimate: 70% `gamma(shape=2, scale=3) * poisson(4)`, 30% `triangular(0, 1, 5) + 10`.  The mean is
0.7 * 24 + 0.3 * 12 = 20.4. -/
example {T : Type} : MeanIs (T := T) (.mix 2
    ![.bin (.op .mul) (.leaf (.gamma 2 3) none none) (.leaf (.poisson 4) none none),
      .bin (.op .add) (.leaf (.triangular 0 1 5) none none) (.lit (.int 10))] [7 / 10, 3 / 10] none none)
    (102 / 5) := by
  have h := MeanIs.mix (T := T) (k := 2)
    (ds := ![.bin (.op .mul) (.leaf (.gamma 2 3) none none) (.leaf (.poisson 4) none none),
      .bin (.op .add) (.leaf (.triangular 0 1 5) none none) (.lit (.int 10))])
    (m := ![2 * 3 * 4, (0 + 1 + 5) / 3 + 10]) (ws := [7 / 10, 3 / 10]) rfl (by
      intro i
      fin_cases i
      · exact .mul (.leaf (.gamma (by norm_num) (by norm_num))) (.leaf (.poisson (by norm_num)))
      · exact .add (.leaf (.triangular (by norm_num) (by norm_num) (by norm_num)))
          (.lit (Or.inr ⟨10, rfl, by norm_num⟩)))
    (by norm_num) (by norm_num)
  convert h using 1
  simp [Fin.sum_univ_two]
  norm_num

/-- `die(6) + die(6)`: mean 7, variance 35/6. -/
example {T : Type} : MomentsAre (T := T)
    (.bin (.op .add) (.leaf (.die ⟨6, none⟩) none none) (.leaf (.die ⟨6, none⟩) none none)) 7 (35 / 6) := by
  have h1 : LeafMean (.die ⟨6, none⟩) ((((6 : ℤ) : ℝ) + 1) / 2) := .die (by norm_num)
  have h2 : LeafVar (.die ⟨6, none⟩) (((((6 : ℤ) : ℝ)) ^ 2 - 1) / 12) := .die (by norm_num)
  have h := MomentsAre.add (T := T) (.leaf h1 h2) (.leaf h1 h2)
  norm_num at h
  exact h

end Verif
