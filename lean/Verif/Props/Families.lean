import Verif.Spec.Total
import Verif.Props.Algebra
import Verif.Props.ExpectedValue
import Verif.Lemmas.FamilyLaws

/-!
# C135: textbook identities between the distributions
-/

namespace Verif

open MeasureTheory ProbabilityTheory Spec

section

variable {Ω : Type} [MeasurableSpace Ω] (S : IdealSource Ω) (hS : Documented S)

include hS

/-! ### The laws of the distributions -/

theorem denotes_doc {l : Leaf ℝ} {p : Prim ℝ} {μ : Measure ℝ} (hl : leafLaw S.primLaw l = S.primLaw p)
    (h : numpyLaw p = some μ) : Denotes S.primLaw (.leaf l none none : Obj (St (ℕ → Ω) ℝ) ℝ) μ := by
  have := Denotes.leaf (S := St (ℕ → Ω) ℝ) (L := S.primLaw) (l := l) (lc := none) (rc := none) (lo := none)
    (hi := none) (hl.trans (hS p μ h)) trivial trivial
  rwa [clamp_none, Measure.map_id] at this

theorem denotes_poisson {a : ℝ} (h : 0 ≤ a) : Denotes S.primLaw (.leaf (.poisson a) none none : Obj (St (ℕ → Ω) ℝ) ℝ)
    ((poissonMeasure (.mk a h)).map fun k : ℕ => (k : ℝ)) := denotes_doc S hS rfl (dif_pos h)

theorem denotes_binomial (n : ℕ) {p : ℝ} (h : 0 ≤ p ∧ p ≤ 1) :
    Denotes S.primLaw (.leaf (.binomial n p) none none : Obj (St (ℕ → Ω) ℝ) ℝ)
      ((binomial n ⟨p, h⟩).map fun k : ℕ => (k : ℝ)) :=
  denotes_doc S hS (p := .binomial n p) rfl (dif_pos ⟨Int.natCast_nonneg n, h⟩)

theorem denotes_bernoulli {p : ℝ} (h : 0 ≤ p ∧ p ≤ 1) :
    Denotes S.primLaw (.leaf (.bernoulli p) none none : Obj (St (ℕ → Ω) ℝ) ℝ)
      ((binomial 1 ⟨p, h⟩).map fun k : ℕ => (k : ℝ)) := by
  have := Denotes.leaf (S := St (ℕ → Ω) ℝ) (L := S.primLaw) (l := .bernoulli p) (lc := none) (rc := none)
    (lo := none) (hi := none) (by rw [leafLaw, documented_uniform S hS]; rfl) trivial trivial
  rw [clamp_none, Measure.map_id] at this
  beta_reduce at this
  rwa [bernoulli_binomial h] at this

theorem denotes_gamma {a s : ℝ} (ha : 0 < a) (hs : 0 < s) :
    Denotes S.primLaw (.leaf (.gamma a s) none none : Obj (St (ℕ → Ω) ℝ) ℝ) (gammaMeasure a (1 / s)) :=
  denotes_doc S hS (p := .gamma a s) rfl (if_pos ⟨ha, hs⟩)

theorem denotes_exponential {s : ℝ} (hs : 0 < s) :
    Denotes S.primLaw (.leaf (.exponential s) none none : Obj (St (ℕ → Ω) ℝ) ℝ) (expMeasure (1 / s)) :=
  denotes_doc S hS (p := .exponential s) rfl (if_pos hs)

theorem denotes_chisquare {k : ℝ} (hk : 0 < k) :
    Denotes S.primLaw (.leaf (.chisquare k) none none : Obj (St (ℕ → Ω) ℝ) ℝ) (chisquareLaw k) :=
  denotes_doc S hS (p := .chisquare k) rfl (if_pos hk)

theorem denotes_geometric {p : ℝ} (h : 0 < p ∧ p ≤ 1) :
    Denotes S.primLaw (.leaf (.geometric p) none none : Obj (St (ℕ → Ω) ℝ) ℝ)
      ((geometricMeasure ⟨p, h.1.le, h.2⟩).map fun k : ℕ => (k : ℝ) + 1) :=
  denotes_doc S hS (p := .geometric p) rfl (dif_pos h)

theorem denotes_beta {a b : ℝ} (ha : 0 < a) (hb : 0 < b) :
    Denotes S.primLaw (.leaf (.beta a b) none none : Obj (St (ℕ → Ω) ℝ) ℝ) (betaMeasure a b) :=
  denotes_doc S hS (p := .beta a b) rfl (if_pos ⟨ha, hb⟩)

theorem denotes_between {x y : ℝ} (h : x < y) :
    Denotes S.primLaw (.leaf (.uniform x y) none none : Obj (St (ℕ → Ω) ℝ) ℝ) (uniformLaw x y) :=
  denotes_doc S hS (p := .uniform x y) rfl (if_pos h)

theorem denotes_norm (m : ℝ) {s : ℝ} (h : 0 ≤ s) :
    Denotes S.primLaw (.leaf (.normal m s) none none : Obj (St (ℕ → Ω) ℝ) ℝ) (normalLaw m s) :=
  denotes_doc S hS (p := .normal m s) rfl (if_pos h)

theorem denotes_triangular {l m r : ℝ} (h : l ≤ m ∧ m ≤ r ∧ l < r) :
    Denotes S.primLaw (.leaf (.triangular l m r) none none : Obj (St (ℕ → Ω) ℝ) ℝ) (triangularLaw l m r) :=
  denotes_doc S hS (p := .triangular l m r) rfl (if_pos h)

omit hS in
theorem denotes_total {d : Obj (St (ℕ → Ω) ℝ) ℝ} {μ : Measure ℝ} (hd : Denotes S.primLaw d μ) {F : ℕ → Measure ℝ}
    (h0 : F 0 = Measure.dirac 0) (h1 : ∀ n, (((F n).prod μ).map fun p : ℝ × ℝ => p.1 + p.2) = F (n + 1)) (n : ℕ) :
    Denotes S.primLaw (total d n) (F n) := by
  induction n with
  | zero =>
    rw [h0]
    exact .lit (Or.inr ⟨0, rfl, by simp⟩)
  | succ n ih =>
    rw [← h1]
    exact .bin (o := .add) rfl ih hd (.of_forall fun _ => trivial)

variable {E : Env (ℕ → Ω) ℝ} (hE : S.Drives E)

include hE

/-! ### Counts -/

/-- **C135**: `poisson(a) + poisson(b)` and `poisson(a + b)`. -/
theorem C135_poisson_sum {a b : ℝ} (ha : 0 ≤ a) (hb : 0 ≤ b) :
    SameSamples S E (.bin (.op .add) (.leaf (.poisson a) none none) (.leaf (.poisson b) none none))
      (.leaf (.poisson (a + b)) none none) :=
  C105_same_law S hE (documented_uniform S hS)
    (.bin (o := .add) rfl (denotes_poisson S hS ha) (denotes_poisson S hS hb) (.of_forall fun _ => trivial))
    (denotes_poisson S hS (add_nonneg ha hb)) (poisson_add _ _)

/-- **C135**: `binomial(n, p) + binomial(m, p)` and `binomial(n + m, p)`. -/
theorem C135_binomial_sum (n m : ℕ) {p : ℝ} (h0 : 0 ≤ p) (h1 : p ≤ 1) :
    SameSamples S E (.bin (.op .add) (.leaf (.binomial n p) none none) (.leaf (.binomial m p) none none))
      (.leaf (.binomial (n + m : ℕ) p) none none) :=
  C105_same_law S hE (documented_uniform S hS)
    (.bin (o := .add) rfl (denotes_binomial S hS n ⟨h0, h1⟩) (denotes_binomial S hS m ⟨h0, h1⟩)
      (.of_forall fun _ => trivial))
    (denotes_binomial S hS (n + m) ⟨h0, h1⟩) (binomial_add n m _)

/-- **C135**: `binomial(n, p)` counts the ones among `n` numbers of `bernoulli(p)`; `n = 1` says that the two are
the same. -/
theorem C135_bernoulli_count (n : ℕ) {p : ℝ} (h0 : 0 ≤ p) (h1 : p ≤ 1) :
    SameSamples S E (total (.leaf (.bernoulli p) none none) n) (.leaf (.binomial n p) none none) := by
  refine C105_same_law S hE (documented_uniform S hS)
    (denotes_total S (denotes_bernoulli S hS ⟨h0, h1⟩) (F := fun n => (binomial n ⟨p, h0, h1⟩).map fun k : ℕ => (k : ℝ))
      ?_ (fun n => binomial_add n 1 _) n) (denotes_binomial S hS n ⟨h0, h1⟩) rfl
  show (binomial 0 ⟨p, h0, h1⟩).map (fun k : ℕ => (k : ℝ)) = _
  rw [binomial_zero]
  simp

/-! ### Waiting times -/

/-- **C135**: `exponential(s)` and `gamma(1, s)`; `chisquare(k)` and `gamma(k / 2, 2)`. -/
theorem C135_gamma_special {s k : ℝ} (hs : 0 < s) (hk : 0 < k) :
    SameSamples S E (.leaf (.exponential s) none none) (.leaf (.gamma 1 s) none none) ∧
    SameSamples S E (.leaf (.chisquare k) none none) (.leaf (.gamma (k / 2) 2) none none) :=
  ⟨C105_same_law S hE (documented_uniform S hS) (denotes_exponential S hS hs) (denotes_gamma S hS one_pos hs) rfl,
    C105_same_law S hE (documented_uniform S hS) (denotes_chisquare S hS hk)
      (denotes_gamma S hS (by positivity) two_pos) rfl⟩

/-- **C135**: `gamma(a, s) + gamma(b, s)` and `gamma(a + b, s)`. -/
theorem C135_gamma_sum {a b s : ℝ} (ha : 0 < a) (hb : 0 < b) (hs : 0 < s) :
    SameSamples S E (.bin (.op .add) (.leaf (.gamma a s) none none) (.leaf (.gamma b s) none none))
      (.leaf (.gamma (a + b) s) none none) :=
  C105_same_law S hE (documented_uniform S hS)
    (.bin (o := .add) rfl (denotes_gamma S hS ha hs) (denotes_gamma S hS hb hs) (.of_forall fun _ => trivial))
    (denotes_gamma S hS (add_pos ha hb) hs) (gamma_add ha hb (by positivity))

/-- **C135**: `c * gamma(a, s)` and `gamma(a, c * s)`; likewise for `exponential`. -/
theorem C135_gamma_scale {a c s : ℝ} (ha : 0 < a) (hc : 0 < c) (hs : 0 < s) :
    SameSamples S E (.bin (.op .mul) (.lit (.flt c)) (.leaf (.gamma a s) none none))
      (.leaf (.gamma a (c * s)) none none) ∧
    SameSamples S E (.bin (.op .mul) (.lit (.flt c)) (.leaf (.exponential s) none none))
      (.leaf (.exponential (c * s)) none none) := by
  have hp := isProbabilityMeasure_gammaMeasure ha (show 0 < 1 / s by positivity)
  have hp' := isProbabilityMeasure_expMeasure (show 0 < 1 / s by positivity)
  have e : 1 / s / c = 1 / (c * s) := by field_simp
  constructor
  · refine C105_same_law S hE (documented_uniform S hS)
      (.bin (o := .mul) rfl (denotes_num _ c) (denotes_gamma S hS ha hs) (.of_forall fun _ => trivial))
      (denotes_gamma S hS ha (by positivity)) ?_
    rw [map_dirac_prod (g := (· * ·)) (by fun_prop), ← e]
    exact gamma_scale ha (by positivity) hc
  · refine C105_same_law S hE (documented_uniform S hS)
      (.bin (o := .mul) rfl (denotes_num _ c) (denotes_exponential S hS hs) (.of_forall fun _ => trivial))
      (denotes_exponential S hS (by positivity)) ?_
    rw [map_dirac_prod (g := (· * ·)) (by fun_prop), ← e]
    exact gamma_scale one_pos (by positivity) hc

omit hS hE in
/-- The sum of `n` numbers of the law `gamma(a, 1 / r)`. -/
theorem denotes_total_gamma {d : Obj (St (ℕ → Ω) ℝ) ℝ} {a r : ℝ} (ha : 0 < a) (hr : 0 < r)
    (hd : Denotes S.primLaw d (gammaMeasure a r)) (n : ℕ) :
    Denotes S.primLaw (total d (n + 1)) (gammaMeasure ((n + 1 : ℕ) * a) r) := by
  have hp := isProbabilityMeasure_gammaMeasure ha hr
  refine denotes_total S hd (F := fun n => if n = 0 then Measure.dirac 0 else gammaMeasure (n * a) r) rfl (fun n => ?_)
    (n + 1)
  rcases n with _ | n
  · show (((Measure.dirac (0 : ℝ)).prod (gammaMeasure a r)).map fun p : ℝ × ℝ => p.1 + p.2)
      = gammaMeasure ((0 + 1 : ℕ) * a) r
    rw [map_dirac_prod (g := (· + ·)) (by fun_prop)]
    simp
  · have : 0 < ((n + 1 : ℕ) : ℝ) * a := by positivity
    show (((gammaMeasure ((n + 1 : ℕ) * a) r).prod (gammaMeasure a r)).map fun p : ℝ × ℝ => p.1 + p.2)
      = gammaMeasure ((n + 1 + 1 : ℕ) * a) r
    rw [gamma_add this ha hr]
    congr 1
    push_cast
    ring

/-- **C135**: the sum of `n` numbers of `exponential(s)` and `gamma(n, s)`. -/
theorem C135_exponential_total {s : ℝ} (hs : 0 < s) {n : ℕ} (hn : 0 < n) :
    SameSamples S E (total (.leaf (.exponential s) none none) n) (.leaf (.gamma n s) none none) := by
  obtain ⟨n, rfl⟩ := Nat.exists_eq_succ_of_ne_zero hn.ne'
  refine C105_same_law S hE (documented_uniform S hS)
    (denotes_total_gamma S one_pos (by positivity) (denotes_exponential S hS hs) n)
    (denotes_gamma S hS (by positivity) hs) ?_
  rw [mul_one]

/-- **C135**: the sum of `n` squares of `norm(0, 1)` and `chisquare(n)`. -/
theorem C135_chisquare_total {n : ℕ} (hn : 0 < n) :
    SameSamples S E (total (.bin (.op .pow) (.leaf (.normal 0 1) none none) (.lit (.int 2))) n)
      (.leaf (.chisquare n) none none) := by
  obtain ⟨n, rfl⟩ := Nat.exists_eq_succ_of_ne_zero hn.ne'
  have h1 : Denotes S.primLaw
      (.bin (.op .pow) (.leaf (.normal 0 1) none none) (.lit (.int 2)) : Obj (St (ℕ → Ω) ℝ) ℝ)
      (gammaMeasure (1 / 2) (1 / 2)) := by
    have h := Denotes.bin (S := St (ℕ → Ω) ℝ) (L := S.primLaw) (o := .pow) rfl (denotes_norm S hS 0 one_pos.le)
      (.lit (v := .int 2) (r := 2) (Or.inr ⟨2, rfl, by simp⟩)) (by
        rw [Measure.prod_dirac, ae_map_iff (by fun_prop)]
        · exact .of_forall fun x => Or.inl ⟨2, by simp⟩
        · have : {p : ℝ × ℝ | opDefined .pow p.1 p.2}
              = {p | p.2 ∈ Set.range (Nat.cast : ℕ → ℝ)} ∪ {p | 0 < p.1 ∧ 0 ≤ p.2} := by
            ext p
            simp [opDefined, eq_comm]
          rw [this]
          exact (measurable_snd (Set.countable_range _).measurableSet).union
            ((measurable_fst measurableSet_Ioi).inter (measurable_snd measurableSet_Ici)))
    rw [map_prod_dirac (g := (· ^ ·)) (by fun_prop)] at h
    have e : (fun x : ℝ => x ^ (2 : ℝ)) = fun x => x ^ 2 := by
      funext x
      exact Real.rpow_two x
    rw [e, normal_sq] at h
    exact h
  refine C105_same_law S hE (documented_uniform S hS)
    (denotes_total_gamma S (by norm_num) (by norm_num) h1 n)
    (denotes_chisquare S hS (by positivity)) ?_
  rw [chisquareLaw]
  congr 1
  ring

/-- **C135**: `dist_min(exponential(s), exponential(t))` and `exponential(1 / (1 / s + 1 / t))`. -/
theorem C135_exponential_min {s t : ℝ} (hs : 0 < s) (ht : 0 < t) :
    SameSamples S E (.bin (.op .min) (.leaf (.exponential s) none none) (.leaf (.exponential t) none none))
      (.leaf (.exponential (1 / (1 / s + 1 / t))) none none) := by
  refine C105_same_law S hE (documented_uniform S hS)
    (.bin (o := .min) rfl (denotes_exponential S hS hs) (denotes_exponential S hS ht) (.of_forall fun _ => trivial))
    (denotes_exponential S hS (by positivity)) ?_
  rw [one_div_one_div]
  exact exp_min (by positivity) (by positivity)

/-- **C135**: `dist_min(geometric(p), geometric(q))` and `geometric(p + q - p * q)`. -/
theorem C135_geometric_min {p q : ℝ} (hp : 0 < p ∧ p ≤ 1) (hq : 0 < q ∧ q ≤ 1) :
    SameSamples S E (.bin (.op .min) (.leaf (.geometric p) none none) (.leaf (.geometric q) none none))
      (.leaf (.geometric (p + q - p * q)) none none) := by
  have hr : 0 < p + q - p * q ∧ p + q - p * q ≤ 1 := by
    constructor
    · nlinarith [hp.1, hp.2, hq.1]
    · nlinarith [mul_nonneg (sub_nonneg.2 hp.2) (sub_nonneg.2 hq.2)]
  exact C105_same_law S hE (documented_uniform S hS)
    (.bin (o := .min) rfl (denotes_geometric S hS hp) (denotes_geometric S hS hq) (.of_forall fun _ => trivial))
    (denotes_geometric S hS hr)
    (geometric_min (fun h => hp.1.ne' (congrArg Subtype.val h)) (fun h => hq.1.ne' (congrArg Subtype.val h)) rfl)

/-- **C135**: `dist_ceil(exponential(s))` and `geometric(1 - exp(-1 / s))`. -/
theorem C135_exponential_ceil {s : ℝ} (hs : 0 < s) :
    SameSamples S E (.un .ceil (.leaf (.exponential s) none none))
      (.leaf (.geometric (1 - Real.exp (-(1 / s)))) none none) := by
  have h1 : Real.exp (-(1 / s)) < 1 := by
    rw [← Real.exp_zero]
    exact Real.exp_lt_exp.2 (neg_lt_zero.2 (by positivity))
  exact C105_same_law S hE (documented_uniform S hS)
    (.un (f := .ceil) rfl (denotes_exponential S hS hs))
    (denotes_geometric S hS ⟨by linarith, by linarith [Real.exp_pos (-(1 / s))]⟩)
    (exp_ceil (by positivity) rfl)

/-! ### Proportions -/

/-- **C135**: `beta(1, 1)` and `uniform(0, 1)`; `1 - beta(a, b)` and `beta(b, a)`. -/
theorem C135_beta_reflect {a b : ℝ} (ha : 0 < a) (hb : 0 < b) :
    SameSamples S E (.leaf (.beta 1 1) none none) (.leaf (.uniform 0 1) none none) ∧
    SameSamples S E (.bin (.op .sub) (.lit (.int 1)) (.leaf (.beta a b) none none)) (.leaf (.beta b a) none none) := by
  have := isProbabilityMeasureBeta ha hb
  refine ⟨C105_same_law S hE (documented_uniform S hS) (denotes_beta S hS one_pos one_pos)
    (denotes_between S hS one_pos) beta_one_one,
    C105_same_law S hE (documented_uniform S hS)
      (.bin (o := .sub) rfl (.lit (v := .int 1) (r := 1) (Or.inr ⟨1, rfl, by simp⟩)) (denotes_beta S hS ha hb)
        (.of_forall fun _ => trivial)) (denotes_beta S hS hb ha) ?_⟩
  rw [map_dirac_prod (g := (· - ·)) (by fun_prop)]
  exact beta_reflect a b

/-- **C135**: `dist_max(beta(a, 1), beta(b, 1))` and `beta(a + b, 1)`; in particular
`dist_max(uniform(0, 1), uniform(0, 1))` and `beta(2, 1)`. -/
theorem C135_beta_max {a b : ℝ} (ha : 0 < a) (hb : 0 < b) :
    SameSamples S E (.bin (.op .max) (.leaf (.beta a 1) none none) (.leaf (.beta b 1) none none))
      (.leaf (.beta (a + b) 1) none none) ∧
    SameSamples S E (.bin (.op .max) (.leaf (.uniform 0 1) none none) (.leaf (.uniform 0 1) none none))
      (.leaf (.beta 2 1) none none) := by
  refine ⟨C105_same_law S hE (documented_uniform S hS)
    (.bin (o := .max) rfl (denotes_beta S hS ha one_pos) (denotes_beta S hS hb one_pos) (.of_forall fun _ => trivial))
    (denotes_beta S hS (add_pos ha hb) one_pos) (beta_max ha hb),
    C105_same_law S hE (documented_uniform S hS)
    (.bin (o := .max) rfl (denotes_between S hS one_pos) (denotes_between S hS one_pos) (.of_forall fun _ => trivial))
    (denotes_beta S hS two_pos one_pos) ?_⟩
  rw [← beta_one_one]
  refine (beta_max one_pos one_pos).trans ?_
  norm_num

/-- **C135**: `uniform(0, 1) ** c` and `beta(1 / c, 1)`. -/
theorem C135_uniform_power {c : ℝ} (hc : 0 < c) :
    SameSamples S E (.bin (.op .pow) (.leaf (.uniform 0 1) none none) (.lit (.flt c)))
      (.leaf (.beta (1 / c) 1) none none) := by
  have := isProbabilityMeasureBeta one_pos one_pos
  have hu := denotes_between S hS one_pos
  rw [← beta_one_one] at hu
  refine C105_same_law S hE (documented_uniform S hS)
    (.bin (o := .pow) rfl hu (denotes_num _ c) ?_) (denotes_beta S hS (by positivity) one_pos) ?_
  · have h1 : ∀ᵐ p ∂(betaMeasure 1 1).prod (Measure.dirac c), 0 < p.1 :=
      Measure.quasiMeasurePreserving_fst.ae (beta_ae_pos 1 1)
    have h2 : ∀ᵐ p ∂(betaMeasure 1 1).prod (Measure.dirac c), p.2 = c :=
      Measure.quasiMeasurePreserving_snd.ae (p := fun y => y = c) (by simp [ae_dirac_eq])
    filter_upwards [h1, h2] with p h3 h4
    exact Or.inr ⟨h3, by rw [h4]; exact hc.le⟩
  · rw [map_prod_dirac (g := (· ^ ·)) (by fun_prop)]
    exact beta_pow one_pos hc

/-- **C135**: `uniform(a, a + w) + uniform(c, c + w)` and `triangular(a + c, a + c + w, a + c + 2 * w)`. -/
theorem C135_uniform_sum (a c : ℝ) {w : ℝ} (hw : 0 < w) :
    SameSamples S E (.bin (.op .add) (.leaf (.uniform a (a + w)) none none) (.leaf (.uniform c (c + w)) none none))
      (.leaf (.triangular (a + c) (a + c + w) (a + c + 2 * w)) none none) :=
  C105_same_law S hE (documented_uniform S hS)
    (.bin (o := .add) rfl (denotes_between S hS (by linarith)) (denotes_between S hS (by linarith))
      (.of_forall fun _ => trivial))
    (denotes_triangular S hS ⟨by linarith, by linarith, by linarith⟩) (uniform_add a c hw)

/-- **C135**: `pert(l, m, r, lam=0)` and `uniform(l, r)`. -/
theorem C135_pert_flat {l m r : ℝ} (h : l < r) :
    SameSamples S E (.leaf (.pert l m r 0) none none) (.leaf (.uniform l r) none none) := by
  have hd := Denotes.leaf (S := St (ℕ → Ω) ℝ) (L := S.primLaw) (l := .pert l m r 0) (lc := none) (rc := none)
    (lo := none) (hi := none) (by
      rw [leafLaw, zero_mul, zero_mul, add_zero, hS (.beta 1 1) (betaMeasure 1 1) (if_pos ⟨one_pos, one_pos⟩)]
      rfl) trivial trivial
  rw [clamp_none, Measure.map_id, beta_one_one, uniformLaw_unit] at hd
  beta_reduce at hd
  rw [uniformLaw_of_unit h] at hd
  exact C105_same_law S hE (documented_uniform S hS) hd (denotes_between S hS h) rfl

end

/-! ### Concrete cases -/

/-- A generator with numpy's laws: `poisson(2) + poisson(3)`, two dozen coin tosses, the third of several events
at exponential intervals, the sum of two uniform numbers. -/
example : ∃ (S : IdealSource (Prim ℝ → ℝ)) (E : Env (ℕ → Prim ℝ → ℝ) ℝ),
    SameSamples S E (.bin (.op .add) (.leaf (.poisson 2) none none) (.leaf (.poisson 3) none none))
      (.leaf (.poisson (2 + 3)) none none) ∧
    SameSamples S E (total (.leaf (.bernoulli (1 / 2)) none none) 24) (.leaf (.binomial 24 (1 / 2)) none none) ∧
    SameSamples S E (total (.leaf (.exponential 5) none none) 3) (.leaf (.gamma 3 5) none none) ∧
    SameSamples S E (.bin (.op .add) (.leaf (.uniform 1 (1 + 2)) none none) (.leaf (.uniform 0 (0 + 2)) none none))
      (.leaf (.triangular (1 + 0) (1 + 0 + 2) (1 + 0 + 2 * 2)) none none) := by
  obtain ⟨S, hS, E, hE⟩ := C110_generator
  refine ⟨S, E, C135_poisson_sum S hS hE (by norm_num) (by norm_num),
    C135_bernoulli_count S hS hE 24 (by norm_num) (by norm_num), ?_, C135_uniform_sum S hS hE 1 0 two_pos⟩
  exact_mod_cast C135_exponential_total S hS hE (s := 5) (by norm_num) (n := 3) (by norm_num)

end Verif
