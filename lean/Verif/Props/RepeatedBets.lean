import Verif.Spec.RepeatedBets
import Verif.Props.Families
import Verif.Props.Forecast

/-!
# C146: repeated bets at the stake that `kelly` recommends
-/

namespace Verif

open MeasureTheory ProbabilityTheory Spec

/-- The chance that `bernoulli(p)` gives 1. -/
theorem bernoulli_one {p : ℝ} (h : 0 ≤ p ∧ p ≤ 1) :
    ((binomial 1 ⟨p, h⟩).map fun k : ℕ => (k : ℝ)).real {x | x = 1} = p := by
  have hm : Measurable fun u : ℝ => if u < p then (1 : ℝ) else 0 :=
    Measurable.ite measurableSet_Iio measurable_const measurable_const
  rw [← bernoulli_binomial h, Measure.real, Measure.map_apply hm (measurableSet_eq_fun (by fun_prop) (by fun_prop))]
  have e : (fun u : ℝ => if u < p then (1 : ℝ) else 0) ⁻¹' {x | x = 1} = Set.Iio p := by
    ext u
    simp only [Set.mem_preimage, Set.mem_setOf_eq, Set.mem_Iio]
    by_cases hu : u < p
    · simp [hu]
    · simp [hu]
  rw [e, unitLaw, Measure.restrict_apply measurableSet_Iio]
  have e2 : Set.Iio p ∩ Set.Ico 0 1 = Set.Ico 0 p := by
    ext u
    simp only [Set.mem_inter_iff, Set.mem_Iio, Set.mem_Ico]
    constructor
    · rintro ⟨a, b, _⟩
      exact ⟨b, a⟩
    · rintro ⟨a, b⟩
      exact ⟨b, a, b.trans_le h.2⟩
  rw [e2, Real.volume_Ico, sub_zero, ENNReal.toReal_ofReal h.1]

open scoped Classical in
/-- The logarithm of the wealth counts the wins. -/
theorem log_wealth {m f : ℝ} (hm0 : 0 < m) (hf0 : 0 ≤ f) (hf1 : f < 1) (xs : List ℝ) :
    0 < wealth m f xs ∧ Real.log (wealth m f xs) =
      (xs.countP fun x => decide (x = 1)) * Real.log (1 - f + f / m) +
        ((xs.length : ℝ) - xs.countP fun x => decide (x = 1)) * Real.log (1 - f) := by
  have h1 : 0 < 1 - f := by linarith
  have h2 : 0 < 1 - f + f / m := by
    have : 0 ≤ f / m := div_nonneg hf0 hm0.le
    linarith
  induction xs with
  | nil => simp [wealth]
  | cons x xs ih =>
    obtain ⟨i1, i2⟩ := ih
    rw [wealth]
    by_cases hx : x = 1
    · rw [if_pos hx, List.countP_cons_of_pos (by simpa using hx)]
      refine ⟨mul_pos h2 i1, ?_⟩
      rw [Real.log_mul h2.ne' i1.ne', i2, List.length_cons]
      push_cast
      ring
    · rw [if_neg hx, List.countP_cons_of_neg (by simpa using hx)]
      refine ⟨mul_pos h1 i1, ?_⟩
      rw [Real.log_mul h1.ne' i1.ne', i2, List.length_cons]
      push_cast
      ring

/-- How far the average log growth is from the expected one, in terms of the frequency of wins. -/
theorem log_wealth_sub {m f p : ℝ} (hm0 : 0 < m) (hf0 : 0 ≤ f) (hf1 : f < 1) {xs : List ℝ} {n : ℕ} (hn : 1 ≤ n)
    (hl : xs.length = n) : ∃ q : ℝ, q = (xs.countP fun x => decide (x = 1) : ℕ) / (n : ℝ) ∧
      Real.log (wealth m f xs) = n * (logGrowth p m f + (q - p) * (Real.log (1 - f + f / m) - Real.log (1 - f))) := by
  refine ⟨_, rfl, ?_⟩
  have hn0 : (n : ℝ) ≠ 0 := by
    have : (1 : ℝ) ≤ n := by exact_mod_cast hn
    linarith
  rw [(log_wealth hm0 hf0 hf1 xs).2, hl, logGrowth]
  field_simp
  ring

section

variable {Ω : Type} [MeasurableSpace Ω] (S : IdealSource Ω) (hS : Documented S) {E : Env (ℕ → Ω) ℝ} (hE : S.Drives E)

include hS hE

/-- The frequency of wins in `n` simulated bets. -/
theorem wins {p : ℝ} (h : 0 ≤ p ∧ p ≤ 1) {n : ℕ} (hn : 1 ≤ n) (left : ℕ → ℕ → Option (List (Scalar ℝ))) {ε : ℝ}
    (hε : 0 < ε) {good : List ℝ → Prop}
    (hg : ∀ xs : List ℝ, xs.length = n → |((xs.countP fun x => decide (x = 1) : ℕ) : ℝ) / n - p| < ε → good xs) :
    (Measure.infinitePi fun _ : ℕ => S.law).real
      {ω | ¬ ∃ z s' xs, sampleObj E (.leaf (.bernoulli p) none none) n none none ⟨ω, left⟩ = (.ok z, s') ∧
        List.Forall₂ IsReal z.toList xs ∧ good xs}
      ≤ 2 * Real.exp (-2 * n * ε ^ 2) := by
  have hset : {x : ℝ | decide (x = 1) = true} = {x | x = 1} := by
    ext x
    simp
  have hd := denotes_bernoulli S hS h
  have hf := C87_frequency S hE (documented_uniform S hS) hd (fun x => decide (x = 1)) (by
    rw [hset]
    exact measurableSet_eq_fun (by fun_prop) (by fun_prop)) hn left hε
  rw [hset, bernoulli_one h] at hf
  obtain ⟨hp, X, hX, hae, -, -⟩ := C86_independent_samples S hE (documented_uniform S hS) hd hn left
  refine le_trans (ENNReal.toReal_mono (measure_ne_top _ _) (measure_mono_ae ?_)) hf
  filter_upwards [hae] with ω hω hbad
  rintro ⟨z, s', xs, hz, hx, hq⟩
  obtain ⟨z', s'', hz', hR⟩ := hω
  rw [hz] at hz'
  obtain ⟨rfl, rfl⟩ : z = z' ∧ s' = s'' := by
    simp only [Prod.mk.injEq, Except.ok.injEq] at hz'
    exact hz'
  refine hbad ⟨z, s', xs, hz, hx, hg xs ?_ hq⟩
  rw [← hx.length_eq, hR.2.length_eq, List.length_ofFn]

/-- **C146** (growth): bet the fraction `f` of the wealth `n` times on an event of chance `p` and price `m`, simulated with
`bernoulli(p)`.  The average log growth of the wealth is within `ε` of the expected one, except with probability at most
`2 exp(-2 n (ε / log((1 - f + f/m) / (1 - f)))²)`. -/
theorem C146_growth {p m f : ℝ} (h : 0 ≤ p ∧ p ≤ 1) (hm0 : 0 < m) (hf0 : 0 < f) (hf1 : f < 1) {n : ℕ} (hn : 1 ≤ n)
    (left : ℕ → ℕ → Option (List (Scalar ℝ))) {ε : ℝ} (hε : 0 < ε) :
    (Measure.infinitePi fun _ : ℕ => S.law).real
      {ω | ¬ ∃ z s' xs, sampleObj E (.leaf (.bernoulli p) none none) n none none ⟨ω, left⟩ = (.ok z, s') ∧
        List.Forall₂ IsReal z.toList xs ∧ |Real.log (wealth m f xs) / n - logGrowth p m f| < ε}
      ≤ 2 * Real.exp (-2 * n * (ε / Real.log ((1 - f + f / m) / (1 - f))) ^ 2) := by
  have h1 : 0 < 1 - f := by linarith
  have hfm : 0 < f / m := div_pos hf0 hm0
  have hn0 : (0 : ℝ) < n := by exact_mod_cast hn
  have hC : 0 < Real.log ((1 - f + f / m) / (1 - f)) := Real.log_pos (by rw [lt_div_iff₀ h1]; linarith)
  refine wins S hS hE h hn left (div_pos hε hC) ?_
  intro xs hl hq
  obtain ⟨q, rfl, e⟩ := log_wealth_sub (p := p) hm0 hf0.le hf1 hn hl
  rw [← Real.log_div (by linarith) h1.ne'] at e
  rw [e, mul_div_cancel_left₀ _ hn0.ne', add_sub_cancel_left, abs_mul, abs_of_pos hC]
  rwa [lt_div_iff₀ hC] at hq

/-- **C146**: the stake `f` that `kelly` recommends (it reports it rounded to three digits) beats any other fixed stake `g`
in the long run.  With `p` the price after deferring to the market and the bets simulated with `bernoulli(p)`, there is a
`c > 0` such that after `n` bets the wealth is more than `exp(c n)` times that of betting `g`, except with probability at
most `2 exp(-2 n c²)`. -/
theorem C146_beats {my m d bankroll current : ℝ} {error : Bool} {k : KellyBet} (hmm : m ≤ my)
    (hk : kelly my m d bankroll none current error = .ok k) :
    ∃ f, |k.kelly - f| ≤ 1 / 2000 ∧ f = (1 - d) * ((my - m) / (1 - m)) ∧ ∀ g, 0 ≤ g → g < 1 → g ≠ f → ∃ c, 0 < c ∧
      ∀ n : ℕ, 1 ≤ n → ∀ left : ℕ → ℕ → Option (List (Scalar ℝ)),
      (Measure.infinitePi fun _ : ℕ => S.law).real
        {ω | ¬ ∃ z s' xs, sampleObj E (.leaf (.bernoulli (my * (1 - d) + m * d)) none none) n none none ⟨ω, left⟩ =
            (.ok z, s') ∧
          List.Forall₂ IsReal z.toList xs ∧ wealth m g xs * Real.exp (c * n) < wealth m f xs}
        ≤ 2 * Real.exp (-2 * n * c ^ 2) := by
  obtain ⟨hm0, hm1, hy0, hy1, hd0, hd1, -⟩ := kelly_ok hk
  obtain ⟨f, hkf, hf0, hf1, hbest, -, hf, -⟩ := C60_growth_optimal my m d bankroll current error k hmm hk
  refine ⟨f, hkf, hf, ?_⟩
  intro g hg0 hg1 hne
  have hp : 0 ≤ my * (1 - d) + m * d ∧ my * (1 - d) + m * d ≤ 1 := by
    constructor
    · have : 0 ≤ 1 - d := by linarith
      positivity
    · nlinarith
  have hG := hbest g hg0 hg1 hne
  set p := my * (1 - d) + m * d
  set D := logGrowth p m f - logGrowth p m g with hD
  set C := (Real.log (1 - f + f / m) - Real.log (1 - f)) - (Real.log (1 - g + g / m) - Real.log (1 - g)) with hC
  have hD0 : 0 < D := by linarith
  have hC0 : 0 ≤ |C| := abs_nonneg C
  refine ⟨D / (2 * (|C| + 1)), by positivity, ?_⟩
  intro n hn left
  have hn0 : (0 : ℝ) < n := by exact_mod_cast hn
  refine wins S hS hE hp hn left (by positivity) ?_
  intro xs hl hq
  obtain ⟨q, e, ef⟩ := log_wealth_sub (p := p) hm0 hf0 hf1 hn hl
  obtain ⟨q', e', eg⟩ := log_wealth_sub (p := p) hm0 hg0 hg1 hn hl
  rw [← e] at hq
  rw [← e] at e'
  subst e'
  obtain ⟨w1, -⟩ := log_wealth hm0 hf0 hf1 xs
  obtain ⟨w2, -⟩ := log_wealth hm0 hg0 hg1 xs
  rw [← Real.log_lt_log_iff (mul_pos w2 (Real.exp_pos _)) w1, Real.log_mul w2.ne' (Real.exp_pos _).ne', Real.log_exp, ef, eg]
  have hdiff : (q' - p) * C ≥ -(D / (2 * (|C| + 1)) * |C|) := by
    have h1 : |(q' - p) * C| ≤ D / (2 * (|C| + 1)) * |C| := by
      rw [abs_mul]
      exact mul_le_mul_of_nonneg_right hq.le hC0
    exact (abs_le.1 h1).1
  have hsum : D / (2 * (|C| + 1)) * |C| + D / (2 * (|C| + 1)) = D / 2 := by
    field_simp
  have key : D / (2 * (|C| + 1)) < D + (q' - p) * C := by linarith
  have := mul_lt_mul_of_pos_left key hn0
  have e3 : (n : ℝ) * (D + (q' - p) * C) =
      n * (logGrowth p m f + (q' - p) * (Real.log (1 - f + f / m) - Real.log (1 - f))) -
        n * (logGrowth p m g + (q' - p) * (Real.log (1 - g + g / m) - Real.log (1 - g))) := by
    rw [hD, hC]
    ring
  rw [e3] at this
  linarith

end

/-- What betting another stake than the best one costs per bet: at most the squared distance of the chances for which the
two are best, relative to the variance. -/
theorem growth_loss {p m g : ℝ} (hm0 : 0 < m) (hm1 : m < 1) (hp1 : p < 1) (hpm : m ≤ p) (hg0 : 0 ≤ g) (hg1 : g < 1) :
    logGrowth p m ((p - m) / (1 - m)) - logGrowth p m g ≤
      ((1 - m) * (g - (p - m) / (1 - m))) ^ 2 / ((m + g * (1 - m)) * (1 - (m + g * (1 - m)))) := by
  have h1m : 0 < 1 - m := by linarith
  have h1p : 0 < 1 - p := by linarith
  have hp0 : 0 < p := hm0.trans_le hpm
  have h1g : 0 < 1 - g := by linarith
  set q := m + g * (1 - m) with hq
  have hq0 : 0 < q := by positivity
  have h1q : 0 < 1 - q := by
    have : 1 - q = (1 - m) * (1 - g) := by rw [hq]; ring
    rw [this]
    positivity
  have a1 : 1 - (p - m) / (1 - m) = (1 - p) / (1 - m) := by field_simp; ring
  have a2 : 1 - (p - m) / (1 - m) + (p - m) / (1 - m) / m = p / m := by field_simp; ring
  have b1 : 1 - g = (1 - q) / (1 - m) := by rw [hq]; field_simp; ring
  have b2 : 1 - g + g / m = q / m := by rw [hq]; field_simp; ring
  have c1 : (1 - m) * (g - (p - m) / (1 - m)) = q - p := by rw [hq]; field_simp; ring
  rw [logGrowth, logGrowth, a2, a1, b2, b1, c1, Real.log_div hp0.ne' hm0.ne', Real.log_div h1p.ne' h1m.ne',
    Real.log_div hq0.ne' hm0.ne', Real.log_div h1q.ne' h1m.ne']
  have l1 : Real.log p - Real.log q ≤ p / q - 1 := by
    rw [← Real.log_div hp0.ne' hq0.ne']
    exact Real.log_le_sub_one_of_pos (by positivity)
  have l2 : Real.log (1 - p) - Real.log (1 - q) ≤ (1 - p) / (1 - q) - 1 := by
    rw [← Real.log_div h1p.ne' h1q.ne']
    exact Real.log_le_sub_one_of_pos (by positivity)
  have e1 := mul_le_mul_of_nonneg_left l1 hp0.le
  have e2 := mul_le_mul_of_nonneg_left l2 h1p.le
  have e3 : p * (p / q - 1) + (1 - p) * ((1 - p) / (1 - q) - 1) = (q - p) ^ 2 / (q * (1 - q)) := by
    field_simp
    ring
  linarith

/-- **C146** (the reported stake): `kelly` reports the stake rounded to three digits.  If that is below 1, betting it costs,
compared with the best stake `f`, at most `((1 - m) / 2000)² / (q (1 - q))` of log growth per bet, where `q` is the chance
for which the reported stake would be the best.  Missing: reported stakes of 1, see `C146_reported_fails`. -/
theorem C146_reported_partial {my m d bankroll current : ℝ} {error : Bool} {k : KellyBet} (hmm : m ≤ my)
    (hk : kelly my m d bankroll none current error = .ok k) (h1 : k.kelly < 1) :
    ∃ f, |k.kelly - f| ≤ 1 / 2000 ∧ (∀ g, 0 ≤ g → g < 1 → g ≠ f →
        logGrowth (my * (1 - d) + m * d) m g < logGrowth (my * (1 - d) + m * d) m f) ∧
      logGrowth (my * (1 - d) + m * d) m f - logGrowth (my * (1 - d) + m * d) m k.kelly ≤
        ((1 - m) / 2000) ^ 2 / ((m + k.kelly * (1 - m)) * (1 - (m + k.kelly * (1 - m)))) := by
  obtain ⟨hm0, hm1, hy0, hy1, hd0, hd1, -, -, hkel, -⟩ := kelly_ok hk
  obtain ⟨f, hkf, hf0, hf1, hbest, -, hf, -⟩ := C60_growth_optimal my m d bankroll current error k hmm hk
  refine ⟨f, hkf, hbest, ?_⟩
  have h1m : 0 < 1 - m := by linarith
  have hk0 : 0 ≤ k.kelly := by
    rw [hkel]
    unfold roundTo
    refine div_nonneg ?_ (by positivity)
    have h0 : (0 : ℝ) ≤ |my * (1 - d) + m * d - m| / (1 - m) * 10 ^ 3 := by positivity
    have := (abs_le.1 (abs_roundEven_sub_le (|my * (1 - d) + m * d - m| / (1 - m) * 10 ^ 3))).1
    have h2 : (-1 : ℝ) < (roundEven (|my * (1 - d) + m * d - m| / (1 - m) * 10 ^ 3) : ℤ) := by
      push_cast
      linarith
    have h3 : (-1 : ℤ) < roundEven (|my * (1 - d) + m * d - m| / (1 - m) * 10 ^ 3) := by exact_mod_cast h2
    exact_mod_cast (by omega : (0 : ℤ) ≤ roundEven (|my * (1 - d) + m * d - m| / (1 - m) * 10 ^ 3))
  have hpm : m ≤ my * (1 - d) + m * d := by nlinarith
  have hp1 : my * (1 - d) + m * d < 1 := by nlinarith
  have hfe : f = (my * (1 - d) + m * d - m) / (1 - m) := by
    rw [hf]
    field_simp
    ring
  have hl := growth_loss hm0 hm1 hp1 hpm hk0 h1
  rw [← hfe] at hl
  refine hl.trans ?_
  have hq0 : 0 < m + k.kelly * (1 - m) := by positivity
  have h1q : 0 < 1 - (m + k.kelly * (1 - m)) := by
    have : 1 - (m + k.kelly * (1 - m)) = (1 - m) * (1 - k.kelly) := by ring
    rw [this]
    exact mul_pos h1m (by linarith)
  refine div_le_div_of_nonneg_right ?_ (by positivity)
  have : |(1 - m) * (k.kelly - f)| ≤ (1 - m) / 2000 := by
    rw [abs_mul, abs_of_pos h1m]
    calc (1 - m) * |k.kelly - f| ≤ (1 - m) * (1 / 2000) := mul_le_mul_of_nonneg_left hkf h1m.le
      _ = (1 - m) / 2000 := by ring
  exact sq_le_sq' (abs_le.1 this).1 (abs_le.1 this).2

/-- **C146** is false of the reported stake in general: for a chance of 0.99985 and a price of 1/2 the best stake is 0.9997,
but `kelly` reports 1.0, and whoever bets that has nothing left after the first loss. -/
theorem C146_reported_fails : ∃ k, kelly (19997 / 20000) (1 / 2) 0 1 none 0 true = .ok k ∧ k.kelly = 1 ∧
    ∀ xs : List ℝ, (∃ x ∈ xs, x ≠ 1) → wealth (1 / 2) k.kelly xs = 0 ∧ 0 < wealth (1 / 2) (9997 / 10000) xs := by
  obtain ⟨k, hk⟩ := (C60_accepted (19997 / 20000) (1 / 2) 0 1 0 true).1
    ⟨by norm_num, by norm_num, by norm_num, by norm_num, by norm_num, by norm_num, fun _ => by norm_num⟩
  obtain ⟨-, -, -, -, -, -, -, -, h1, -⟩ := kelly_ok hk
  have e : |(19997 / 20000 : ℝ) * (1 - 0) + 1 / 2 * 0 - 1 / 2| / (1 - 1 / 2) = 9997 / 10000 := by
    rw [abs_of_pos (by norm_num)]
    norm_num
  rw [e] at h1
  have hr : roundEven ((9997 / 10000 : ℝ) * 10 ^ 3) = 1000 := by
    have h := abs_le.1 (abs_roundEven_sub_le ((9997 / 10000 : ℝ) * 10 ^ 3))
    have a : ((999 : ℤ) : ℝ) < roundEven ((9997 / 10000 : ℝ) * 10 ^ 3) := by
      have := h.1
      push_cast
      norm_num at this ⊢
      linarith
    have b : (roundEven ((9997 / 10000 : ℝ) * 10 ^ 3) : ℝ) < ((1001 : ℤ) : ℝ) := by
      have := h.2
      push_cast
      norm_num at this ⊢
      linarith
    have a' : (999 : ℤ) < roundEven ((9997 / 10000 : ℝ) * 10 ^ 3) := by exact_mod_cast a
    have b' : roundEven ((9997 / 10000 : ℝ) * 10 ^ 3) < (1001 : ℤ) := by exact_mod_cast b
    omega
  have hk1 : k.kelly = 1 := by
    rw [h1, roundTo, hr]
    norm_num
  refine ⟨k, hk, hk1, ?_⟩
  rintro xs ⟨x, hx, hne⟩
  refine ⟨?_, (log_wealth (by norm_num) (by norm_num) (by norm_num) xs).1⟩
  rw [hk1]
  induction xs with
  | nil => simp at hx
  | cons y ys ih =>
    rw [wealth]
    rcases List.mem_cons.1 hx with rfl | hx
    · rw [if_neg hne]
      ring
    · rw [ih hx, mul_zero]

/-- The hypotheses are met: a chance of 70 % at a price of 40 cents.  The best stake is 1/2; betting a quarter falls behind. -/
example : ∃ S : IdealSource (Prim ℝ → ℝ), ∃ E : Env (ℕ → Prim ℝ → ℝ) ℝ, ∃ c : ℝ, 0 < c ∧
    ∀ n : ℕ, 1 ≤ n → (Measure.infinitePi fun _ : ℕ => S.law).real
        {ω | ¬ ∃ z s' xs, sampleObj E (.leaf (.bernoulli (7 / 10)) none none) n none none ⟨ω, fun _ _ => none⟩ =
            (.ok z, s') ∧
          List.Forall₂ IsReal z.toList xs ∧ wealth (4 / 10) (1 / 4) xs * Real.exp (c * n) < wealth (4 / 10) (1 / 2) xs}
        ≤ 2 * Real.exp (-2 * n * c ^ 2) := by
  obtain ⟨S, hS, E, hE⟩ := C110_generator
  obtain ⟨k, hk⟩ := (C60_accepted (7 / 10) (4 / 10) 0 1 0 true).1
    ⟨by norm_num, by norm_num, by norm_num, by norm_num, by norm_num, by norm_num, fun _ => by norm_num⟩
  obtain ⟨f, -, hf, h⟩ := C146_beats S hS hE (by norm_num) hk
  obtain rfl : f = 1 / 2 := by rw [hf]; norm_num
  obtain ⟨c, hc, hb⟩ := h (1 / 4) (by norm_num) (by norm_num) (by norm_num)
  refine ⟨S, E, c, hc, fun n hn => ?_⟩
  have := hb n hn fun _ _ => none
  norm_num at this ⊢
  exact this

end Verif
