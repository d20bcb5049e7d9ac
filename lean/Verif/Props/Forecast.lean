import Verif.Lemmas.Round
import Verif.Lemmas.Geo
import Verif.Spec.Betting

/-!
# Properties of `laplace`, growth rates, `kelly`, `extremize`, `sharpe_ratio` (C58–C62, C70)
-/

namespace Verif
open Verif.Spec

/-! ### C58: laplace -/

/-- **C58** (trials): `laplace(s, n)` is `(s+1)/(n+2)`, a probability strictly between 0 and 1; more
successes than trials raise ValueError. -/
theorem C58_trials (s n : ℝ) (hs : 0 ≤ s) (fixed : Bool) :
    (s ≤ n → ∃ p, laplace s (some n) none none fixed = .ok p ∧ p = (s + 1) / (n + 2) ∧ 0 < p ∧ p < 1) ∧
    (n < s → laplace s (some n) none none fixed = .error .valueError) := by
  refine ⟨fun h => ?_, fun h => ?_⟩
  · have hn : 0 < n + 2 := by linarith
    refine ⟨(s + 1) / (n + 2), ?_, rfl, by positivity, by rw [div_lt_one hn]; linarith⟩
    simp only [laplace]
    rw [if_neg (not_lt.2 h), if_neg hn.ne']
  · simp only [laplace]
    rw [if_pos h]

/-- **C58**: more successes make it more likely, more trials less likely. -/
theorem C58_trials_monotone (s s' n n' p p' : ℝ) (hs : 0 ≤ s) (hss : s ≤ s') (hn : n' ≤ n)
    (h : laplace s (some n) = .ok p) (h' : laplace s' (some n') = .ok p') :
    p ≤ p' ∧ ((s < s' ∨ n' < n) → p < p') := by
  have hle : s ≤ n := by
    by_contra hc
    rw [(C58_trials s n hs false).2 (not_le.1 hc)] at h
    simp at h
  have hle' : s' ≤ n' := by
    by_contra hc
    rw [(C58_trials s' n' (hs.trans hss) false).2 (not_le.1 hc)] at h'
    simp at h'
  obtain ⟨q, h1, h2, _⟩ := (C58_trials s n hs false).1 hle
  obtain ⟨q', h1', h2', _⟩ := (C58_trials s' n' (hs.trans hss) false).1 hle'
  rw [h] at h1
  rw [h'] at h1'
  simp only [Except.ok.injEq] at h1 h1'
  subst h1 h1'
  rw [h2, h2']
  have hp : 0 < n + 2 := by linarith
  have hp' : 0 < n' + 2 := by linarith
  refine ⟨?_, ?_⟩
  · rw [div_le_div_iff₀ hp hp']
    nlinarith
  · intro hor
    rw [div_lt_div_iff₀ hp hp']
    rcases hor with hor | hor
    · nlinarith
    · nlinarith

example : laplace 1 (some 2) = .ok ((1 + 1) / (2 + 2)) := by
  obtain ⟨p, h, rfl, _⟩ := (C58_trials 1 2 (by norm_num) false).1 (by norm_num)
  exact h

/-- The exponent of the time-invariant rule for `s` successes. -/
def timeExponent (s : ℕ) (fixed : Bool) : ℝ := if s = 0 then 1 else if fixed then s + 1 else s

theorem timeExponent_pos (s : ℕ) (fixed : Bool) : 0 < timeExponent s fixed := by
  unfold timeExponent
  split_ifs with h1 h2
  · exact one_pos
  · positivity
  · exact_mod_cast Nat.pos_of_ne_zero h1

theorem laplaceTime_eq {r t k : ℝ} (ht : 0 < t) (hr : 0 < r) :
    laplaceTime r t k = .ok (1 - (1 + r / t) ^ (-k)) := by
  unfold laplaceTime
  rw [if_neg ht.ne']
  have : 0 < 1 + r / t := by positivity
  simp only [if_pos this]

/-- **C58** (time): for `s` past successes in the time `t`, the probability of another one within `r` is
`1 - (1 + r/t) ^ -k` with `k = 1` without successes, `s + 1` for a fixed time period and `s` for one
chosen to include the last success; it is strictly between 0 and 1.  Leaving out `time_remaining`
means `r = 1`. -/
theorem C58_time (s : ℕ) (t r : ℝ) (ht : 0 < t) (hr : 0 < r) (fixed : Bool) :
    (∃ p, laplace s none (some t) (some r) fixed = .ok p ∧
      p = 1 - (1 + r / t) ^ (-timeExponent s fixed) ∧ 0 < p ∧ p < 1) ∧
    laplace s none (some t) none fixed = laplace s none (some t) (some 1) fixed := by
  refine ⟨⟨1 - (1 + r / t) ^ (-timeExponent s fixed), ?_, rfl, ?_, ?_⟩, rfl⟩
  · simp only [laplace, laplace.timed, Option.getD_some]
    unfold timeExponent
    by_cases h0 : s = 0
    · subst h0
      simp only [Nat.cast_zero, if_true]
      exact laplaceTime_eq ht hr
    · have : (0 : ℝ) < s := by exact_mod_cast Nat.pos_of_ne_zero h0
      rw [if_neg this.ne', if_pos this, if_neg h0]
      cases fixed
      · exact laplaceTime_eq ht hr
      · exact laplaceTime_eq ht hr
  · have : (1 : ℝ) < 1 + r / t := by
      have : 0 < r / t := by positivity
      linarith
    have := Real.rpow_lt_one_of_one_lt_of_neg this (neg_neg_of_pos (timeExponent_pos s fixed))
    linarith
  · have : (0 : ℝ) < 1 + r / t := by positivity
    have := Real.rpow_pos_of_pos this (-timeExponent s fixed)
    linarith

/-- **C58**: the time-invariant probability grows with the remaining time and shrinks with the time
that has passed (strictly), and does not shrink with more successes. -/
theorem C58_time_monotone (s s' : ℕ) (t t' r r' p p' : ℝ) (ht' : 0 < t') (hr : 0 < r) (fixed : Bool)
    (hss : s ≤ s') (htt : t' ≤ t) (hrr : r ≤ r')
    (h : laplace s none (some t) (some r) fixed = .ok p)
    (h' : laplace s' none (some t') (some r') fixed = .ok p') :
    p ≤ p' ∧ ((t' < t ∨ r < r') → p < p') := by
  have ht : 0 < t := ht'.trans_le htt
  have hr' : 0 < r' := hr.trans_le hrr
  obtain ⟨q, h1, h2, _⟩ := (C58_time s t r ht hr fixed).1
  obtain ⟨q', h1', h2', _⟩ := (C58_time s' t' r' ht' hr' fixed).1
  rw [h] at h1
  rw [h'] at h1'
  simp only [Except.ok.injEq] at h1 h1'
  subst h1 h1'
  rw [h2, h2']
  have hexp : timeExponent s fixed ≤ timeExponent s' fixed := by
    have hc : (s : ℝ) ≤ s' := by exact_mod_cast hss
    unfold timeExponent
    split_ifs with a b c d
    · exact le_rfl
    · have : (0 : ℝ) ≤ s' := by positivity
      linarith
    · have : 1 ≤ s' := Nat.one_le_iff_ne_zero.2 b
      exact_mod_cast this
    · omega
    · linarith
    · omega
    · exact hc
  have hb : 1 < 1 + r / t := by
    have : 0 < r / t := by positivity
    linarith
  have hbb : 1 + r / t ≤ 1 + r' / t' := by
    have : r / t ≤ r' / t' := by
      rw [div_le_div_iff₀ ht ht']
      nlinarith
    linarith
  have hk := timeExponent_pos s fixed
  have step1 : (1 + r' / t') ^ (-timeExponent s' fixed) ≤ (1 + r' / t') ^ (-timeExponent s fixed) :=
    Real.rpow_le_rpow_of_exponent_le (hb.le.trans hbb) (by linarith)
  have step2 : (1 + r' / t') ^ (-timeExponent s fixed) ≤ (1 + r / t) ^ (-timeExponent s fixed) :=
    Real.rpow_le_rpow_of_nonpos (by linarith) hbb (by linarith)
  refine ⟨by linarith, ?_⟩
  intro hor
  have hlt : 1 + r / t < 1 + r' / t' := by
    have : r / t < r' / t' := by
      rw [div_lt_div_iff₀ ht ht']
      rcases hor with hor | hor
      · nlinarith
      · nlinarith
    linarith
  have step3 : (1 + r' / t') ^ (-timeExponent s fixed) < (1 + r / t) ^ (-timeExponent s fixed) :=
    Real.rpow_lt_rpow_of_neg (by linarith) hlt (by linarith)
  linarith

/-- **C58**: only the ratio of the times matters. -/
theorem C58_time_ratio (s : ℝ) (n : Option ℝ) (t r c : ℝ) (hc : c ≠ 0) (fixed : Bool) :
    laplace s n (some (c * t)) (some (c * r)) fixed = laplace s n (some t) (some r) fixed := by
  have key : ∀ k, laplaceTime (c * r) (c * t) k = laplaceTime r t k := by
    intro k
    unfold laplaceTime
    by_cases ht : t = 0
    · rw [if_pos ht, if_pos (by rw [ht, mul_zero])]
    · rw [if_neg ht, if_neg (mul_ne_zero hc ht), mul_div_mul_left _ _ hc]
  cases n with
  | none => simp only [laplace, laplace.timed, Option.getD_some, key]
  | some n => simp only [laplace, laplace.timed, Option.getD_some, key]

/-- **C58** (remaining parameter combinations): neither `n` nor `time_passed`, `time_remaining` without
`time_passed`, or more successes than trials raise ValueError; `n` next to the times only bounds `s`. -/
theorem C58_parameters (s : ℝ) (r : Option ℝ) (fixed : Bool) :
    laplace s none none r fixed = .error .valueError ∧
    (∀ n r', laplace s (some n) none (some r') fixed = .error .valueError) ∧
    (∀ n t, n < s → laplace s (some n) t r fixed = .error .valueError) ∧
    (∀ n t, s ≤ n → laplace s (some n) (some t) r fixed = laplace s none (some t) r fixed) ∧
    (∀ n t, s < 0 → laplace s n (some t) r fixed = .error .valueError) := by
  refine ⟨rfl, ?_, ?_, ?_, ?_⟩
  · intro n r'
    simp only [laplace, ite_self]
  · intro n t h
    cases t with
    | none => cases r <;> simp only [laplace, gt_iff_lt, if_pos h]
    | some t => simp only [laplace, gt_iff_lt, if_pos h]
  · intro n t h
    simp only [laplace]
    rw [if_neg (not_lt.2 h)]
  · intro n t h
    have : laplace.timed s fixed t r = .error .valueError := by
      unfold laplace.timed
      rw [if_neg h.ne, if_neg (not_lt.2 h.le)]
    cases n with
    | none => simpa only [laplace] using this
    | some n => simp only [laplace, this, ite_self]

example : ∃ p, laplace (1 : ℕ) none (some 77) (some 1) = .ok p ∧ p = 1 - (1 + 1 / 77) ^ (-1 : ℝ) := by
  obtain ⟨p, h1, h2, _⟩ := (C58_time 1 77 1 (by norm_num) (by norm_num) false).1
  exact ⟨p, h1, by rw [h2]; simp [timeExponent]⟩

/-! ### C59: growth rates and doubling times -/

/-- **C59**: for a positive growth rate the doubling time exists, is positive, the quantity has exactly
doubled after it, and converting back gives the rate. -/
theorem C59_growth (g : ℝ) (hg : 0 < g) :
    ∃ d, growthToDoubling g = .ok d ∧ 0 < d ∧ (1 + g) ^ d = 2 ∧ doublingToGrowth d = .ok g := by
  have h1 : 0 < 1 + g := by linarith
  have hl : 0 < Real.log (1 + g) := Real.log_pos (by linarith)
  have h2 : 0 < Real.log 2 := Real.log_pos (by norm_num)
  refine ⟨Real.log 2 / Real.log (1 + g), ?_, by positivity, ?_, ?_⟩
  · unfold growthToDoubling
    rw [if_neg (not_le.2 h1), if_neg hl.ne']
  · rw [Real.rpow_def_of_pos h1, mul_div_cancel₀ _ hl.ne', Real.exp_log (by norm_num)]
  · unfold doublingToGrowth
    rw [if_neg (by positivity)]
    congr 1
    have : Real.log 2 / (Real.log 2 / Real.log (1 + g)) = Real.log (1 + g) := by
      field_simp
    rw [this, Real.exp_log h1]
    ring

/-- **C59**: for a positive doubling time the growth rate exists, is positive, and converting back gives
the doubling time. -/
theorem C59_doubling (d : ℝ) (hd : 0 < d) :
    ∃ g, doublingToGrowth d = .ok g ∧ 0 < g ∧ (1 + g) ^ d = 2 ∧ growthToDoubling g = .ok d := by
  have h2 : 0 < Real.log 2 := Real.log_pos (by norm_num)
  have hpos : 0 < Real.log 2 / d := by positivity
  have hg : 0 < Real.exp (Real.log 2 / d) - 1 := by
    have := Real.one_lt_exp_iff.2 hpos
    linarith
  have heq : 1 + (Real.exp (Real.log 2 / d) - 1) = Real.exp (Real.log 2 / d) := by ring
  refine ⟨Real.exp (Real.log 2 / d) - 1, ?_, hg, ?_, ?_⟩
  · unfold doublingToGrowth
    rw [if_neg hd.ne']
  · rw [heq, ← Real.exp_mul, div_mul_cancel₀ _ hd.ne', Real.exp_log (by norm_num)]
  · unfold growthToDoubling
    rw [heq, Real.log_exp, if_neg (not_le.2 (Real.exp_pos _)), if_neg hpos.ne']
    congr 1
    field_simp

/-- **C59** (arrays): elementwise the same as for numbers, in order. -/
theorem C59_arrays (gs : List ℝ) (hg : ∀ g ∈ gs, 0 < g) :
    ∃ ds, growthToDoublingArr gs = .ok ds ∧ List.Forall₂ (fun g d => growthToDoubling g = .ok d) gs ds ∧
      doublingToGrowthArr ds = .ok gs := by
  refine ⟨gs.map fun g => Real.log 2 / Real.log (1 + g), ?_, ?_, ?_⟩
  · unfold growthToDoublingArr
    apply mapExcept_map
    intro g h
    have := hg g h
    have hl : 0 < Real.log (1 + g) := Real.log_pos (by linarith)
    rw [if_neg]
    push Not
    exact ⟨by linarith, hl.ne'⟩
  · induction gs with
    | nil => exact List.Forall₂.nil
    | cons g gs ih =>
      refine List.Forall₂.cons ?_ (ih fun x hx => hg x (by simp [hx]))
      have := hg g (by simp)
      have hl : 0 < Real.log (1 + g) := Real.log_pos (by linarith)
      unfold growthToDoubling
      rw [if_neg (by linarith), if_neg hl.ne']
  · unfold doublingToGrowthArr
    rw [mapExcept_map (g := fun d => Real.exp (Real.log 2 / d) - 1)]
    · rw [List.map_map]
      congr 1
      conv_rhs => rw [← List.map_id gs]
      apply List.map_congr_left
      intro g h
      have h0 := hg g h
      have hl : 0 < Real.log (1 + g) := Real.log_pos (by linarith)
      have h2 : 0 < Real.log 2 := Real.log_pos (by norm_num)
      have : Real.log 2 / (Real.log 2 / Real.log (1 + g)) = Real.log (1 + g) := by
        field_simp
      simp only [Function.comp, id, this]
      rw [Real.exp_log (by linarith)]
      ring
    · intro d h
      obtain ⟨g, hg', rfl⟩ := List.mem_map.1 h
      have h0 := hg g hg'
      have hl : 0 < Real.log (1 + g) := Real.log_pos (by linarith)
      have h2 : 0 < Real.log 2 := Real.log_pos (by norm_num)
      rw [if_neg (by positivity)]

/-- **C59** (outside the domain): a rate of -100% or less raises ValueError, no growth and a doubling
time of zero raise ZeroDivisionError. -/
theorem C59_errors (g : ℝ) :
    (g ≤ -1 → growthToDoubling g = .error .valueError) ∧
    growthToDoubling 0 = .error .zeroDivisionError ∧
    doublingToGrowth 0 = .error .zeroDivisionError := by
  refine ⟨fun h => ?_, ?_, ?_⟩
  · unfold growthToDoubling
    rw [if_pos (by linarith)]
  · unfold growthToDoubling
    rw [if_neg (by norm_num), if_pos (by simp)]
  · unfold doublingToGrowth
    rw [if_pos rfl]

/-! ### C60, C61: kelly -/

/-- The bet that maximises expected log growth is unique. -/
theorem logGrowth_max (p m : ℝ) (hm0 : 0 < m) (hm1 : m < 1) (hp1 : p < 1) (hpm : m ≤ p)
    (g : ℝ) (hg0 : 0 ≤ g) (hg1 : g < 1) (hne : g ≠ (p - m) / (1 - m)) :
    logGrowth p m g < logGrowth p m ((p - m) / (1 - m)) := by
  have h1m : 0 < 1 - m := by linarith
  have h1p : 0 < 1 - p := by linarith
  have hp0 : 0 < p := hm0.trans_le hpm
  set f := (p - m) / (1 - m) with hf
  have hb : 1 - f = (1 - p) / (1 - m) := by rw [hf]; field_simp; ring
  have ha : 1 - f + f / m = p / m := by rw [hf]; field_simp; ring
  have hbpos : 0 < 1 - f := by rw [hb]; positivity
  have hapos : 0 < 1 - f + f / m := by rw [ha]; positivity
  set A := 1 - g + g / m with hA
  set B := 1 - g with hB
  have hBpos : 0 < B := by rw [hB]; linarith
  have hApos : 0 < A := by
    have : 0 ≤ g / m := by positivity
    rw [hA]; linarith
  have hsum : m * A + (1 - m) * B = 1 := by rw [hA, hB]; field_simp; ring
  -- compare through log x ≤ x - 1, strictly unless x = 1
  have hx : A / (1 - f + f / m) = m * A / p := by rw [ha]; field_simp
  have hy : B / (1 - f) = (1 - m) * B / (1 - p) := by rw [hb]; field_simp
  have hxne : m * A / p ≠ 1 := by
    intro h
    rw [div_eq_one_iff_eq hp0.ne'] at h
    apply hne
    rw [hA] at h
    have : m * (1 - g + g / m) = m - m * g + g := by field_simp
    rw [this] at h
    rw [hf, eq_div_iff h1m.ne']
    linarith
  have l1 : Real.log A - Real.log (1 - f + f / m) < m * A / p - 1 := by
    rw [← Real.log_div hApos.ne' hapos.ne', hx]
    exact Real.log_lt_sub_one_of_pos (by positivity) hxne
  have l2 : Real.log B - Real.log (1 - f) ≤ (1 - m) * B / (1 - p) - 1 := by
    rw [← Real.log_div hBpos.ne' hbpos.ne', hy]
    exact Real.log_le_sub_one_of_pos (by positivity)
  have e1 : p * (Real.log A - Real.log (1 - f + f / m)) < m * A - p := by
    have := mul_lt_mul_of_pos_left l1 hp0
    have e : p * (m * A / p - 1) = m * A - p := by field_simp
    linarith
  have e2 : (1 - p) * (Real.log B - Real.log (1 - f)) ≤ (1 - m) * B - (1 - p) := by
    have := mul_le_mul_of_nonneg_left l2 h1p.le
    have e : (1 - p) * ((1 - m) * B / (1 - p) - 1) = (1 - m) * B - (1 - p) := by field_simp
    linarith
  unfold logGrowth
  rw [← hA]
  have : p * Real.log A + (1 - p) * Real.log (1 - g) -
      (p * Real.log (1 - f + f / m) + (1 - p) * Real.log (1 - f)) < 0 := by
    rw [← hB]
    nlinarith
  linarith

/-- The values before rounding. -/
theorem kelly_ok {my m d bankroll current : ℝ} {error : Bool} {k : KellyBet}
    (h : kelly my m d bankroll none current error = .ok k) :
    0 < m ∧ m < 1 ∧ 0 < my ∧ my < 1 ∧ 0 ≤ d ∧ d ≤ 1 ∧ (error = true → m ≤ my) ∧
    k.adjPrice = roundTo 2 (my * (1 - d) + m * d) ∧
    k.kelly = roundTo 3 (|my * (1 - d) + m * d - m| / (1 - m)) ∧
    k.target = roundTo 2 (bankroll * (|my * (1 - d) + m * d - m| / (1 - m))) ∧
    k.delta = roundTo 2 (bankroll * (|my * (1 - d) + m * d - m| / (1 - m)) - current) ∧
    k.expectedRoi = roundTo 3 (|my * (1 - d) + m * d - m| / m) ∧
    k.maxGain = roundTo 2 (bankroll * (|my * (1 - d) + m * d - m| / (1 - m)) / m -
      bankroll * (|my * (1 - d) + m * d - m| / (1 - m))) ∧
    k.modeledGain = roundTo 2 ((my * (1 - d) + m * d) *
      (bankroll * (|my * (1 - d) + m * d - m| / (1 - m)) / m) -
      bankroll * (|my * (1 - d) + m * d - m| / (1 - m))) ∧ k.expectedArr = none := by
  unfold kelly at h
  split_ifs at h with h1 h2 h3 h4
  push Not at h1 h2 h3 h4
  simp only [Except.ok.injEq] at h
  have h1m : 0 < 1 - m := by linarith
  have e1 : my * (1 - d) + m * d - (1 - (my * (1 - d) + m * d)) * (m / (1 - m)) =
      (my * (1 - d) + m * d - m) / (1 - m) := by
    field_simp
    ring
  have e2 : (my * (1 - d) + m * d) / m - 1 = (my * (1 - d) + m * d - m) / m := by
    have := h1.2
    field_simp
  rw [e1, abs_div, abs_of_pos h1m, e2, abs_div, abs_of_pos h1.2] at h
  subst h
  refine ⟨h1.2, h1.1, h2.2, h2.1, h3.2, h3.1, ?_, rfl, rfl, rfl, rfl, rfl, rfl, rfl, rfl⟩
  intro he
  by_contra hc
  exact h4 (not_le.1 hc) he

/-- **C60** (which calls succeed): prices strictly between 0 and 1, deference in [0,1], and with
`error=True` a price of at least the market price; otherwise ValueError. -/
theorem C60_accepted (my m d bankroll current : ℝ) (error : Bool) :
    ((0 < m ∧ m < 1 ∧ 0 < my ∧ my < 1 ∧ 0 ≤ d ∧ d ≤ 1 ∧ (error = true → m ≤ my)) →
      ∃ k, kelly my m d bankroll none current error = .ok k) ∧
    (¬ (0 < m ∧ m < 1 ∧ 0 < my ∧ my < 1 ∧ 0 ≤ d ∧ d ≤ 1 ∧ (error = true → m ≤ my)) →
      kelly my m d bankroll none current error = .error .valueError) := by
  constructor
  · rintro ⟨h1, h2, h3, h4, h5, h6, h7⟩
    unfold kelly
    rw [if_neg (by push Not; exact ⟨h2, h1⟩), if_neg (by push Not; exact ⟨h4, h3⟩),
      if_neg (by push Not; exact ⟨h6, h5⟩), if_neg (by
        rintro ⟨a, b⟩
        exact absurd (h7 b) (not_le.2 a))]
    exact ⟨_, rfl⟩
  · intro h
    unfold kelly
    split_ifs with h1 h2 h3 h4
    · rfl
    · rfl
    · rfl
    · rfl
    · exfalso
      push Not at h1 h2 h3 h4
      refine h ⟨h1.2, h1.1, h2.2, h2.1, h3.2, h3.1, ?_⟩
      intro he
      by_contra hc
      exact h4 (not_le.1 hc) he

/-- **C60**: the returned fraction is, up to rounding to three digits, the unique stake in [0,1) that
maximises expected log growth for the price that results after deferring to the market; it is 0 exactly
when there is no edge and shrinks linearly with deference.  `target` is that fraction of the bankroll
and `delta` the difference to what is already invested, up to rounding to two digits. -/
theorem C60_growth_optimal (my m d bankroll current : ℝ) (error : Bool) (k : KellyBet) (hmm : m ≤ my)
    (h : kelly my m d bankroll none current error = .ok k) :
    ∃ f, |k.kelly - f| ≤ 1 / 2000 ∧ 0 ≤ f ∧ f < 1 ∧
      (∀ g, 0 ≤ g → g < 1 → g ≠ f →
        logGrowth (my * (1 - d) + m * d) m g < logGrowth (my * (1 - d) + m * d) m f) ∧
      (f = 0 ↔ my * (1 - d) + m * d = m) ∧
      f = (1 - d) * ((my - m) / (1 - m)) ∧
      |k.target - bankroll * f| ≤ 1 / 200 ∧ |k.delta - (bankroll * f - current)| ≤ 1 / 200 := by
  obtain ⟨hm0, hm1, hy0, hy1, hd0, hd1, _, _, hk, ht, hde, _⟩ := kelly_ok h
  have h1m : 0 < 1 - m := by linarith
  have hadj : my * (1 - d) + m * d - m = (1 - d) * (my - m) := by ring
  have h1d : 0 ≤ 1 - d := by linarith
  have hnn : 0 ≤ my * (1 - d) + m * d - m := by
    rw [hadj]
    exact mul_nonneg h1d (by linarith)
  have hlt : my * (1 - d) + m * d < 1 := by nlinarith
  rw [abs_of_nonneg hnn] at hk ht hde
  refine ⟨(my * (1 - d) + m * d - m) / (1 - m), ?_, by positivity, ?_, ?_, ?_, ?_, ?_, ?_⟩
  · rw [hk]
    have := abs_roundTo_sub_le 3 ((my * (1 - d) + m * d - m) / (1 - m))
    norm_num at this ⊢
    exact this
  · rw [div_lt_one h1m]
    linarith
  · intro g hg0 hg1 hne
    exact logGrowth_max _ m hm0 hm1 hlt (by linarith) g hg0 hg1 hne
  · rw [div_eq_zero_iff]
    constructor
    · rintro (h | h)
      · linarith
      · linarith
    · intro h
      left
      linarith
  · rw [hadj, mul_div_assoc]
  · rw [ht]
    have := abs_roundTo_sub_le 2 (bankroll * ((my * (1 - d) + m * d - m) / (1 - m)))
    norm_num at this ⊢
    exact this
  · rw [hde]
    have := abs_roundTo_sub_le 2 (bankroll * ((my * (1 - d) + m * d - m) / (1 - m)) - current)
    norm_num at this ⊢
    exact this

/-- **C60** (gains): up to rounding, `expected_roi` is the expected profit per unit staked, the modeled
gain is that rate on the target, and the maximal gain is what the target earns when the event happens. -/
theorem C60_gains (my m d bankroll current : ℝ) (error : Bool) (k : KellyBet) (hmm : m ≤ my)
    (h : kelly my m d bankroll none current error = .ok k) :
    ∃ target roi, |k.target - target| ≤ 1 / 200 ∧ |k.expectedRoi - roi| ≤ 1 / 2000 ∧
      roi = (my * (1 - d) + m * d) * (1 / m - 1) + (1 - (my * (1 - d) + m * d)) * (-1) ∧
      |k.modeledGain - target * roi| ≤ 1 / 200 ∧
      |k.maxGain - target * (1 / m - 1)| ≤ 1 / 200 ∧ k.expectedArr = none := by
  obtain ⟨hm0, hm1, hy0, hy1, hd0, hd1, _, _, hk, ht, hde, hroi, hmax, hmod, harr⟩ := kelly_ok h
  have hadj : my * (1 - d) + m * d - m = (1 - d) * (my - m) := by ring
  have h1d : 0 ≤ 1 - d := by linarith
  have hnn : 0 ≤ my * (1 - d) + m * d - m := by
    rw [hadj]
    exact mul_nonneg h1d (by linarith)
  rw [abs_of_nonneg hnn] at ht hroi hmax hmod
  set adj := my * (1 - d) + m * d with hadj'
  set T := bankroll * ((adj - m) / (1 - m)) with hT
  refine ⟨T, (adj - m) / m, ?_, ?_, ?_, ?_, ?_, harr⟩
  · rw [ht]
    have := abs_roundTo_sub_le 2 T
    norm_num at this ⊢
    exact this
  · rw [hroi]
    have := abs_roundTo_sub_le 3 ((adj - m) / m)
    norm_num at this ⊢
    exact this
  · field_simp
    ring
  · rw [hmod]
    have := abs_roundTo_sub_le 2 (adj * (T / m) - T)
    have e : adj * (T / m) - T = T * ((adj - m) / m) := by field_simp
    rw [e] at this ⊢
    norm_num at this ⊢
    exact this
  · rw [hmax]
    have := abs_roundTo_sub_le 2 (T / m - T)
    have e : T / m - T = T * (1 / m - 1) := by field_simp
    rw [e] at this ⊢
    norm_num at this ⊢
    exact this

/-- **C60** (aliases): full, half and quarter Kelly stake all, half and a quarter of the growth-optimal
stake, up to rounding; `third_kelly` 0.3334 of it. -/
theorem C60_aliases (my m bankroll current : ℝ) (h0 : 0 < m) (hmm : m ≤ my) (h1 : my < 1) :
    (∃ k, fullKelly my m bankroll none current = .ok k ∧
      |k.kelly - (my - m) / (1 - m)| ≤ 1 / 2000) ∧
    (∃ k, halfKelly my m bankroll none current = .ok k ∧
      |k.kelly - 1 / 2 * ((my - m) / (1 - m))| ≤ 1 / 2000) ∧
    (∃ k, thirdKelly my m bankroll none current = .ok k ∧
      |k.kelly - 3334 / 10000 * ((my - m) / (1 - m))| ≤ 1 / 2000) ∧
    (∃ k, quarterKelly my m bankroll none current = .ok k ∧
      |k.kelly - 1 / 4 * ((my - m) / (1 - m))| ≤ 1 / 2000) := by
  have key : ∀ d : ℝ, 0 ≤ d → d ≤ 1 → ∃ k, kelly my m d bankroll none current true = .ok k ∧
      |k.kelly - (1 - d) * ((my - m) / (1 - m))| ≤ 1 / 2000 := by
    intro d hd0 hd1
    obtain ⟨k, hk⟩ := (C60_accepted my m d bankroll current true).1
      ⟨h0, by linarith, by linarith, h1, hd0, hd1, fun _ => hmm⟩
    obtain ⟨f, hf, _, _, _, _, hf2, _⟩ := C60_growth_optimal my m d bankroll current true k hmm hk
    exact ⟨k, hk, by rw [← hf2]; exact hf⟩
  refine ⟨?_, ?_, ?_, ?_⟩
  · obtain ⟨k, hk, h⟩ := key 0 le_rfl zero_le_one
    exact ⟨k, hk, by rw [sub_zero, one_mul] at h; exact h⟩
  · obtain ⟨k, hk, h⟩ := key (1 / 2) (by norm_num) (by norm_num)
    exact ⟨k, hk, by norm_num at h ⊢; exact h⟩
  · obtain ⟨k, hk, h⟩ := key (6666 / 10000) (by norm_num) (by norm_num)
    exact ⟨k, hk, by norm_num at h ⊢; exact h⟩
  · obtain ⟨k, hk, h⟩ := key (3 / 4) (by norm_num) (by norm_num)
    exact ⟨k, hk, by norm_num at h ⊢; exact h⟩

example : ∃ k, kelly (7/10) (4/10) (1/2) 100 none 0 true = .ok k :=
  (C60_accepted (7/10) (4/10) (1/2) 100 0 true).1
    ⟨by norm_num, by norm_num, by norm_num, by norm_num, by norm_num, by norm_num, fun _ => by norm_num⟩

/-- **C61** is false of the code: with `error=False` and a price below the market price the stake is not
that of the mirrored bet and can exceed the bankroll: for 0.1 against 0.9 the code returns 8, the
mirrored bet 0.889. -/
theorem C61_symmetric_fails :
    (∃ k, kelly (1/10) (9/10) 0 1 none 0 false = .ok k ∧ k.kelly = 8 ∧ k.target = 8) ∧
    (∃ k, kelly (1 - 1/10) (1 - 9/10) 0 1 none 0 false = .ok k ∧ k.kelly ≤ 1) := by
  constructor
  · obtain ⟨k, hk⟩ := (C60_accepted (1/10) (9/10) 0 1 0 false).1
      ⟨by norm_num, by norm_num, by norm_num, by norm_num, by norm_num, by norm_num, by simp⟩
    obtain ⟨_, _, _, _, _, _, _, _, h1, h2, _⟩ := kelly_ok hk
    have e : |(1/10 : ℝ) * (1 - 0) + 9/10 * 0 - 9/10| / (1 - 9/10) = 8 := by
      have : (1/10 : ℝ) * (1 - 0) + 9/10 * 0 - 9/10 = -(4/5) := by norm_num
      rw [this, abs_neg, abs_of_pos (by norm_num)]
      norm_num
    rw [e] at h1 h2
    refine ⟨k, hk, ?_, ?_⟩
    · rw [h1]
      exact roundTo_exact 3 8 8000 (by norm_num)
    · rw [h2, one_mul]
      exact roundTo_exact 2 8 800 (by norm_num)
  · obtain ⟨k, hk⟩ := (C60_accepted (1 - 1/10) (1 - 9/10) 0 1 0 false).1
      ⟨by norm_num, by norm_num, by norm_num, by norm_num, by norm_num, by norm_num, by simp⟩
    obtain ⟨f, h1, _, _, _, _, h2, _⟩ := C60_growth_optimal _ _ _ _ _ _ k (by norm_num) hk
    refine ⟨k, hk, ?_⟩
    have := (abs_le.1 h1).2
    rw [h2] at this
    norm_num at this
    linarith

/-- **C61**: what does hold.  Up to rounding the stake below the market price is
`(1-d)(m-my)/(1-m)`; it equals the one of the mirrored bet exactly when the market price is 1/2 or there
is nothing to bet, and is at most the bankroll exactly when `(1-d)(m-my) ≤ 1-m`. -/
theorem C61_below_market_partial (my m d bankroll current : ℝ) (k : KellyBet) (hmm : my < m)
    (h : kelly my m d bankroll none current false = .ok k) :
    ∃ f mirrored, |k.kelly - f| ≤ 1 / 2000 ∧ f = (1 - d) * ((m - my) / (1 - m)) ∧
      (∃ k', kelly (1 - my) (1 - m) d bankroll none current false = .ok k' ∧
        |k'.kelly - mirrored| ≤ 1 / 2000) ∧
      mirrored = (1 - d) * ((m - my) / m) ∧
      (f = mirrored ↔ m = 1 / 2 ∨ d = 1) ∧ (f ≤ 1 ↔ (1 - d) * (m - my) ≤ 1 - m) := by
  obtain ⟨hm0, hm1, hy0, hy1, hd0, hd1, _, _, hk, _⟩ := kelly_ok h
  have h1m : 0 < 1 - m := by linarith
  have h1d : 0 ≤ 1 - d := by linarith
  have hadj : my * (1 - d) + m * d - m = -((1 - d) * (m - my)) := by ring
  have hnn : 0 ≤ (1 - d) * (m - my) := mul_nonneg h1d (by linarith)
  refine ⟨(1 - d) * ((m - my) / (1 - m)), (1 - d) * ((m - my) / m), ?_, rfl, ?_, rfl, ?_, ?_⟩
  · rw [hk, hadj, abs_neg, abs_of_nonneg hnn, mul_div_assoc]
    have := abs_roundTo_sub_le 3 ((1 - d) * ((m - my) / (1 - m)))
    norm_num at this ⊢
    exact this
  · obtain ⟨k', hk'⟩ := (C60_accepted (1 - my) (1 - m) d bankroll current false).1
      ⟨by linarith, by linarith, by linarith, by linarith, hd0, hd1, by simp⟩
    refine ⟨k', hk', ?_⟩
    obtain ⟨f, h1, _, _, _, _, h2, _⟩ := C60_growth_optimal _ _ _ _ _ _ k' (by linarith) hk'
    have e : (1 - my - (1 - m)) / (1 - (1 - m)) = (m - my) / m := by
      congr 1
      · ring
      · ring
    rw [h2, e] at h1
    exact h1
  · constructor
    · intro he
      by_contra hc
      push Not at hc
      obtain ⟨c1, c2⟩ := hc
      have hd' : 0 < 1 - d := lt_of_le_of_ne h1d (by intro h; apply c2; linarith)
      have := mul_left_cancel₀ hd'.ne' he
      rw [div_eq_div_iff h1m.ne' hm0.ne'] at this
      have := mul_left_cancel₀ (sub_ne_zero.2 hmm.ne') this
      apply c1
      linarith
    · rintro (he | he)
      · rw [he]; norm_num
      · rw [he]; norm_num
  · rw [← mul_div_assoc, div_le_one h1m]

example : ∃ k, kelly (3/10) (4/10) 0 1 none 0 false = .ok k :=
  (C60_accepted (3/10) (4/10) 0 1 0 false).1
    ⟨by norm_num, by norm_num, by norm_num, by norm_num, by norm_num, by norm_num, by simp⟩

/-! ### C62: extremize -/

/-- **C62** (range): the result is a probability strictly between 0 and 1 for every positive factor;
predictions outside (0,1) raise ValueError. -/
theorem C62_probability (p e : ℝ) (he : 0 < e) :
    (0 < p → p < 1 → ∃ q, extremize p e = .ok q ∧ 0 < q ∧ q < 1) ∧
    ((p ≤ 0 ∨ 1 ≤ p) → extremize p e = .error .valueError) := by
  constructor
  · intro h0 h1
    unfold extremize
    rw [if_neg (by push Not; exact ⟨h0, h1⟩)]
    split_ifs with hp
    · refine ⟨_, rfl, ?_, ?_⟩
      · have := Real.rpow_lt_one (by linarith : (0 : ℝ) ≤ 1 - p) (by linarith) he
        linarith
      · have := Real.rpow_pos_of_pos (by linarith : (0 : ℝ) < 1 - p) e
        linarith
    · exact ⟨_, rfl, Real.rpow_pos_of_pos h0 e, Real.rpow_lt_one h0.le h1 he⟩
  · intro h
    unfold extremize
    rw [if_pos h]

/-- **C62** (direction): with a factor of at least 1 predictions up to 1/2 do not increase and those
above 1/2 do not decrease; with factor 1 nothing changes; on each side the order of predictions is
kept, and across 1/2 as well. -/
theorem C62_extremes (p e q : ℝ) (he : 1 ≤ e) (h : extremize p e = .ok q) :
    (p ≤ 1 / 2 → q ≤ p) ∧ (1 / 2 < p → p ≤ q) ∧ (e = 1 → q = p) ∧
    (1 < e → (p ≤ 1 / 2 → q < p) ∧ (1 / 2 < p → p < q)) := by
  unfold extremize at h
  split_ifs at h with h1 h2
  · push Not at h1
    simp only [Except.ok.injEq] at h
    have hlt : 1 - p < 1 := by linarith
    have hpos : 0 < 1 - p := by linarith
    have hle := Real.rpow_le_rpow_of_exponent_ge hpos hlt.le he
    rw [Real.rpow_one] at hle
    refine ⟨fun h => absurd h (not_le.2 h2), fun _ => by linarith, ?_, ?_⟩
    · rintro rfl
      rw [← h, Real.rpow_one]
      ring
    · intro he'
      have hlt' := Real.rpow_lt_rpow_of_exponent_gt hpos hlt he'
      rw [Real.rpow_one] at hlt'
      exact ⟨fun h => absurd h (not_le.2 h2), fun _ => by linarith⟩
  · push Not at h1
    simp only [Except.ok.injEq] at h
    have hle := Real.rpow_le_rpow_of_exponent_ge h1.1 h1.2.le he
    rw [Real.rpow_one] at hle
    refine ⟨fun _ => by linarith, fun h => absurd h h2, ?_, ?_⟩
    · rintro rfl
      rw [← h, Real.rpow_one]
    · intro he'
      have hlt' := Real.rpow_lt_rpow_of_exponent_gt h1.1 h1.2 he'
      rw [Real.rpow_one] at hlt'
      exact ⟨fun _ => by linarith, fun h => absurd h h2⟩

/-- **C62** (order): extremizing keeps the order of predictions (factor at least 1). -/
theorem C62_monotone (p p' e q q' : ℝ) (he : 1 ≤ e) (hpp : p < p') (h : extremize p e = .ok q)
    (h' : extremize p' e = .ok q') : q < q' := by
  have b := C62_extremes p e q he h
  have b' := C62_extremes p' e q' he h'
  have he0 : 0 < e := by linarith
  by_cases h1 : p ≤ 1 / 2
  · by_cases h2 : p' ≤ 1 / 2
    · unfold extremize at h h'
      split_ifs at h with a1 a2
      · linarith
      split_ifs at h' with a3 a4
      · linarith
      push Not at a1
      simp only [Except.ok.injEq] at h h'
      rw [← h, ← h']
      exact Real.rpow_lt_rpow a1.1.le hpp he0
    · have := b.1 h1
      have := b'.2.1 (not_le.1 h2)
      linarith
  · push Not at h1
    unfold extremize at h h'
    split_ifs at h with a1
    split_ifs at h' with a3 a4
    · push Not at a3
      simp only [Except.ok.injEq] at h h'
      rw [← h, ← h']
      have := Real.rpow_lt_rpow (by linarith : (0 : ℝ) ≤ 1 - p') (by linarith : 1 - p' < 1 - p) he0
      linarith
    · linarith

/-- **C62** (symmetry): `extremize(1-p, e) = 1 - extremize(p, e)` except at `p = 1/2`, where the result is
`(1/2)^e` (so 1/2 is not a fixed point for a factor above 1). -/
theorem C62_symmetric (p e : ℝ) :
    (p ≠ 1 / 2 → extremize (1 - p) e = (extremize p e).map (1 - ·)) ∧
    extremize (1 / 2) e = .ok ((1 / 2) ^ e) := by
  constructor
  · intro hne
    unfold extremize
    by_cases h1 : p ≤ 0 ∨ p ≥ 1
    · rw [if_pos h1, if_pos (by rcases h1 with h | h; exact Or.inr (by linarith); exact Or.inl (by linarith))]
      rfl
    · push Not at h1
      have n1 : ¬ (p ≤ 0 ∨ p ≥ 1) := by push Not; exact h1
      have n2 : ¬ (1 - p ≤ 0 ∨ 1 - p ≥ 1) := by push Not; constructor <;> linarith
      rw [if_neg n1, if_neg n2]
      by_cases h2 : p > 1 / 2
      · rw [if_pos h2, if_neg (by linarith)]
        simp [Except.map]
      · have h3 : p < 1 / 2 := lt_of_le_of_ne (not_lt.1 h2) hne
        rw [if_neg h2, if_pos (by linarith)]
        simp [Except.map]
  · unfold extremize
    rw [if_neg (by norm_num), if_neg (by norm_num)]

/-- **C62** (composition): extremizing twice with factors of at least 1 is extremizing once with their
product. -/
theorem C62_compose (p a b q : ℝ) (ha : 1 ≤ a) (h : extremize p a = .ok q) :
    extremize q b = extremize p (a * b) := by
  have hb := C62_extremes p a q ha h
  have hok : 0 < p ∧ p < 1 := by
    by_contra hc
    rw [(C62_probability p a (by linarith)).2 (by
      by_contra hd
      push Not at hd
      exact hc hd)] at h
    simp at h
  obtain ⟨q', hq', hq0, hq1⟩ := (C62_probability p a (by linarith)).1 hok.1 hok.2
  rw [h] at hq'
  simp only [Except.ok.injEq] at hq'
  subst hq'
  have hval := h
  unfold extremize at hval ⊢
  have n1 : ¬ (p ≤ 0 ∨ p ≥ 1) := by push Not; exact hok
  have n2 : ¬ (q ≤ 0 ∨ q ≥ 1) := by push Not; exact ⟨hq0, hq1⟩
  rw [if_neg n1] at hval ⊢
  rw [if_neg n2]
  by_cases hp : p > 1 / 2
  · rw [if_pos hp] at hval ⊢
    simp only [Except.ok.injEq] at hval
    rw [if_pos (lt_of_lt_of_le hp (hb.2.1 hp))]
    have : 1 - q = (1 - p) ^ a := by linarith
    rw [this, Real.rpow_mul (by linarith)]
  · rw [if_neg hp] at hval ⊢
    simp only [Except.ok.injEq] at hval
    push Not at hp
    rw [if_neg (not_lt.2 ((hb.1 hp).trans hp)), ← hval, Real.rpow_mul hok.1.le]

example : ∃ q, extremize (7/10) (173/100) = .ok q ∧ 7/10 < q := by
  obtain ⟨q, h, _⟩ := (C62_probability (7/10) (173/100) (by norm_num)).1 (by norm_num) (by norm_num)
  exact ⟨q, h, ((C62_extremes _ _ q (by norm_num) h).2.2.2 (by norm_num)).2 (by norm_num)⟩

/-! ### C70: sharpe_ratio -/

theorem meanR_affine (xs : List ℝ) (hne : xs ≠ []) (c b : ℝ) :
    meanR (xs.map fun x => c * x + b) = c * meanR xs + b := by
  have hn : (0 : ℝ) < xs.length := by exact_mod_cast List.length_pos_iff.2 hne
  unfold meanR
  rw [List.length_map]
  have : (xs.map fun x => c * x + b).sum = c * xs.sum + xs.length * b := by
    clear hne hn
    induction xs with
    | nil => simp
    | cons a l ih =>
      simp only [List.map_cons, List.sum_cons, ih, List.length_cons]
      push_cast
      ring
  rw [this]
  field_simp

theorem stdR_affine (xs : List ℝ) (hne : xs ≠ []) (c b : ℝ) :
    stdR (xs.map fun x => c * x + b) = |c| * stdR xs := by
  unfold stdR
  rw [meanR_affine xs hne, List.map_map]
  have : (xs.map ((fun x => (x - (c * meanR xs + b)) ^ 2) ∘ fun x => c * x + b)) =
      (xs.map fun x => (x - meanR xs) ^ 2).map fun y => c ^ 2 * y + 0 := by
    rw [List.map_map]
    apply List.map_congr_left
    intro x _
    simp only [Function.comp]
    ring
  rw [this, meanR_affine _ (by simpa using hne), add_zero, Real.sqrt_mul (sq_nonneg c),
    Real.sqrt_sq_eq_abs]

/-- **C70**: rescaling returns and the risk-free rate by `c > 0` and shifting both by `b` changes nothing;
`c < 0` flips the sign. -/
theorem C70_affine (xs : List ℝ) (rf c b : ℝ) :
    (0 < c → sharpeRatio (xs.map fun x => c * x + b) (c * rf + b) = sharpeRatio xs rf) ∧
    (c < 0 → sharpeRatio (xs.map fun x => c * x + b) (c * rf + b) =
      (sharpeRatio xs rf).map (- ·)) := by
  by_cases hne : xs = []
  · subst hne
    refine ⟨fun _ => ?_, fun _ => ?_⟩
    · unfold sharpeRatio
      simp only [List.map_nil, true_or, if_true]
    · unfold sharpeRatio
      simp only [List.map_nil, true_or, if_true]
      rfl
  · have hm := meanR_affine xs hne c b
    have hs := stdR_affine xs hne c b
    have key : c ≠ 0 → ((xs.map fun x => c * x + b) = [] ∨ stdR (xs.map fun x => c * x + b) = 0 ↔
        xs = [] ∨ stdR xs = 0) := by
      intro hc
      rw [hs]
      simp [hc]
    refine ⟨fun hc => ?_, fun hc => ?_⟩
    · unfold sharpeRatio
      by_cases h0 : xs = [] ∨ stdR xs = 0
      · rw [if_pos h0, if_pos ((key hc.ne').2 h0)]
      · rw [if_neg h0, if_neg (fun h => h0 ((key hc.ne').1 h)), hm, hs, abs_of_pos hc]
        congr 1
        push Not at h0
        have := h0.2
        field_simp
        ring
    · unfold sharpeRatio
      by_cases h0 : xs = [] ∨ stdR xs = 0
      · rw [if_pos h0, if_pos ((key hc.ne).2 h0)]
        rfl
      · rw [if_neg h0, if_neg (fun h => h0 ((key hc.ne).1 h)), hm, hs, abs_of_neg hc]
        simp only [Except.map, Except.ok.injEq]
        push Not at h0
        have := h0.2
        have hc' := hc.ne
        field_simp
        ring

/-- **C70** (value): the ratio is the mean excess return over the population standard deviation. -/
theorem C70_value (xs : List ℝ) (rf : ℝ) (hs : ∃ x ∈ xs, ∃ y ∈ xs, x ≠ y) :
    ∃ r, sharpeRatio xs rf = .ok r ∧
      r * Real.sqrt ((xs.map fun x => (x - xs.sum / xs.length) ^ 2).sum / xs.length) =
        xs.sum / xs.length - rf := by
  obtain ⟨x, hx, y, hy, hxy⟩ := hs
  have hne : xs ≠ [] := List.ne_nil_of_mem hx
  have hn : (0 : ℝ) < xs.length := by exact_mod_cast List.length_pos_iff.2 hne
  have hstd : stdR xs ≠ 0 := by
    unfold stdR
    have hmem : ∀ z ∈ xs, (z - meanR xs) ^ 2 ≤ (xs.map fun x => (x - meanR xs) ^ 2).sum := by
      intro z hz
      exact List.single_le_sum (by
        intro w hw
        obtain ⟨v, _, rfl⟩ := List.mem_map.1 hw
        positivity) _ (List.mem_map.2 ⟨z, hz, rfl⟩)
    have hpos : 0 < (xs.map fun x => (x - meanR xs) ^ 2).sum := by
      by_cases hz : x = meanR xs
      · have : y - meanR xs ≠ 0 := by
          intro h
          apply hxy
          linarith
        exact lt_of_lt_of_le (by positivity) (hmem y hy)
      · have : x - meanR xs ≠ 0 := sub_ne_zero.2 hz
        exact lt_of_lt_of_le (by positivity) (hmem x hx)
    have : 0 < meanR (xs.map fun x => (x - meanR xs) ^ 2) := by
      unfold meanR at hpos ⊢
      rw [List.length_map]
      positivity
    exact (Real.sqrt_pos.2 this).ne'
  refine ⟨(meanR xs - rf) / stdR xs, ?_, ?_⟩
  · unfold sharpeRatio
    rw [if_neg (by push Not; exact ⟨hne, hstd⟩)]
  · have : Real.sqrt ((xs.map fun x => (x - xs.sum / xs.length) ^ 2).sum / xs.length) = stdR xs := by
      unfold stdR meanR
      rw [List.length_map]
    rw [this, div_mul_cancel₀ _ hstd]
    rfl

example : ∃ x ∈ [(1 : ℝ), 2], ∃ y ∈ [(1 : ℝ), 2], x ≠ y := ⟨1, by simp, 2, by simp, by norm_num⟩

end Verif
