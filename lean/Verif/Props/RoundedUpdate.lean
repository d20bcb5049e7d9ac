import Verif.Model.RoundedUpdate
import Verif.Props.RoundedDists
import Verif.Props.RoundedLognorm

/-!
# C164: updating beta, gamma and lognormal priors in floating-point arithmetic
-/

namespace Verif

/-! ### Beta -/

section
variable {K : Type} [Field K] [LinearOrder K] [IsStrictOrderedRing K] [FloorRing K] {p : ℕ} {fl : K → K}

/-- **C164.** One update of a beta prior adds the parameters, up to one rounding. -/
theorem C164_beta (h : RoundsTo p fl) {a b a' b' : K} (ha : 0 < a) (hb : 0 < b) (ha' : 0 < a') (hb' : 0 < b') :
    ∃ A B, betaUpdateFl fl (a, b) (a', b') = (A, B) ∧
      |A - (a + a')| ≤ ulp p * (a + a') ∧ |B - (b + b')| ≤ ulp p * (b + b') := by
  refine ⟨_, _, rfl, ?_, ?_⟩
  · have := h.err (a + a')
    rwa [abs_of_pos (by linarith : 0 < a + a')] at this
  · have := h.err (b + b')
    rwa [abs_of_pos (by linarith : 0 < b + b')] at this

/-- **C164.** Counts of successes and failures add up exactly over any number of updates, as long as the totals are at
most `2 ^ p`. -/
theorem C164_counts (h : RoundsTo p fl) (a b : ℕ) (es : List (ℕ × ℕ)) (ha : a + (es.map Prod.fst).sum ≤ 2 ^ p)
    (hb : b + (es.map Prod.snd).sum ≤ 2 ^ p) :
    betaUpdatesFl fl ((a : K), (b : K)) (es.map fun e => ((e.1 : K), (e.2 : K))) =
      (((a + (es.map Prod.fst).sum : ℕ) : K), ((b + (es.map Prod.snd).sum : ℕ) : K)) := by
  induction es generalizing a b with
  | nil => simp [betaUpdatesFl]
  | cons e es ih =>
    obtain ⟨s, f⟩ := e
    simp only [List.map_cons, List.sum_cons] at ha hb ⊢
    have hs : fl ((a : K) + (s : K)) = ((a + s : ℕ) : K) := by
      rw [← Nat.cast_add]
      refine h.exact ?_
      have := isFloat_int (K := K) (p := p) (z := ((a + s : ℕ) : ℤ)) (by
        rw [abs_of_nonneg (by positivity)]
        have : a + s ≤ 2 ^ p := by omega
        exact_mod_cast this)
      simpa using this
    have hf : fl ((b : K) + (f : K)) = ((b + f : ℕ) : K) := by
      rw [← Nat.cast_add]
      refine h.exact ?_
      have := isFloat_int (K := K) (p := p) (z := ((b + f : ℕ) : ℤ)) (by
        rw [abs_of_nonneg (by positivity)]
        have : b + f ≤ 2 ^ p := by omega
        exact_mod_cast this)
      simpa using this
    have := ih (a + s) (b + f) (by omega) (by omega)
    unfold betaUpdatesFl at this ⊢
    rw [List.foldl_cons]
    have e1 : betaUpdateFl fl ((a : K), (b : K)) ((s : K), (f : K)) = (((a + s : ℕ) : K), ((b + f : ℕ) : K)) := by
      unfold betaUpdateFl
      rw [hs, hf]
    rw [e1, this, Nat.add_assoc, Nat.add_assoc]

/-- **C164.** So the order of the evidence does not matter for counts. -/
theorem C164_order (h : RoundsTo p fl) (a b : ℕ) (es es' : List (ℕ × ℕ)) (hp : es.Perm es')
    (ha : a + (es.map Prod.fst).sum ≤ 2 ^ p) (hb : b + (es.map Prod.snd).sum ≤ 2 ^ p) :
    betaUpdatesFl fl ((a : K), (b : K)) (es.map fun e => ((e.1 : K), (e.2 : K))) =
      betaUpdatesFl fl ((a : K), (b : K)) (es'.map fun e => ((e.1 : K), (e.2 : K))) := by
  have h1 := (hp.map Prod.fst).sum_eq
  have h2 := (hp.map Prod.snd).sum_eq
  rw [C164_counts h a b es ha hb, C164_counts h a b es' (h1 ▸ ha) (h2 ▸ hb), h1, h2]

/-- **C164 fails** beyond: a count of `2 ^ (p + 2)` never grows again, however many single successes are observed. -/
theorem C164_stuck_fails (h : RoundsTo p fl) (hp : 1 ≤ p) (n : ℕ) :
    (betaUpdatesFl fl ((2 : K) ^ (p + 2), 1) (List.replicate n (1, 0))).1 = 2 ^ (p + 2) := by
  have h0 : ((2 ^ p : ℤ) : K) * 2 ^ (2 : ℤ) = 2 ^ (p + 2) := by
    push_cast
    rw [pow_add]
    norm_cast
  have h1 : fl ((2 : K) ^ (p + 2) + 1) = 2 ^ (p + 2) := by
    have h4 := h.eq_of_close (x := (2 : K) ^ (p + 2) + 1) (m := 2 ^ p) (e := 2)
      (pow_lt_pow_right₀ (by norm_num) (by omega)) le_rfl hp (by
        rw [h0, add_sub_cancel_left, abs_one]
        norm_num)
    rw [h4, h0]
  induction n with
  | zero => rfl
  | succ n ih =>
    unfold betaUpdatesFl at ih ⊢
    rw [List.replicate_succ', List.foldl_append, List.foldl_cons, List.foldl_nil]
    show fl (_ + 1) = _
    rw [ih, h1]

end

/-! ### Gamma and lognormal -/

variable {p : ℕ} {fl : ℝ → ℝ}

theorem rel_mul {a b x y c d r : ℝ} (ha : 0 < a) (hb : 0 < b) (hc : 0 ≤ c) (hx : |x - a| ≤ c * a)
    (hy : |y - b| ≤ d * b) (hr : c + d + c * d ≤ r) : |x * y - a * b| ≤ r * (a * b) := by
  have e1 : x * y - a * b = (x - a) * (y - b) + (a * (y - b) + (x - a) * b) := by ring
  rw [e1]
  have h1 := abs_add_le ((x - a) * (y - b)) (a * (y - b) + (x - a) * b)
  have h2 := abs_add_le (a * (y - b)) ((x - a) * b)
  rw [abs_mul, abs_mul, abs_of_pos ha, abs_of_pos hb] at h2
  rw [abs_mul] at h1
  have h3 : |x - a| * |y - b| ≤ (c * a) * (d * b) := mul_le_mul hx hy (abs_nonneg _) (by positivity)
  have h4 := mul_le_mul_of_nonneg_left hy ha.le
  have h5 := mul_le_mul_of_nonneg_right hx hb.le
  have h6 := mul_le_mul_of_nonneg_right hr (mul_pos ha hb).le
  nlinarith

theorem rel_round_le (h : RoundsTo p fl) {a x c r : ℝ} (ha : 0 < a) (hx : |x - a| ≤ c * a)
    (hr : c + ulp p + c * ulp p ≤ r) : |fl x - a| ≤ r * a :=
  (rel_round h ha hx).trans (mul_le_mul_of_nonneg_right hr ha.le)

theorem rel_pos {a x c : ℝ} (ha : 0 < a) (hx : |x - a| ≤ c * a) (hc : c < 1) : 0 < x := by
  have := (abs_le.1 hx).1
  nlinarith

/-- **C164.** The posterior shape of a gamma update is the sum of the shapes (the second one weighted) and the scale is
their weighted harmonic mean, up to 3 and 11 roundings. -/
theorem C164_gamma (h : RoundsTo p fl) (hp : 6 ≤ p) {k s k' s' w : ℝ} (hk : 0 < k) (hs : 0 < s) (hk' : 0 < k')
    (hs' : 0 < s') (hw : 0 < w) :
    ∃ K S, gammaUpdateFl fl k s k' s' w = .ok (K, S) ∧ 0 < K ∧ 0 < S ∧
      |K - (k + k' * w)| ≤ 3 * ulp p * (k + k' * w) ∧
      |S - (k + k' * w) / (k / s + k' * w / s')| ≤ 11 * ulp p * ((k + k' * w) / (k / s + k' * w / s')) := by
  have hu := ulp_pos (K := ℝ) p
  have hu6 := ulp_le_64 (K := ℝ) hp
  set u := ulp (K := ℝ) p with hudef
  have hkw : 0 < k' * w := mul_pos hk' hw
  have rnd : ∀ x : ℝ, 0 < x → |fl x - x| ≤ u * x := fun x hx => by
    have := h.err x
    rwa [abs_of_pos hx] at this
  have ex : ∀ (x c : ℝ), 0 < x → 0 ≤ c → |x - x| ≤ c * x := fun x c hx hc => by
    rw [sub_self, abs_zero]; positivity
  have hes := rnd (k' * w) hkw
  set es := fl (k' * w)
  have hps : |fl (k + es) - (k + k' * w)| ≤ 21 / 10 * u * (k + k' * w) :=
    rel_round_le h (by linarith) (rel_add (ex k u hk hu.le) hes) (by nlinarith)
  set ps := fl (k + es)
  have hpr := rnd (1 / s) (by positivity)
  set pr := fl (1 / s)
  have her := rnd (1 / s') (by positivity)
  set er := fl (1 / s')
  have h1 : |fl (k * pr) - k * (1 / s)| ≤ 31 / 10 * u * (k * (1 / s)) :=
    rel_round_le h (by positivity) (rel_mul hk (by positivity) le_rfl (ex k 0 hk le_rfl) hpr
      (le_refl (0 + u + 0 * u))) (by nlinarith)
  have h2 : |fl (es * er) - k' * w * (1 / s')| ≤ 31 / 10 * u * (k' * w * (1 / s')) :=
    rel_round_le h (by positivity) (rel_mul (r := 41 / 20 * u) hkw (by positivity) hu.le hes her (by nlinarith))
      (by nlinarith)
  have h3 := rel_round_le (r := 21 / 5 * u) h (by positivity) (rel_add h1 h2) (by nlinarith)
  set num := fl (fl (k * pr) + fl (es * er))
  have h4 := rel_div (r := 33 / 5 * u) (by positivity) (by positivity) (by linarith) h3 hps (by nlinarith)
  have h5 := rel_round_le (r := 39 / 5 * u) h (by positivity) h4 (by nlinarith)
  set rate := fl (num / ps)
  have hR : 0 < (k * (1 / s) + k' * w * (1 / s')) / (k + k' * w) := by positivity
  have h6 := rel_div (x := 1) (r := 9 * u) one_pos hR (by linarith) (ex 1 0 one_pos le_rfl) h5 (by nlinarith)
  have h7 := rel_round_le (r := 11 * u) h (by positivity) h6 (by nlinarith)
  have hps0 : 0 < ps := rel_pos (by linarith) hps (by linarith)
  have hrate0 : 0 < rate := rel_pos hR h5 (by linarith)
  have hS : (k + k' * w) / (k / s + k' * w / s') = 1 / ((k * (1 / s) + k' * w * (1 / s')) / (k + k' * w)) := by
    rw [one_div_div, mul_one_div, mul_one_div]
  refine ⟨ps, fl (1 / rate), ?_, hps0, h.pos (by omega) (by positivity), ?_, ?_⟩
  · unfold gammaUpdateFl
    rw [if_neg (by push Not; exact ⟨hs.ne', hs'.ne'⟩)]
    show (if ps = 0 then _ else if rate = 0 then _ else _) = _
    rw [if_neg hps0.ne', if_neg hrate0.ne']
  · refine hps.trans (mul_le_mul_of_nonneg_right (by linarith) (by linarith))
  · rw [hS]
    exact h7

/-- **C164.** A lognormal update is the update of the normal distributions of the logarithms: `norm_mean` up to 11 roundings
of the larger of the two, `norm_sd` up to 12 roundings. -/
theorem C164_lognorm (h : RoundsTo p fl) (hp : 6 ≤ p) {m1 s1 m2 s2 w M : ℝ} (hs1 : 0 < s1) (hs2 : 0 < s2)
    (hw : 0 ≤ w) (hM1 : |m1| ≤ M) (hM2 : |m2| ≤ M) :
    ∃ m s, lognormUpdateFl fl (m1, s1) (m2, s2) w = (m, s) ∧
      |m - (s2 ^ 2 * m1 + w * (s1 ^ 2 * m2)) / (w * s1 ^ 2 + s2 ^ 2)| ≤ 11 * ulp p * M ∧ 0 < s ∧
      |s - Real.sqrt (s2 ^ 2 * s1 ^ 2 / (w * s1 ^ 2 + s2 ^ 2))| ≤
        12 * ulp p * Real.sqrt (s2 ^ 2 * s1 ^ 2 / (w * s1 ^ 2 + s2 ^ 2)) :=
  ⟨_, _, rfl, C123_mean h hp hs1 hs2 hw hM1 hM2, (C123_sd h hp hs1 hs2 hw).1, (C123_sd h hp hs1 hs2 hw).2⟩

/-! ### Examples -/

/-- Shapes 2 and 3, scales 1 and 3/2 with doubles: shape 5, and scale 5/4 up to 2e-15. -/
example : ∃ K S : ℝ, gammaUpdateFl (roundBits 53) 2 1 3 (3 / 2) 1 = .ok (K, S) ∧ |K - 5| ≤ 2 / 10 ^ 15 ∧
    |S - 5 / 4| ≤ 2 / 10 ^ 15 := by
  obtain ⟨K, S, h1, -, -, h2, h3⟩ := C164_gamma (fl := roundBits 53) (p := 53) (roundBits_roundsTo (by norm_num))
    (by norm_num) (k := 2) (s := 1) (k' := 3) (s' := 3 / 2) (w := 1) (by norm_num) (by norm_num) (by norm_num)
    (by norm_num) (by norm_num)
  refine ⟨K, S, h1, ?_, ?_⟩
  · norm_num at h2
    exact h2.trans (by unfold ulp; norm_num)
  · norm_num at h3
    exact h3.trans (by unfold ulp; norm_num)

/-- Three surveys, in any order. -/
example : betaUpdatesFl (roundBits 53) ((1 : ℚ), 1) [(3, 7), (10, 20), (2, 5)] = (16, 33) := by
  have := C164_counts (K := ℚ) (fl := roundBits 53) (p := 53) (roundBits_roundsTo (by norm_num)) 1 1
    [(3, 7), (10, 20), (2, 5)] (by norm_num) (by norm_num)
  norm_num at this
  exact this

end Verif
