import Verif.Model.DoubleKelly
import Verif.Props.DoubleBayes
import Verif.Props.RoundedHelpers

/-!
# C180: Kelly stakes with floats of any size
-/

namespace Verif

open Spec

variable {K : Type} [Field K] [LinearOrder K] [IsStrictOrderedRing K] [FloorRing K] {f : FloatFormat} {fl fl' : K → K}

omit [FloorRing K] in
theorem Matches.abs {m : ℕ} {v : XVal K} {r : K} (h : Matches f m v r) : Matches f m v.abs |r| := by
  refine ⟨?_, ?_, ?_⟩
  · rcases XVal.is_cases h.1 with rfl | ⟨rfl, rfl⟩ <;> simp [XVal.abs, XVal.Is, XVal.val?]
  · rcases abs_choice r with e | e <;> rw [e]
    · exact h.2.1
    · exact h.2.1.neg
  · rcases abs_choice r with e | e <;> rw [e]
    · exact h.2.2
    · exact isFloat_neg h.2.2

theorem Matches.sub (hp : 1 ≤ f.p) (h : RoundsDouble f fl) (h' : RoundsTo f.p fl')
    (he : ∀ x, Unharmed f x → fl x = fl' x) {m : ℕ} (hM : f.Covers (m + f.p)) {a b : XVal K} {x y : K}
    (ha : Matches f m a x) (hb : Matches f m b y) : Matches f (m + f.p) ((a.sub b).toDouble f fl) (fl' (x - y)) := by
  have := Moderate.add hp ha.2.2 (isFloat_neg hb.2.2) ha.2.1 hb.2.1.neg
  rw [← sub_eq_add_neg] at this
  exact matches_round h h' he hM (XVal.sub_is ha.1 hb.1) this

theorem Matches.add (hp : 1 ≤ f.p) (h : RoundsDouble f fl) (h' : RoundsTo f.p fl')
    (he : ∀ x, Unharmed f x → fl x = fl' x) {m : ℕ} (hM : f.Covers (m + f.p)) {a b : XVal K} {x y : K}
    (ha : Matches f m a x) (hb : Matches f m b y) : Matches f (m + f.p) ((a.add b).toDouble f fl) (fl' (x + y)) :=
  matches_round h h' he hM (XVal.add_is ha.1 hb.1) (Moderate.add hp ha.2.2 hb.2.2 ha.2.1 hb.2.1)

theorem Matches.mul (h : RoundsDouble f fl) (h' : RoundsTo f.p fl')
    (he : ∀ x, Unharmed f x → fl x = fl' x) {m n : ℕ} (hM : f.Covers (m + n)) {a b : XVal K} {x y : K}
    (ha : Matches f m a x) (hb : Matches f n b y) : Matches f (m + n) ((a.mul b).toDouble f fl) (fl' (x * y)) :=
  matches_round h h' he hM (XVal.mul_is ha.1 hb.1) (ha.2.1.mul hb.2.1)

theorem Matches.div (h : RoundsDouble f fl) (h' : RoundsTo f.p fl')
    (he : ∀ x, Unharmed f x → fl x = fl' x) {m n : ℕ} (hM : f.Covers (m + n)) {a b : XVal K} {x y : K} (hy : y ≠ 0)
    (ha : Matches f m a x) (hb : Matches f n b y) : Matches f (m + n) ((a.div b).toDouble f fl) (fl' (x / y)) := by
  obtain rfl : b = .fin y := by
    rcases b.is_cases hb.1 with rfl | ⟨rfl, e⟩
    · rfl
    · exact absurd e hy
  refine matches_round h h' he hM (XVal.div_is ha.1 hy) ?_
  rcases ha.2.1 with h0 | h0
  · exact .inl (by rw [h0, zero_div])
  · exact .inr (by
      rw [abs_div]
      exact h0.div (hb.2.1.resolve_left hy))

/-- **C180.** For prices, deference and bankroll that are floats and zero or of bounded size, the numbers of `kelly` are
finite and within the bounds of C119 of the exact ones. -/
theorem C180_kelly (hp : 6 ≤ f.p) (h : RoundsDouble f fl) {E : ℕ} (hE : f.Covers (5 * E + 5 * f.p))
    {my market deference bankroll : K} {error : Bool} (f1 : IsFloat f.p my) (f2 : IsFloat f.p market)
    (f3 : IsFloat f.p deference) (f4 : IsFloat f.p bankroll) (m1 : Moderate E my) (m2 : Moderate E market)
    (m3 : Moderate E deference) (m4 : Moderate E bankroll) (hmy : 0 < my ∧ my < 1) (hma : 0 < market ∧ market < 1)
    (hd : 0 ≤ deference ∧ deference ≤ 1) (herr : market ≤ my ∨ error = false) :
    let price := my * (1 - deference) + market * deference
    let stake := |price - (1 - price) * (market / (1 - market))|
    ∃ r a k t i, kellyX f fl my market deference bankroll error = .ok r ∧
      r.adj.val? = some a ∧ r.kelly.val? = some k ∧ r.target.val? = some t ∧ r.roi.val? = some i ∧
      |a - price| ≤ 4 * ulp f.p * price ∧
      |k - stake| ≤ 12 * ulp f.p / (1 - market) ∧
      |t - bankroll * stake| ≤ |bankroll| * (15 * ulp f.p / (1 - market)) ∧
      |i - abs (price / market - 1)| ≤ 8 * ulp f.p / market := by
  intro price stake
  have hp1 : 1 ≤ f.p := by omega
  obtain ⟨fl', h', he⟩ := h.unlimited hp1
  have g1 : ¬ (market ≥ 1 ∨ market ≤ 0) := by push Not; exact ⟨hma.2, hma.1⟩
  have g2 : ¬ (my ≥ 1 ∨ my ≤ 0) := by push Not; exact ⟨hmy.2, hmy.1⟩
  have g3 : ¬ (deference > 1 ∨ deference < 0) := by push Not; exact ⟨hd.2, hd.1⟩
  have g4 : ¬ (my < market ∧ error = true) := by
    rintro ⟨a, b⟩
    rcases herr with c | c
    · linarith
    · simp [c] at b
  have i1 : Matches f E (.fin my) my := ⟨rfl, m1, f1⟩
  have i2 : Matches f E (.fin market) market := ⟨rfl, m2, f2⟩
  have i3 : Matches f E (.fin deference) deference := ⟨rfl, m3, f3⟩
  have i4 : Matches f E (.fin bankroll) bankroll := ⟨rfl, m4, f4⟩
  have one : ∀ n : ℕ, Matches f n (.fin (1 : K)) 1 := fun n => ⟨rfl, .inr (by
    rw [abs_one]
    exact ⟨zpow_le_one_of_nonpos₀ one_le_two (by omega), one_le_zpow₀ one_le_two (by omega)⟩), isFloat_one _⟩
  have C : ∀ {n : ℕ}, n ≤ 5 * E + 5 * f.p → f.Covers n := fun hn => Covers.mono hn hE
  have c1 := Matches.sub hp1 h h' he (C (by omega)) (one E) i3
  have c2 := Matches.mul h h' he (C (by omega)) i1 c1
  have c3 := (Matches.mul h h' he (C (by omega)) i2 i3).mono (show E + E ≤ E + (E + f.p) by omega)
  have adj := Matches.add hp1 h h' he (C (by omega)) c2 c3
  have c4 := Matches.sub hp1 h h' he (C (by omega)) (one _) adj
  have c5 := Matches.sub hp1 h h' he (C (by omega)) (one E) i2
  have c6 := Matches.div h h' he (C (by omega)) (h'.pos hp1 (show 0 < 1 - market by linarith [hma.2])).ne' i2 c5
  have c7 := Matches.mul h h' he (C (by omega)) c4 c6
  have k := (Matches.sub hp1 h h' he (C (by omega)) (adj.mono (by omega)) c7).abs
  have t := Matches.mul h h' he (C (by omega)) i4 k
  have c8 := Matches.div h h' he (C (by omega)) hma.1.ne' adj i2
  have i := (Matches.sub hp1 h h' he (C (by omega)) c8 (one _)).abs
  have hr : ∃ r, kellyFl fl' my market deference bankroll error = .ok r := by
    unfold kellyFl
    rw [if_neg g1, if_neg g2, if_neg g3, if_neg g4]
    exact ⟨_, rfl⟩
  obtain ⟨r, hr⟩ := hr
  have key := C119_kelly h' hp hr
  unfold kellyFl at hr
  rw [if_neg g1, if_neg g2, if_neg g3, if_neg g4] at hr
  cases hr
  unfold kellyX
  rw [if_neg g1, if_neg g2, if_neg g3, if_neg g4]
  exact ⟨_, _, _, _, _, rfl, adj.1, k.1, t.1, i.1, key⟩

/-- **C180** (very small prices): with a market price of `2^-1074` and one's own price of 1/2 the expected return is infinite. -/
theorem C180_small_fails :
    (kellyX binary64 (roundDouble binary64) (1 / 2) (1 / 2 ^ 1074) 0 (100 : ℚ) true).toOption.map (·.roi) = some .pinf ∧
    RoundsDouble binary64 (roundDouble (K := ℚ) binary64) :=
  ⟨by decide +kernel, roundDouble_rounds (by decide)⟩

/-- The hypotheses are met for Python floats. -/
example : binary64.Covers (5 * 151 + 5 * binary64.p) ∧ Moderate 151 (3 / 4 : ℚ) ∧ Moderate 151 (1 / 2 : ℚ) ∧
    Moderate 151 (0 : ℚ) ∧ Moderate 151 (100 : ℚ) ∧ IsFloat binary64.p (3 / 4 : ℚ) ∧
    (kellyX binary64 (roundDouble binary64) (3 / 4) (1 / 2) 0 (100 : ℚ) true).toOption.map
      (fun r => (r.adj, r.kelly, r.target, r.roi)) = some (.fin (3 / 4), .fin (1 / 2), .fin 50, .fin (1 / 2)) := by
  refine ⟨⟨by decide, by decide⟩, .inr ⟨?_, ?_⟩, .inr ⟨?_, ?_⟩, .inl rfl, .inr ⟨?_, ?_⟩,
    ⟨3, -2, by norm_num [binary64], by norm_num⟩, by decide +kernel⟩ <;> norm_num [abs_of_pos]

end Verif
