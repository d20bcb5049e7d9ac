import Verif.Model.KellyDate
import Verif.Props.Forecast

/-!
# Property C99: the expected yearly return of a bet

`kelly(..., resolve_date=d)` reports as `expected_arr` the yearly return that amounts to the expected return
of the bet at the resolution date, for every date in the future.  The code violates this: it counts whole days
rounded down, so that it raises for the next day, overstates the yearly return for the other days, and reports
a loss for days that have begun.
-/

namespace Verif

open Spec

/-- Rounding keeps the order. -/
theorem roundEven_mono {x y : ℝ} (h : x ≤ y) : roundEven x ≤ roundEven y := by
  by_contra hc
  have hc : roundEven y + 1 ≤ roundEven x := by omega
  have hc' : (roundEven y : ℝ) + 1 ≤ roundEven x := by exact_mod_cast hc
  have h1 := abs_le.1 (abs_roundEven_sub_le x)
  have h2 := abs_le.1 (abs_roundEven_sub_le y)
  have hxy : x = y := by linarith [h1.1, h1.2, h2.1, h2.2]
  subst hxy
  omega

theorem roundTo_mono (d : ℕ) (x y : ℝ) (h : x ≤ y) : roundTo d x ≤ roundTo d y := by
  unfold roundTo
  have hp : (0 : ℝ) < 10 ^ d := by positivity
  apply div_le_div_of_nonneg_right _ hp.le
  exact_mod_cast roundEven_mono (mul_le_mul_of_nonneg_right h hp.le)

/-- With a date everything is as without one, except for the yearly return. -/
theorem kellyAt_eq (now my m d bankroll current : ℝ) (error : Bool) (r : ℤ) :
    kellyAt now my m d bankroll (some r) current error =
      (match kelly my m d bankroll none current error with
      | .error e => .error e
      | .ok k =>
        if wholeDays (r - now) = 0 then .error .zeroDivisionError
        else .ok { k with expectedArr := some (roundTo 3
          ((|(my * (1 - d) + m * d) / m - 1| + 1) ^ (365 / (wholeDays (r - now) : ℝ)) - 1)) }) := by
  unfold kellyAt kelly
  simp only [Option.map_some, Option.map_none]
  split_ifs <;> simp_all

/-- **C99** (without a date): no yearly return is reported and nothing depends on the time. -/
theorem C99_no_date (now my m d bankroll current : ℝ) (error : Bool) :
    kellyAt now my m d bankroll none current error = kelly my m d bankroll none current error ∧
    ∀ k, kellyAt now my m d bankroll none current error = .ok k → k.expectedArr = none :=
  ⟨rfl, fun _ h => (kelly_ok h).2.2.2.2.2.2.2.2.2.2.2.2.2.2⟩

/-- **C99** (which calls succeed): a call that would succeed without the date raises ZeroDivisionError exactly
during the 24 hours before the resolution date begins, and at that very midnight.  All other values are
those of the call without the date. -/
theorem C99_outcome (now my m d bankroll current : ℝ) (error : Bool) (r : ℤ) (k : KellyBet)
    (h : kelly my m d bankroll none current error = .ok k) :
    ((r : ℝ) - 1 < now ∧ now ≤ r →
      kellyAt now my m d bankroll (some r) current error = .error .zeroDivisionError) ∧
    (¬ ((r : ℝ) - 1 < now ∧ now ≤ r) → ∃ a,
      kellyAt now my m d bankroll (some r) current error = .ok { k with expectedArr := some a }) := by
  have hz : wholeDays (r - now) = 0 ↔ (r : ℝ) - 1 < now ∧ now ≤ r := by
    unfold wholeDays
    rw [Int.floor_eq_iff]
    simp only [Int.cast_zero, zero_add]
    constructor
    · rintro ⟨a, b⟩; exact ⟨by linarith, by linarith⟩
    · rintro ⟨a, b⟩; exact ⟨by linarith, by linarith⟩
  rw [kellyAt_eq, h]
  simp only
  constructor
  · intro hn
    rw [if_pos (hz.2 hn)]
  · intro hn
    rw [if_neg (fun h => hn (hz.1 h))]
    exact ⟨_, rfl⟩

/-- **C99** refuted: the day before the resolution date the call raises although the date is in the
future. -/
theorem C99_tomorrow_fails : ∃ (now : ℝ) (r : ℤ), now < r ∧
    (∃ k, kelly (7/10) (4/10) 0 100 none 0 true = .ok k) ∧
    kellyAt now (7/10) (4/10) 0 100 (some r) 0 true = .error .zeroDivisionError := by
  obtain ⟨k, hk⟩ := (C60_accepted (7/10) (4/10) 0 100 0 true).1
    ⟨by norm_num, by norm_num, by norm_num, by norm_num, by norm_num, by norm_num, by norm_num⟩
  refine ⟨1/2, 1, by norm_num, ⟨k, hk⟩, ?_⟩
  exact (C99_outcome (1/2) _ _ _ _ _ _ 1 k hk).1 (by norm_num)

/-- The number reported, before rounding: the yearly return over the whole days. -/
theorem kellyAt_arr {now my m d bankroll current : ℝ} {error : Bool} {r : ℤ} {k : KellyBet}
    (h : kellyAt now my m d bankroll (some r) current error = .ok k) :
    wholeDays (r - now) ≠ 0 ∧ 0 < m ∧
    k.expectedArr = some (roundTo 3
      ((1 + |my * (1 - d) + m * d - m| / m) ^ (365 / (wholeDays (r - now) : ℝ)) - 1)) := by
  rw [kellyAt_eq] at h
  cases hk : kelly my m d bankroll none current error with
  | error e => rw [hk] at h; simp at h
  | ok k0 =>
    rw [hk] at h
    simp only at h
    split_ifs at h with hz
    simp only [Except.ok.injEq] at h
    have hm := (kelly_ok hk).1
    refine ⟨hz, hm, ?_⟩
    rw [← h]
    simp only [Option.some.injEq]
    have e2 : (my * (1 - d) + m * d) / m - 1 = (my * (1 - d) + m * d - m) / m := by
      field_simp
    rw [e2, abs_div, abs_of_pos hm, add_comm]

theorem yearly_of_pow {R D : ℝ} (hR : 0 ≤ R) (hD : D ≠ 0) :
    IsYearlyReturn ((1 + R) ^ (365 / D) - 1) R D := by
  have h1 : (0 : ℝ) < 1 + R := by linarith
  refine ⟨?_, ?_⟩
  · have := Real.rpow_pos_of_pos h1 (365 / D)
    linarith
  · rw [add_sub_cancel, ← Real.rpow_mul h1.le]
    have : 365 / D * (D / 365) = 1 := by field_simp
    rw [this, Real.rpow_one]

theorem yearly_unique {a b R t : ℝ} (ht : t ≠ 0) (ha : IsYearlyReturn a R t) (hb : IsYearlyReturn b R t) :
    a = b := by
  have := Real.rpow_left_injOn (x := t / 365) (by positivity) ha.1.le hb.1.le
    (by simp only; rw [ha.2, hb.2])
  linarith

/-- **C99** (what is reported): up to rounding to three digits, the yearly return that gives the expected
return of the bet after the whole days (rounded down) that are left. -/
theorem C99_value_partial (now my m d bankroll current : ℝ) (error : Bool) (r : ℤ) (k : KellyBet)
    (h : kellyAt now my m d bankroll (some r) current error = .ok k) :
    ∃ a b, k.expectedArr = some b ∧ |b - a| ≤ 1 / 2000 ∧
      IsYearlyReturn a (|my * (1 - d) + m * d - m| / m) (⌊(r : ℝ) - now⌋ : ℝ) := by
  obtain ⟨hz, hm, ha⟩ := kellyAt_arr h
  refine ⟨_, _, ha, ?_, yearly_of_pow (by positivity) (by exact_mod_cast hz)⟩
  refine (abs_roundTo_sub_le 3 _).trans ?_
  norm_num

/-- **C99** (the error): with an edge and at least a day left, the yearly return over the whole days is at
least the one over the time that is really left, and equal to it only at midnight. -/
theorem C99_overstates (R t a b : ℝ) (hR : 0 < R) (ht : 1 ≤ t) (ha : IsYearlyReturn a R (⌊t⌋ : ℝ))
    (hb : IsYearlyReturn b R t) : b ≤ a ∧ (a = b ↔ (⌊t⌋ : ℝ) = t) := by
  have hfl : (1 : ℝ) ≤ (⌊t⌋ : ℝ) := by exact_mod_cast Int.le_floor.2 (by exact_mod_cast ht)
  have hle : (⌊t⌋ : ℝ) ≤ t := Int.floor_le t
  have ea : a = (1 + R) ^ (365 / (⌊t⌋ : ℝ)) - 1 :=
    yearly_unique (by positivity) ha (yearly_of_pow hR.le (by positivity))
  have eb : b = (1 + R) ^ (365 / t) - 1 :=
    yearly_unique (by positivity) hb (yearly_of_pow hR.le (by positivity))
  have h1 : (1 : ℝ) < 1 + R := by linarith
  have ht0 : (0 : ℝ) < t := by linarith
  have hf0 : (0 : ℝ) < (⌊t⌋ : ℝ) := by linarith
  refine ⟨?_, ?_⟩
  · rw [ea, eb]
    have : (365 : ℝ) / t ≤ 365 / (⌊t⌋ : ℝ) := div_le_div_of_nonneg_left (by norm_num) hf0 hle
    have := (Real.rpow_le_rpow_left_iff h1).2 this
    linarith
  · constructor
    · intro h
      by_contra hne
      have hlt : (⌊t⌋ : ℝ) < t := lt_of_le_of_ne hle hne
      have : (365 : ℝ) / t < 365 / (⌊t⌋ : ℝ) := div_lt_div_of_pos_left (by norm_num) hf0 hlt
      have := (Real.rpow_lt_rpow_left_iff h1).2 this
      rw [ea, eb] at h
      linarith
    · intro h
      rw [ea, eb, h]

/-- **C99** (order): the later the resolution date, the smaller the reported yearly return; with an edge the
reported number is not negative. -/
theorem C99_later (now my m d bankroll current : ℝ) (error : Bool) (r r' : ℤ) (k k' : KellyBet)
    (hr : now < r) (hrr : r ≤ r')
    (h : kellyAt now my m d bankroll (some r) current error = .ok k)
    (h' : kellyAt now my m d bankroll (some r') current error = .ok k') :
    ∃ b b', k.expectedArr = some b ∧ k'.expectedArr = some b' ∧ 0 ≤ b' ∧ b' ≤ b := by
  obtain ⟨hz, hm, ha⟩ := kellyAt_arr h
  obtain ⟨hz', _, ha'⟩ := kellyAt_arr h'
  have hmono : ∀ x y : ℝ, x ≤ y → roundTo 3 x ≤ roundTo 3 y := roundTo_mono 3
  have hpos : 0 < wholeDays ((r : ℝ) - now) := by
    have : 0 ≤ wholeDays ((r : ℝ) - now) := Int.floor_nonneg.2 (by linarith)
    omega
  have hle : wholeDays ((r : ℝ) - now) ≤ wholeDays ((r' : ℝ) - now) := by
    apply Int.floor_le_floor
    have : (r : ℝ) ≤ r' := by exact_mod_cast hrr
    linarith
  have hpos' : 0 < wholeDays ((r' : ℝ) - now) := lt_of_lt_of_le hpos hle
  have hp : (0 : ℝ) < (wholeDays ((r : ℝ) - now) : ℝ) := by exact_mod_cast hpos
  have hp' : (0 : ℝ) < (wholeDays ((r' : ℝ) - now) : ℝ) := by exact_mod_cast hpos'
  have hl : (wholeDays ((r : ℝ) - now) : ℝ) ≤ wholeDays ((r' : ℝ) - now) := by exact_mod_cast hle
  have h1 : (1 : ℝ) ≤ 1 + |my * (1 - d) + m * d - m| / m := by
    have : 0 ≤ |my * (1 - d) + m * d - m| / m := by positivity
    linarith
  refine ⟨_, _, ha, ha', ?_, hmono _ _ ?_⟩
  · have h0 : roundTo 3 0 = 0 := roundTo_exact 3 0 0 (by norm_num)
    rw [← h0]
    apply hmono
    have := Real.one_le_rpow h1 (z := 365 / (wholeDays ((r' : ℝ) - now) : ℝ)) (by positivity)
    linarith
  · have : (365 : ℝ) / wholeDays ((r' : ℝ) - now) ≤ 365 / wholeDays ((r : ℝ) - now) :=
      div_le_div_of_nonneg_left (by norm_num) hp hl
    have := Real.rpow_le_rpow_of_exponent_le h1 this
    linarith

/-- **C99** refuted: once the resolution date has begun, every bet with an edge is reported with a
non-positive yearly return, and no error is raised. -/
theorem C99_past_fails (now my m d bankroll current : ℝ) (error : Bool) (r : ℤ) (k : KellyBet)
    (hr : (r : ℝ) < now) (h : kelly my m d bankroll none current error = .ok k) :
    ∃ b, kellyAt now my m d bankroll (some r) current error =
        .ok { k with expectedArr := some b } ∧ b ≤ 0 := by
  obtain ⟨b, hb⟩ := (C99_outcome now my m d bankroll current error r k h).2 (by
    rintro ⟨_, h2⟩; linarith)
  refine ⟨b, hb, ?_⟩
  obtain ⟨hz, hm, ha⟩ := kellyAt_arr hb
  simp only [Option.some.injEq] at ha
  have hneg : wholeDays ((r : ℝ) - now) < 0 := Int.floor_lt.2 (by push_cast; linarith)
  have hn : (wholeDays ((r : ℝ) - now) : ℝ) < 0 := by exact_mod_cast hneg
  have h1 : (1 : ℝ) ≤ 1 + |my * (1 - d) + m * d - m| / m := by
    have : 0 ≤ |my * (1 - d) + m * d - m| / m := by positivity
    linarith
  have h0 : roundTo 3 0 = 0 := roundTo_exact 3 0 0 (by norm_num)
  rw [ha, ← h0]
  apply roundTo_mono
  have := Real.rpow_le_one_of_one_le_of_nonpos h1
    (z := 365 / (wholeDays ((r : ℝ) - now) : ℝ)) (div_nonpos_of_nonneg_of_nonpos (by norm_num) hn.le)
  linarith

/-- A bet with an edge and a date two days ahead, at noon: the call succeeds. -/
example : ∃ k, kellyAt (1/2) (7/10) (4/10) 0 100 (some 2) 0 true = .ok k := by
  obtain ⟨k, hk⟩ := (C60_accepted (7/10) (4/10) 0 100 0 true).1
    ⟨by norm_num, by norm_num, by norm_num, by norm_num, by norm_num, by norm_num, by norm_num⟩
  obtain ⟨a, ha⟩ := (C99_outcome (1/2) _ _ _ _ _ _ 2 k hk).2 (by norm_num)
  exact ⟨_, ha⟩

/-- The premises of `C99_overstates` for a return of one half after one and a half days. -/
example : ∃ a b, IsYearlyReturn a (1/2) (⌊(3/2 : ℝ)⌋ : ℝ) ∧ IsYearlyReturn b (1/2) (3/2) := by
  refine ⟨_, _, yearly_of_pow (by norm_num) ?_, yearly_of_pow (by norm_num) (by norm_num)⟩
  have : ⌊(3/2 : ℝ)⌋ = 1 := by norm_num [Int.floor_eq_iff]
  rw [this]; norm_num

end Verif
