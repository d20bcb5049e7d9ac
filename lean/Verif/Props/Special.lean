import Verif.Lemmas.Special
import Mathlib.Algebra.Order.Ring.Rat
import Mathlib.Algebra.Order.Group.Abs
import Mathlib.Algebra.BigOperators.Group.List.Lemmas
import Mathlib.Algebra.Order.Ring.Cast
import Mathlib.Tactic.Linarith
import Mathlib.Tactic.FieldSimp
import Mathlib.Tactic.NormNum

/-!
# C133: divisions by zero, infinities and `nan` in samples

`Spec/Special.lean` defines the expressions and their value in ordinary arithmetic.
-/

namespace Verif

open Spec

section
variable {K : Type} [Field K] [LinearOrder K]

/-- **C133.** With several samples nothing raises and every sample of the expression is there. -/
theorem C133_length (n : ℕ) (f : ℕ → List K) (h : ∀ k, (f k).length = n) (e : XExpr K) :
    (evalMany n f e).length = n := evalMany_length h e

/-- **C133.** Where the expression has a value in ordinary arithmetic, that is the sample. -/
theorem C133_agrees (n i : ℕ) (hi : i < n) (f : ℕ → List K) (g : ℕ → K)
    (h : ∀ k, (f k)[i]? = some (g k)) (e : XExpr K) (v : K) (hv : Evaluates g e v) :
    ∃ x, (evalMany n f e)[i]? = some x ∧ x.val? = some v :=
  ⟨_, evalMany_at hi h e, evalAt_agrees hv⟩

/-- **C133.** It has such a value exactly if no part of it divides by zero. -/
theorem C133_value_iff (g : ℕ → K) (e : XExpr K) :
    (∃ v, Evaluates g e v) ↔ ∀ a b, XInside (.bin .div a b) e → ¬ Evaluates g b 0 := by
  refine ⟨?_, evaluates_of_no_zero⟩
  rintro ⟨v, hv⟩ a b hab h0
  obtain ⟨w, hw⟩ := evaluates_inside hab hv
  cases hw with
  | div _ h1 h2 => exact h2 (evaluates_unique h1 h0)

/-- **C133.** A division by zero at one position does not touch the others: a sample depends only on the draws
at its own position. -/
theorem C133_rows (n m i j : ℕ) (hi : i < n) (hj : j < m) (f f' : ℕ → List K)
    (h : ∀ k, ∃ x, (f k)[i]? = some x ∧ (f' k)[j]? = some x) (e : XExpr K) :
    (evalMany n f e)[i]? = (evalMany m f' e)[j]? := by
  choose g hg using h
  rw [evalMany_at hi (fun k => (hg k).1), evalMany_at hj (fun k => (hg k).2)]

/-- **C133.** A `nan` in a part of the expression is a `nan` in the whole: neither `dist_max`, `dist_min`, `lclip`
nor `rclip` removes it. -/
theorem C133_nan_kept (n i : ℕ) (hi : i < n) (f : ℕ → List K) (hf : ∀ k, (f k).length = n)
    (c e : XExpr K) (hc : XInside c e) (hn : (evalMany n f c)[i]? = some .nan) :
    (evalMany n f e)[i]? = some .nan := by
  have h : ∀ k, ∃ x, (f k)[i]? = some x := fun k => ⟨_, List.getElem?_eq_getElem (by rw [hf]; exact hi)⟩
  choose g hg using h
  rw [evalMany_at hi hg] at hn ⊢
  rw [evalAt_nan hc (Option.some.inj hn)]

theorem op_none {o : XOp} {a b : XVal K} {x y : K} (ha : a.val? = some x) (hb : b.val? = some y)
    (h : (XVal.op o a b).val? = none) : o = .div ∧ y = 0 := by
  cases o with
  | add => rw [XVal.op, XVal.val_add ha hb] at h; cases h
  | sub => rw [XVal.op, XVal.val_sub ha hb] at h; cases h
  | mul => rw [XVal.op, XVal.val_mul ha hb] at h; cases h
  | max => rw [XVal.op, XVal.val_max ha hb] at h; cases h
  | min => rw [XVal.op, XVal.val_min ha hb] at h; cases h
  | div =>
    refine ⟨rfl, ?_⟩
    by_contra hy
    rw [XVal.op, XVal.val_div ha hb hy] at h; cases h

theorem not_finite_at {g : ℕ → K} {e : XExpr K} (h : (evalAt g e).val? = none) :
    ∃ a b x, XInside (.bin .div a b) e ∧ (evalAt g a).val? = some x ∧ (evalAt g b).val? = some 0 := by
  induction e with
  | src k => cases h
  | num x => cases h
  | neg e ih =>
    cases he : (evalAt g e).val? with
    | none => obtain ⟨a, b, x, h1, h2⟩ := ih he; exact ⟨a, b, x, .neg h1, h2⟩
    | some v => rw [evalAt, XVal.val_neg he] at h; cases h
  | lclip e c ih =>
    cases he : (evalAt g e).val? with
    | none => obtain ⟨a, b, x, h1, h2⟩ := ih he; exact ⟨a, b, x, .lclip c h1, h2⟩
    | some v => rw [evalAt, XVal.val_lclip he] at h; cases h
  | rclip e c ih =>
    cases he : (evalAt g e).val? with
    | none => obtain ⟨a, b, x, h1, h2⟩ := ih he; exact ⟨a, b, x, .rclip c h1, h2⟩
    | some v => rw [evalAt, XVal.val_rclip he] at h; cases h
  | bin o a b iha ihb =>
    cases ha : (evalAt g a).val? with
    | none => obtain ⟨c, d, x, h1, h2⟩ := iha ha; exact ⟨c, d, x, .left o b h1, h2⟩
    | some v =>
      cases hb : (evalAt g b).val? with
      | none => obtain ⟨c, d, x, h1, h2⟩ := ihb hb; exact ⟨c, d, x, .right o a h1, h2⟩
      | some w =>
        obtain ⟨rfl, rfl⟩ := op_none ha hb h
        exact ⟨a, b, v, .refl _, ha, hb⟩

/-- **C133.** A sample that is an infinity or `nan` comes from a division of a number by zero at that position,
somewhere in the expression. -/
theorem C133_not_finite (n i : ℕ) (hi : i < n) (f : ℕ → List K) (hf : ∀ k, (f k).length = n)
    (e : XExpr K) (y : XVal K) (hy : (evalMany n f e)[i]? = some y) (hn : y.val? = none) :
    ∃ a b x v z, XInside (.bin .div a b) e ∧
      (evalMany n f a)[i]? = some x ∧ x.val? = some v ∧ (evalMany n f b)[i]? = some z ∧ z.val? = some 0 := by
  have h : ∀ k, ∃ x, (f k)[i]? = some x := fun k => ⟨_, List.getElem?_eq_getElem (by rw [hf]; exact hi)⟩
  choose g hg using h
  rw [evalMany_at hi hg] at hy
  cases hy
  obtain ⟨a, b, x, h1, h2, h3⟩ := not_finite_at hn
  exact ⟨a, b, _, x, _, h1, evalMany_at hi hg a, h2, evalMany_at hi hg b, h3⟩

theorem many_bin {n i : ℕ} {f : ℕ → List K} {o : XOp} {a b : XExpr K} {x y : XVal K}
    (ha : (evalMany n f a)[i]? = some x) (hb : (evalMany n f b)[i]? = some y) :
    (evalMany n f (.bin o a b))[i]? = some (XVal.op o x y) := by
  simp [evalMany, List.getElem?_zipWith, ha, hb]

/-- **C133.** What a division by zero gives at a position: `nan` for `0 / 0`, an infinity of the sign of the dividend
otherwise (reversed for negative zero). -/
theorem C133_by_zero (n i : ℕ) (f : ℕ → List K) (a b : XExpr K) (x : XVal K) (v : K)
    (ha : (evalMany n f a)[i]? = some x) (hx : x.val? = some v) :
    ((evalMany n f b)[i]? = some (.fin 0) →
      (v = 0 → (evalMany n f (.bin .div a b))[i]? = some .nan) ∧
      (0 < v → (evalMany n f (.bin .div a b))[i]? = some .pinf) ∧
      (v < 0 → (evalMany n f (.bin .div a b))[i]? = some .ninf)) ∧
    ((evalMany n f b)[i]? = some .nzero →
      (v = 0 → (evalMany n f (.bin .div a b))[i]? = some .nan) ∧
      (0 < v → (evalMany n f (.bin .div a b))[i]? = some .ninf) ∧
      (v < 0 → (evalMany n f (.bin .div a b))[i]? = some .pinf)) := by
  constructor <;> intro hb <;> rw [many_bin ha hb]
  all_goals
    cases x with
    | fin w =>
      simp only [XVal.val?, Option.some.injEq] at hx
      subst hx
      refine ⟨fun h => ?_, fun h => ?_, fun h => ?_⟩
      · subst h; simp [XVal.op, XVal.div, XVal.val?]
      · simp [XVal.op, XVal.div, XVal.val?, XVal.inf, XVal.negative, h.ne', not_lt.2 h.le]
      · simp [XVal.op, XVal.div, XVal.val?, XVal.inf, XVal.negative, h.ne, h]
    | nzero =>
      simp only [XVal.val?, Option.some.injEq] at hx
      subst hx
      simp [XVal.op, XVal.div, XVal.val?]
    | pinf => simp [XVal.val?] at hx
    | ninf => simp [XVal.val?] at hx
    | nan => simp [XVal.val?] at hx

/-- **C133.** An infinity at a position stays one under `+` and `-` with numbers, wins `dist_max`, loses `dist_min`,
gives 0 as a divisor, `nan` times zero and an infinity of the right sign times other numbers; the difference and the
quotient of two infinities of the same sign are `nan`. -/
theorem C133_infinity (n i : ℕ) (f : ℕ → List K) (a b : XExpr K)
    (ha : (evalMany n f a)[i]? = some .pinf) :
    (∀ y v, (evalMany n f b)[i]? = some y → y.val? = some v →
      (evalMany n f (.bin .add a b))[i]? = some .pinf ∧
      (evalMany n f (.bin .sub a b))[i]? = some .pinf ∧
      (evalMany n f (.bin .sub b a))[i]? = some .ninf ∧
      (evalMany n f (.bin .max a b))[i]? = some .pinf ∧
      (evalMany n f (.bin .min a b))[i]? = some y ∧
      (∃ z, (evalMany n f (.bin .div b a))[i]? = some z ∧ z.val? = some 0) ∧
      (v = 0 → (evalMany n f (.bin .mul a b))[i]? = some .nan) ∧
      (0 < v → (evalMany n f (.bin .mul a b))[i]? = some .pinf) ∧
      (v < 0 → (evalMany n f (.bin .mul a b))[i]? = some .ninf)) ∧
    ((evalMany n f b)[i]? = some .pinf →
      (evalMany n f (.bin .sub a b))[i]? = some .nan ∧ (evalMany n f (.bin .div a b))[i]? = some .nan ∧
      (evalMany n f (.bin .add a b))[i]? = some .pinf ∧ (evalMany n f (.bin .mul a b))[i]? = some .pinf) := by
  constructor
  · intro y v hb hy
    simp only [many_bin ha hb, many_bin hb ha]
    cases y with
    | fin w =>
      simp only [XVal.val?, Option.some.injEq] at hy
      subst hy
      refine ⟨?_, ?_, ?_, ?_, ?_, ⟨_, rfl, ?_⟩, ?_, ?_, ?_⟩
      · simp [XVal.op, XVal.add, XVal.val?]
      · by_cases h : w = 0 <;>
          simp [XVal.op, XVal.sub, XVal.neg, XVal.signed, XVal.zero, XVal.add, XVal.val?, h]
      · simp [XVal.op, XVal.sub, XVal.neg, XVal.add, XVal.val?]
      · simp [XVal.op, XVal.max, XVal.le, XVal.lt, XVal.val?]
      · simp [XVal.op, XVal.min, XVal.le, XVal.lt, XVal.val?]
      · by_cases h : w < 0 <;> simp [XVal.op, XVal.div, XVal.val?, XVal.zero, XVal.negative, h]
      · intro h; subst h; simp [XVal.op, XVal.mul, XVal.val?]
      · intro h; simp [XVal.op, XVal.mul, XVal.val?, h.ne', XVal.inf, XVal.negative, not_lt.2 h.le]
      · intro h; simp [XVal.op, XVal.mul, XVal.val?, h.ne, XVal.inf, XVal.negative, h]
    | nzero =>
      simp only [XVal.val?, Option.some.injEq] at hy
      subst hy
      simp [XVal.op, XVal.sub, XVal.neg, XVal.add, XVal.mul, XVal.div, XVal.max, XVal.min, XVal.le, XVal.lt,
        XVal.val?, XVal.zero, XVal.negative]
    | pinf => simp [XVal.val?] at hy
    | ninf => simp [XVal.val?] at hy
    | nan => simp [XVal.val?] at hy
  · intro hb
    simp only [many_bin ha hb]
    simp [XVal.op, XVal.sub, XVal.neg, XVal.add, XVal.mul, XVal.div, XVal.val?, XVal.inf, XVal.negative]

/-- For the draws `0`, `2`: `1 / d`, `d / d` and `(1 / d) - (1 / d)`. -/
example : let f : ℕ → List ℚ := fun _ => [0, 2]
    evalMany 2 f (.bin .div (.num 1) (.src 0)) = [.pinf, .fin (1 / 2)] ∧
    evalMany 2 f (.bin .div (.src 0) (.src 0)) = [.nan, .fin 1] ∧
    evalMany 2 f (.bin .sub (.bin .div (.num 1) (.src 0)) (.bin .div (.num 1) (.src 0))) = [.nan, .fin 0] := by
  decide +kernel

/-- **C133 fails** in the other direction: a division by zero need not show.  `1 / (1 / d)` at `0` is `0`, and
`rclip(1 / d, c)` is `c`. -/
theorem C133_hidden_fails [IsStrictOrderedRing K] (c : K) (n i : ℕ) (hi : i < n) (f : ℕ → List K)
    (hf : ∀ k, (f k)[i]? = some 0) :
    (evalMany n f (.bin .div (.num 1) (.bin .div (.num 1) (.src 0))))[i]? = some (.fin 0) ∧
    (evalMany n f (.rclip (.bin .div (.num 1) (.src 0)) c))[i]? = some (.fin c) ∧
    (¬ ∃ v, Evaluates (fun _ => (0 : K)) (.bin .div (.num 1) (.bin .div (.num 1) (.src 0))) v) ∧
    ¬ ∃ v, Evaluates (fun _ => (0 : K)) (.rclip (.bin .div (.num 1) (.src 0)) c) v := by
  refine ⟨?_, ?_, ?_, ?_⟩
  · rw [evalMany_at hi hf]
    have h : ¬ (1 : K) < 0 := not_lt.2 zero_le_one
    simp [evalAt, XVal.op, XVal.div, XVal.val?, XVal.inf, XVal.zero, XVal.negative, h]
  · rw [evalMany_at hi hf]
    have h : ¬ (1 : K) < 0 := not_lt.2 zero_le_one
    simp [evalAt, XVal.op, XVal.div, XVal.val?, XVal.inf, XVal.negative, XVal.rclip, XVal.lt, h]
  · rw [C133_value_iff]; intro h; exact h _ _ (.right _ _ (.refl _)) (.src 0)
  · rw [C133_value_iff]; intro h; exact h _ _ (.rclip _ (.refl _)) (.src 0)

/-! ### One sample -/

/-- **C133.** One sample, with `+ - * /` and negation only: `ZeroDivisionError` exactly if a part divides by zero,
otherwise the value in ordinary arithmetic. -/
theorem C133_one_partial (g : ℕ → K) (e : XExpr K) (he : Plain4 e) :
    (∃ v r, Evaluates g e v ∧ evalOne g e = .ok r ∧ r.value.val? = some v) ∨
    ((¬ ∃ v, Evaluates g e v) ∧ evalOne g e = .error .zeroDivisionError) := by
  suffices H : (∃ v r, Evaluates g e v ∧ evalOne g e = .ok r ∧ r.value.val? = some v ∧ r.numpy = false) ∨
      ((¬ ∃ v, Evaluates g e v) ∧ evalOne g e = .error .zeroDivisionError) by
    rcases H with ⟨v, r, h1, h2, h3, -⟩ | H
    · exact .inl ⟨v, r, h1, h2, h3⟩
    · exact .inr H
  induction e with
  | src k => exact .inl ⟨_, _, .src k, rfl, rfl, rfl⟩
  | num x => exact .inl ⟨_, _, .num x, rfl, rfl, rfl⟩
  | lclip => exact he.elim
  | rclip => exact he.elim
  | neg e ih =>
    rcases ih he with ⟨v, r, h1, h2, h3, h4⟩ | ⟨h1, h2⟩
    · exact .inl ⟨-v, ⟨r.value.neg, r.numpy⟩, .neg h1, by simp [evalOne, h2, bind, Except.bind], XVal.val_neg h3, h4⟩
    · refine .inr ⟨?_, by simp [evalOne, h2, bind, Except.bind]⟩
      rintro ⟨v, hv⟩
      exact h1 (evaluates_inside (.neg (.refl e)) hv)
  | bin o a b iha ihb =>
    obtain ⟨ho1, ho2, hpa, hpb⟩ := he
    rcases iha hpa with ⟨v, r, h1, h2, h3, h4⟩ | ⟨h1, h2⟩
    · rcases ihb hpb with ⟨w, q, k1, k2, k3, k4⟩ | ⟨k1, k2⟩
      · by_cases hz : o = .div ∧ w = 0
        · obtain ⟨rfl, rfl⟩ := hz
          refine .inr ⟨?_, by simp [evalOne, h2, k2, h4, k4, k3, bind, Except.bind]⟩
          rintro ⟨u, hu⟩
          cases hu with
          | div _ m1 m2 => exact m2 (evaluates_unique m1 k1)
        · have hev : evalOne g (.bin o a b) = .ok ⟨XVal.op o r.value q.value, false⟩ := by
            have : ¬ (o = .div ∧ q.value.val? = some 0) := by
              rintro ⟨rfl, h⟩; rw [k3] at h; exact hz ⟨rfl, Option.some.inj h⟩
            simp only [evalOne, h2, k2, h4, k4, bind, Except.bind, true_and, if_neg this]
            simp [ho1, ho2]
          left
          cases o with
          | add => exact ⟨_, _, .add h1 k1, hev, XVal.val_add h3 k3, rfl⟩
          | sub => exact ⟨_, _, .sub h1 k1, hev, XVal.val_sub h3 k3, rfl⟩
          | mul => exact ⟨_, _, .mul h1 k1, hev, XVal.val_mul h3 k3, rfl⟩
          | div =>
            have hw : w ≠ 0 := fun h => hz ⟨rfl, h⟩
            exact ⟨_, _, .div h1 k1 hw, hev, XVal.val_div h3 k3 hw, rfl⟩
          | max => exact absurd rfl ho1
          | min => exact absurd rfl ho2
      · refine .inr ⟨?_, by simp [evalOne, h2, k2, bind, Except.bind]⟩
        rintro ⟨v, hv⟩
        exact k1 (evaluates_inside (.right o a (.refl b)) hv)
    · refine .inr ⟨?_, by simp [evalOne, h2, bind, Except.bind]⟩
      rintro ⟨v, hv⟩
      exact h1 (evaluates_inside (.left o b (.refl a)) hv)

theorem evalOne_cases (g : ℕ → K) (e : XExpr K) :
    (∃ b, evalOne g e = .ok ⟨evalAt g e, b⟩) ∨
    (evalOne g e = .error .zeroDivisionError ∧ ∃ a b, XInside (.bin .div a b) e ∧ (evalAt g b).val? = some 0) := by
  induction e with
  | src k => exact .inl ⟨_, rfl⟩
  | num x => exact .inl ⟨_, rfl⟩
  | neg e ih =>
    rcases ih with ⟨b, h⟩ | ⟨h, a, b, h1, h2⟩
    · exact .inl ⟨b, by simp [evalOne, h, bind, Except.bind, evalAt]⟩
    · exact .inr ⟨by simp [evalOne, h, bind, Except.bind], a, b, .neg h1, h2⟩
  | lclip e c ih =>
    rcases ih with ⟨b, h⟩ | ⟨h, a, b, h1, h2⟩
    · exact .inl ⟨true, by simp [evalOne, h, bind, Except.bind, evalAt]⟩
    · exact .inr ⟨by simp [evalOne, h, bind, Except.bind], a, b, .lclip c h1, h2⟩
  | rclip e c ih =>
    rcases ih with ⟨b, h⟩ | ⟨h, a, b, h1, h2⟩
    · exact .inl ⟨true, by simp [evalOne, h, bind, Except.bind, evalAt]⟩
    · exact .inr ⟨by simp [evalOne, h, bind, Except.bind], a, b, .rclip c h1, h2⟩
  | bin o a b iha ihb =>
    rcases iha with ⟨p, h⟩ | ⟨h, c, d, h1, h2⟩
    · rcases ihb with ⟨q, k⟩ | ⟨k, c, d, k1, k2⟩
      · by_cases hz : o = .div ∧ p = false ∧ q = false ∧ (evalAt g b).val? = some 0
        · refine .inr ⟨?_, a, b, ?_, hz.2.2.2⟩
          · simp only [evalOne, h, k, bind, Except.bind, if_pos hz]
          · rw [hz.1]; exact .refl _
        · exact .inl ⟨_, by simp only [evalOne, h, k, bind, Except.bind, if_neg hz, evalAt]; rfl⟩
      · exact .inr ⟨by simp [evalOne, h, k, bind, Except.bind], c, d, .right o a k1, k2⟩
    · exact .inr ⟨by simp [evalOne, h, bind, Except.bind], c, d, .left o b h1, h2⟩

/-- **C133.** In general: one sample, if there is one, is what several samples would have at a position with
the same draws. -/
theorem C133_one_matches (n i : ℕ) (hi : i < n) (f : ℕ → List K) (g : ℕ → K)
    (h : ∀ k, (f k)[i]? = some (g k)) (e : XExpr K) (r : XOne K) (hr : evalOne g e = .ok r) :
    (evalMany n f e)[i]? = some r.value := by
  rw [evalMany_at hi h]
  rcases evalOne_cases g e with ⟨b, h1⟩ | ⟨h1, -⟩
  · rw [h1] at hr; cases hr; rfl
  · rw [h1] at hr; cases hr

/-- **C133.** If one sample raises, it is `ZeroDivisionError`, and the expression has no value in ordinary
arithmetic. -/
theorem C133_one_error (g : ℕ → K) (e : XExpr K) (x : PyErr) (h : evalOne g e = .error x) :
    x = .zeroDivisionError ∧ ¬ ∃ v, Evaluates g e v := by
  rcases evalOne_cases g e with ⟨b, h1⟩ | ⟨h1, a, b, h2, h3⟩
  · rw [h1] at h; cases h
  · rw [h1] at h; cases h
    refine ⟨rfl, ?_⟩
    rintro ⟨v, hv⟩
    obtain ⟨w, hw⟩ := evaluates_inside h2 hv
    cases hw with
    | div _ h5 h6 =>
      have := evalAt_agrees h5
      rw [h3] at this
      exact h6 (Option.some.inj this).symm

/-- **C133 fails** with `dist_max`, `dist_min`, `lclip` or `rclip` in the divisor: they make a numpy number of the one
sample, so that dividing by it gives an infinity instead of `ZeroDivisionError`. -/
theorem C133_one_numpy_fails [IsStrictOrderedRing K] (g : ℕ → K) (h0 : g 0 = 0) :
    evalOne g (.bin .div (.num 1) (.src 0)) = .error .zeroDivisionError ∧
    evalOne g (.bin .div (.num 1) (.lclip (.src 0) 0)) = .ok ⟨.pinf, true⟩ ∧
    evalOne g (.bin .div (.num 1) (.rclip (.src 0) 0)) = .ok ⟨.pinf, true⟩ ∧
    evalOne g (.bin .div (.num 1) (.bin .max (.src 0) (.src 0))) = .ok ⟨.pinf, true⟩ ∧
    evalOne g (.bin .div (.num 1) (.bin .min (.src 0) (.src 0))) = .ok ⟨.pinf, true⟩ := by
  have h : ¬ (1 : K) < 0 := not_lt.2 zero_le_one
  simp [evalOne, bind, Except.bind, h0, XVal.val?, XVal.op, XVal.div, XVal.lclip, XVal.rclip, XVal.max,
    XVal.min, XVal.lt, XVal.inf, XVal.negative, h]

/-- **C133 fails** for the number of samples: what raises with one sample is an infinity with several. -/
theorem C133_one_many_fails [IsStrictOrderedRing K] (n i : ℕ) (hi : i < n) (f : ℕ → List K) (g : ℕ → K)
    (h : ∀ k, (f k)[i]? = some (g k)) (h0 : g 0 = 0) :
    evalOne g (.bin .div (.num 1) (.src 0)) = .error .zeroDivisionError ∧
    (evalMany n f (.bin .div (.num 1) (.src 0)))[i]? = some .pinf := by
  refine ⟨(C133_one_numpy_fails g h0).1, ?_⟩
  rw [evalMany_at hi h]
  have h : ¬ (1 : K) < 0 := not_lt.2 zero_le_one
  simp [evalAt, h0, XVal.op, XVal.div, XVal.val?, XVal.inf, XVal.negative, h]

/-! ### What is done with the samples -/

/-- **C133.** Bounds given to `sample` leave exactly the `nan` outside: with `l ≤ r`, every other sample is a number
between them. -/
theorem C133_bounds (l r : K) (hlr : l ≤ r) (xs : List (XVal K)) :
    List.Forall₂ (fun x y => (x = .nan ∧ y = .nan) ∨ (x ≠ .nan ∧ ∃ v, y.val? = some v ∧ l ≤ v ∧ v ≤ r))
      xs (boundMany (some l) (some r) xs) := by
  have key : ∀ x : XVal K, (x = .nan ∧ XVal.min (XVal.max x (.fin l)) (.fin r) = .nan) ∨
      (x ≠ .nan ∧ ∃ v, (XVal.min (XVal.max x (.fin l)) (.fin r)).val? = some v ∧ l ≤ v ∧ v ≤ r) := by
    intro x
    cases x with
    | nan => left; exact ⟨rfl, by simp [XVal.max, XVal.min]⟩
    | fin x =>
      refine .inr ⟨by simp, _, XVal.val_min (XVal.val_max (XVal.val_fin x) (XVal.val_fin l)) (XVal.val_fin r),
        le_min (le_max_right _ _) hlr, min_le_right _ _⟩
    | nzero =>
      refine .inr ⟨by simp, _, XVal.val_min (XVal.val_max (a := .nzero) rfl (XVal.val_fin l)) (XVal.val_fin r),
        le_min (le_max_right _ _) hlr, min_le_right _ _⟩
    | pinf =>
      refine .inr ⟨by simp, r, ?_, hlr, le_rfl⟩
      simp [XVal.max, XVal.min, XVal.le, XVal.lt, XVal.val?]
    | ninf =>
      refine .inr ⟨by simp, l, ?_, le_rfl, hlr⟩
      have : XVal.max .ninf (.fin l) = .fin l := by simp [XVal.max, XVal.le, XVal.lt, XVal.val?]
      rw [this, XVal.val_min (XVal.val_fin l) (XVal.val_fin r), min_eq_left hlr]
  induction xs with
  | nil => exact .nil
  | cons x xs ih => exact .cons (key x) ih

/-- **C133.** Chances read off the samples: the share above `c`, the share not above `c` and the share of `nan` add up
to 1 – so with a `nan` the first two do not. -/
theorem C133_shares [IsStrictOrderedRing K] (c : K) (xs : List (XVal K)) (h : xs ≠ []) :
    shareWhere (XVal.lt (.fin c)) xs + shareWhere (fun x => XVal.le x (.fin c)) xs +
      shareWhere (fun x => x = .nan) xs = 1 := by
  have hl : (xs.length : K) ≠ 0 := by
    simpa using h
  have hc : xs.countP (XVal.lt (.fin c)) + xs.countP (fun x => XVal.le x (.fin c)) +
      xs.countP (fun x => x = .nan) = xs.length := by
    clear hl h
    induction xs with
    | nil => simp
    | cons x xs ih =>
      simp only [List.countP_cons, List.length_cons]
      cases x with
      | nan => simp [XVal.lt, XVal.le] at ih ⊢; omega
      | fin x => by_cases hx : c < x <;> simp [XVal.lt, XVal.le, XVal.val?, hx] at ih ⊢ <;> omega
      | nzero => by_cases hx : c < 0 <;> simp [XVal.lt, XVal.le, XVal.val?, hx] at ih ⊢ <;> omega
      | pinf => simp [XVal.lt, XVal.le, XVal.val?] at ih ⊢; omega
      | ninf => simp [XVal.lt, XVal.le, XVal.val?] at ih ⊢; omega
  unfold shareWhere
  rw [← add_div, ← add_div, div_eq_one_iff_eq hl]
  exact_mod_cast hc

theorem foldl_add_nan (xs : List (XVal K)) : xs.foldl XVal.add .nan = .nan := by
  induction xs with
  | nil => rfl
  | cons x xs ih => simpa [XVal.add] using ih

/-- The sum from a number or an infinity onwards. -/
theorem foldl_add_spec (xs : List (XVal K)) : ∀ a : XVal K, a ≠ .nan →
    (xs.foldl XVal.add a = .nan ↔
      (.nan ∈ xs ∨ ((a = .pinf ∨ .pinf ∈ xs) ∧ (a = .ninf ∨ .ninf ∈ xs)))) ∧
    (xs.foldl XVal.add a = .pinf ↔ ((a = .pinf ∨ .pinf ∈ xs) ∧ a ≠ .ninf ∧ .ninf ∉ xs ∧ .nan ∉ xs)) ∧
    (xs.foldl XVal.add a = .ninf ↔ ((a = .ninf ∨ .ninf ∈ xs) ∧ a ≠ .pinf ∧ .pinf ∉ xs ∧ .nan ∉ xs)) := by
  induction xs with
  | nil => intro a ha; cases a <;> simp at ha ⊢
  | cons x xs ih =>
    intro a ha
    simp only [List.foldl_cons]
    by_cases hx : x = .nan
    · subst hx
      have : XVal.add a .nan = .nan := by simp [XVal.add]
      rw [this, foldl_add_nan]
      simp
    · by_cases hn : XVal.add a x = .nan
      · rw [hn, foldl_add_nan]
        cases a <;> cases x <;> simp [XVal.add, XVal.val?] at hn hx ha ⊢
      · obtain ⟨h1, h2, h3⟩ := ih _ hn
        rw [h1, h2, h3]
        cases a <;> cases x <;> simp [XVal.add, XVal.val?] at hn hx ha ⊢

theorem foldl_add_val (xs : List (XVal K)) (h : ∀ x ∈ xs, x.val? ≠ none) : ∀ (a : XVal K) (v : K), a.val? = some v →
    (xs.foldl XVal.add a).val? = some (v + (xs.filterMap XVal.val?).sum) := by
  induction xs with
  | nil => intro a v ha; simpa using ha
  | cons x xs ih =>
    intro a v ha
    obtain ⟨w, hw⟩ := Option.ne_none_iff_exists'.1 (h x (by simp))
    rw [List.foldl_cons, ih (fun y hy => h y (by simp [hy])) _ _ (XVal.val_add ha hw), List.filterMap_cons, hw]
    simp [add_assoc]

/-- **C133.** The mean of the samples: `nan` exactly if one of them is `nan` or both infinities occur; an infinity
exactly if that infinity occurs, and neither the other one nor `nan`; and the ordinary mean if all are numbers. -/
theorem C133_mean [IsStrictOrderedRing K] (xs : List (XVal K)) (hx : xs ≠ []) :
    (xMean xs = .nan ↔ .nan ∈ xs ∨ (.pinf ∈ xs ∧ .ninf ∈ xs)) ∧
    (xMean xs = .pinf ↔ .pinf ∈ xs ∧ .ninf ∉ xs ∧ .nan ∉ xs) ∧
    (xMean xs = .ninf ↔ .ninf ∈ xs ∧ .pinf ∉ xs ∧ .nan ∉ xs) ∧
    ((∀ x ∈ xs, x.val? ≠ none) →
      (xMean xs).val? = some ((xs.filterMap XVal.val?).sum / xs.length)) := by
  have hl : (0 : K) < xs.length := by
    have := List.length_pos_iff.2 hx
    exact_mod_cast this
  have hneg : ¬ (xs.length : K) < 0 := not_lt.2 hl.le
  obtain ⟨h1, h2, h3⟩ := foldl_add_spec xs (.fin 0) (by simp)
  simp only [reduceCtorEq, false_or, ne_eq, not_false_eq_true, true_and] at h1 h2 h3
  have hd : ∀ a : XVal K, (XVal.div a (.fin xs.length) = .nan ↔ a = .nan) ∧
      (XVal.div a (.fin xs.length) = .pinf ↔ a = .pinf) ∧
      (XVal.div a (.fin xs.length) = .ninf ↔ a = .ninf) := by
    intro a
    have hs : ∀ (b : Bool) (x : K), XVal.signed b x ≠ .nan ∧ XVal.signed b x ≠ .pinf ∧
        XVal.signed b x ≠ .ninf := by
      intro b x
      have := XVal.val_signed b x
      refine ⟨?_, ?_, ?_⟩ <;> intro h <;> rw [h] at this <;> cases this
    cases a with
    | nan => simp [XVal.div]
    | fin x =>
      have h : XVal.div (.fin x) (.fin (xs.length : K)) = XVal.signed (decide (x < 0)) (x / xs.length) := by
        simp only [XVal.div, XVal.val?, hl.ne', if_false, XVal.negative, hneg, decide_false, Bool.xor_false]
        simp
      rw [h]; simp [hs]
    | nzero =>
      have h : XVal.div .nzero (.fin (xs.length : K)) = XVal.signed true (0 / (xs.length : K)) := by
        simp only [XVal.div, XVal.val?, hl.ne', if_false, XVal.negative, hneg, decide_false, Bool.xor_false]
        simp
      rw [h]; simp [hs]
    | pinf => simp [XVal.div, XVal.val?, XVal.inf, XVal.negative, hneg]
    | ninf => simp [XVal.div, XVal.val?, XVal.inf, XVal.negative, hneg]
  refine ⟨(hd _).1.trans h1, (hd _).2.1.trans h2, (hd _).2.2.trans h3, fun hf => ?_⟩
  have := foldl_add_val xs hf (.fin 0) 0 rfl
  rw [xMean, XVal.val_div this (XVal.val_fin _) hl.ne', zero_add]

end

/-! ### The hypotheses are met -/

/-- Three samples of `1 / d` and of `d / d`, where `d` is 2, 0, -4: an infinity, a `nan`. -/
example : evalMany 3 (fun _ => [2, 0, -4]) (.bin .div (.num (1 : ℚ)) (.src 0)) = [.fin (1 / 2), .pinf, .fin (-1 / 4)] ∧
    evalMany 3 (fun _ => [2, 0, -4]) (.bin .div (.src 0) (.src 1) : XExpr ℚ) = [.fin 1, .nan, .fin 1] := by
  decide +kernel

/-- The expression with a value: `max(1 / d, 3)` at 2. -/
example : Evaluates (fun _ => (2 : ℚ)) (.bin .max (.bin .div (.num 1) (.src 0)) (.num 3)) (max (1 / 2) 3) :=
  .max (.div (.num 1) (.src 0) (by norm_num)) (.num 3)

/-- A `nan` inside, and the whole. -/
example : XInside (.bin .div (.src 0) (.src 1)) (.lclip (.bin .max (.num (0 : ℚ)) (.bin .div (.src 0) (.src 1))) 7) ∧
    evalMany 2 (fun _ => [0, 1]) (.lclip (.bin .max (.num (0 : ℚ)) (.bin .div (.src 0) (.src 1))) 7) = [.nan, .fin 7] :=
  ⟨.lclip _ (.right _ _ (.refl _)), by decide +kernel⟩

/-- `+ - * /` on one sample. -/
example : Plain4 (.bin .div (.num (1 : ℚ)) (.bin .sub (.src 0) (.src 1))) ∧
    evalOne (fun k => if k = 0 then (5 : ℚ) else 3) (.bin .div (.num 1) (.bin .sub (.src 0) (.src 1)))
      = .ok ⟨.fin (1 / 2), false⟩ ∧
    evalOne (fun _ => (3 : ℚ)) (.bin .div (.num 1) (.bin .sub (.src 0) (.src 1))) = .error .zeroDivisionError := by
  refine ⟨by simp [Plain4], ?_, ?_⟩
  · simp [evalOne, bind, Except.bind, XVal.val?, XVal.op, XVal.sub, XVal.neg, XVal.add, XVal.signed, XVal.div,
      XVal.negative]
    norm_num
  · simp [evalOne, bind, Except.bind, XVal.val?, XVal.op, XVal.sub, XVal.neg, XVal.add, XVal.signed]

/-- Means and bounds. -/
example : xMean [.fin (1 : ℚ), .pinf, .fin 3] = .pinf ∧ xMean [.fin (1 : ℚ), .pinf, .ninf] = .nan ∧
    xMean [.fin (1 : ℚ), .nzero, .fin 5] = .fin 2 ∧
    boundMany (some 0) (some 10) [.fin (-3 : ℚ), .pinf, .nan, .ninf, .fin 4] = [.fin 0, .fin 10, .nan, .fin 0, .fin 4] ∧
    shareWhere (XVal.lt (.fin 2)) [.fin (1 : ℚ), .nan, .pinf, .fin 7] = 1 / 2 := by
  decide +kernel

end Verif
