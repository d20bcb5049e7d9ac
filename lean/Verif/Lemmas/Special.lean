import Verif.Model.Special
import Mathlib.Algebra.Order.Field.Basic
import Mathlib.Tactic.SplitIfs
import Mathlib.Tactic.Tauto
import Mathlib.Data.List.Basic

/-! Helper lemmas for C133. -/

namespace Verif

open Spec

variable {K : Type} [Field K] [LinearOrder K]

namespace XVal

theorem ne_nan_of_val {a : XVal K} {x : K} (h : a.val? = some x) : a ≠ .nan := by
  rintro rfl; simp [val?] at h

omit [LinearOrder K] in
@[simp] theorem val_fin (x : K) : (fin x).val? = some x := rfl

theorem val_zero (s : Bool) : (zero s : XVal K).val? = some 0 := by
  cases s <;> simp [zero, val?]

theorem val_signed (s : Bool) (x : K) : (signed s x).val? = some x := by
  unfold signed; split_ifs with h
  · rw [h, val_zero]
  · rfl

theorem val_neg {a : XVal K} {x : K} (h : a.val? = some x) : a.neg.val? = some (-x) := by
  cases a <;> simp_all [val?, neg, val_signed]
  · subst h; simpa [val?] using val_signed true (-_)
  · simp [← h]

theorem val_add {a b : XVal K} {x y : K} (ha : a.val? = some x) (hb : b.val? = some y) :
    (add a b).val? = some (x + y) := by
  have h1 := ne_nan_of_val ha
  have h2 := ne_nan_of_val hb
  simp only [add, h1, h2, or_self, if_false, ha, hb]
  split_ifs with h
  · obtain ⟨rfl, rfl⟩ := h
    simp only [val?, Option.some.injEq] at ha hb ⊢
    simp [← ha, ← hb]
  · rfl

theorem val_sub {a b : XVal K} {x y : K} (ha : a.val? = some x) (hb : b.val? = some y) :
    (sub a b).val? = some (x - y) := by
  rw [sub, val_add ha (val_neg hb), sub_eq_add_neg]

theorem val_mul {a b : XVal K} {x y : K} (ha : a.val? = some x) (hb : b.val? = some y) :
    (mul a b).val? = some (x * y) := by
  have h1 := ne_nan_of_val ha
  have h2 := ne_nan_of_val hb
  simp only [mul, h1, h2, or_self, if_false, ha, hb, val_signed]

theorem val_div {a b : XVal K} {x y : K} (ha : a.val? = some x) (hb : b.val? = some y) (hy : y ≠ 0) :
    (div a b).val? = some (x / y) := by
  have h1 := ne_nan_of_val ha
  have h2 := ne_nan_of_val hb
  simp only [div, h1, h2, or_self, if_false, ha, hb, hy, val_signed]

theorem lt_val {a b : XVal K} {x y : K} (ha : a.val? = some x) (hb : b.val? = some y) :
    lt a b = decide (x < y) := by
  have h1 := ne_nan_of_val ha
  have h2 := ne_nan_of_val hb
  simp only [lt, h1, h2, or_self, if_false, ha, hb]

theorem le_val {a b : XVal K} {x y : K} (ha : a.val? = some x) (hb : b.val? = some y) :
    le a b = decide (x ≤ y) := by
  have h1 := ne_nan_of_val ha
  have h2 := ne_nan_of_val hb
  simp only [le, h1, h2, or_self, if_false, lt_val hb ha]
  rw [← decide_not]; simp [not_lt]

theorem val_max {a b : XVal K} {x y : K} (ha : a.val? = some x) (hb : b.val? = some y) :
    (max a b).val? = some (Max.max x y) := by
  simp only [max, le_val hb ha, ne_nan_of_val ha, or_false, decide_eq_true_eq]
  split_ifs with h
  · rw [ha, max_eq_left h]
  · rw [hb, max_eq_right (le_of_not_ge h)]

theorem val_min {a b : XVal K} {x y : K} (ha : a.val? = some x) (hb : b.val? = some y) :
    (min a b).val? = some (Min.min x y) := by
  simp only [min, le_val ha hb, ne_nan_of_val ha, or_false, decide_eq_true_eq]
  split_ifs with h
  · rw [ha, min_eq_left h]
  · rw [hb, min_eq_right (le_of_not_ge h)]

theorem val_lclip {a : XVal K} {x : K} (ha : a.val? = some x) (c : K) :
    (lclip a c).val? = some (Max.max x c) := by
  simp only [lclip, lt_val ha (val_fin c), decide_eq_true_eq]
  split_ifs with h
  · rw [max_eq_right h.le]; rfl
  · rw [ha, max_eq_left (le_of_not_gt h)]

theorem val_rclip {a : XVal K} {x : K} (ha : a.val? = some x) (c : K) :
    (rclip a c).val? = some (Min.min x c) := by
  simp only [rclip, lt_val (val_fin c) ha, decide_eq_true_eq]
  split_ifs with h
  · rw [min_eq_right h.le]; rfl
  · rw [ha, min_eq_left (le_of_not_gt h)]

theorem op_nan_left (o : XOp) (b : XVal K) : op o .nan b = .nan := by
  cases o <;> simp [op, add, sub, mul, div, max, min]

theorem op_nan_right (o : XOp) (a : XVal K) : op o a .nan = .nan := by
  cases o
  · simp [op, add]
  · simp [op, sub, neg, add]
  · simp [op, mul]
  · simp [op, div]
  · simp only [op, max, le]; simp
  · simp only [op, min, le]; simp

end XVal

/-- The value at one position. -/
def evalAt (g : ℕ → K) : XExpr K → XVal K
  | .src k => .fin (g k)
  | .num x => .fin x
  | .neg e => (evalAt g e).neg
  | .bin o a b => XVal.op o (evalAt g a) (evalAt g b)
  | .lclip e c => (evalAt g e).lclip c
  | .rclip e c => (evalAt g e).rclip c

theorem evalMany_at {n i : ℕ} (hi : i < n) {f : ℕ → List K} {g : ℕ → K} (h : ∀ k, (f k)[i]? = some (g k))
    (e : XExpr K) : (evalMany n f e)[i]? = some (evalAt g e) := by
  induction e with
  | src k => simp [evalMany, evalAt, h]
  | num x => simp [evalMany, evalAt, hi]
  | neg e ih => simp [evalMany, evalAt, ih]
  | bin o a b iha ihb => simp [evalMany, evalAt, List.getElem?_zipWith, iha, ihb]
  | lclip e c ih => simp [evalMany, evalAt, ih]
  | rclip e c ih => simp [evalMany, evalAt, ih]

theorem evalMany_length {n : ℕ} {f : ℕ → List K} (h : ∀ k, (f k).length = n) (e : XExpr K) :
    (evalMany n f e).length = n := by
  induction e with
  | src k => simp [evalMany, h]
  | num x => simp [evalMany]
  | neg e ih => simp [evalMany, ih]
  | bin o a b iha ihb => simp [evalMany, iha, ihb]
  | lclip e c ih => simp [evalMany, ih]
  | rclip e c ih => simp [evalMany, ih]

theorem evalAt_agrees {g : ℕ → K} {e : XExpr K} {v : K} (h : Evaluates g e v) :
    (evalAt g e).val? = some v := by
  induction h with
  | src k => rfl
  | num x => rfl
  | neg _ ih => exact XVal.val_neg ih
  | add _ _ ih1 ih2 => exact XVal.val_add ih1 ih2
  | sub _ _ ih1 ih2 => exact XVal.val_sub ih1 ih2
  | mul _ _ ih1 ih2 => exact XVal.val_mul ih1 ih2
  | div _ _ h ih1 ih2 => exact XVal.val_div ih1 ih2 h
  | max _ _ ih1 ih2 => exact XVal.val_max ih1 ih2
  | min _ _ ih1 ih2 => exact XVal.val_min ih1 ih2
  | lclip _ ih => exact XVal.val_lclip ih _
  | rclip _ ih => exact XVal.val_rclip ih _

theorem evaluates_unique {g : ℕ → K} {e : XExpr K} {v w : K} (h : Evaluates g e v) (h' : Evaluates g e w) :
    v = w := by
  have := evalAt_agrees h
  rw [evalAt_agrees h'] at this
  exact (Option.some.inj this).symm

/-- No part of it is divided by zero. -/
theorem evaluates_of_no_zero {g : ℕ → K} {e : XExpr K}
    (h : ∀ a b, XInside (.bin .div a b) e → ¬ Evaluates g b 0) : ∃ v, Evaluates g e v := by
  induction e with
  | src k => exact ⟨_, .src k⟩
  | num x => exact ⟨_, .num x⟩
  | neg e ih => obtain ⟨v, hv⟩ := ih fun a b hab => h a b (.neg hab); exact ⟨_, .neg hv⟩
  | lclip e c ih => obtain ⟨v, hv⟩ := ih fun a b hab => h a b (.lclip c hab); exact ⟨_, .lclip hv⟩
  | rclip e c ih => obtain ⟨v, hv⟩ := ih fun a b hab => h a b (.rclip c hab); exact ⟨_, .rclip hv⟩
  | bin o a b iha ihb =>
    obtain ⟨v, hv⟩ := iha fun c d hcd => h c d (.left o b hcd)
    obtain ⟨w, hw⟩ := ihb fun c d hcd => h c d (.right o a hcd)
    cases o with
    | add => exact ⟨_, .add hv hw⟩
    | sub => exact ⟨_, .sub hv hw⟩
    | mul => exact ⟨_, .mul hv hw⟩
    | max => exact ⟨_, .max hv hw⟩
    | min => exact ⟨_, .min hv hw⟩
    | div =>
      refine ⟨_, .div hv hw ?_⟩
      rintro rfl
      exact h a b (.refl _) hw

theorem evaluates_inside {g : ℕ → K} {c e : XExpr K} (h : XInside c e) :
    ∀ {v}, Evaluates g e v → ∃ w, Evaluates g c w := by
  induction h with
  | refl => exact fun hv => ⟨_, hv⟩
  | neg _ ih => intro v hv; cases hv with | neg h1 => exact ih h1
  | lclip _ _ ih => intro v hv; cases hv with | lclip h1 => exact ih h1
  | rclip _ _ ih => intro v hv; cases hv with | rclip h1 => exact ih h1
  | left _ _ _ ih => intro v hv; cases hv <;> exact ih (by assumption)
  | right _ _ _ ih => intro v hv; cases hv <;> exact ih (by assumption)

theorem evalAt_nan {g : ℕ → K} {c e : XExpr K} (h : XInside c e) (hc : evalAt g c = .nan) :
    evalAt g e = .nan := by
  induction h with
  | refl => exact hc
  | neg _ ih => simp [evalAt, ih, XVal.neg]
  | lclip _ _ ih => simp [evalAt, ih, XVal.lclip, XVal.lt]
  | rclip _ _ ih => simp [evalAt, ih, XVal.rclip, XVal.lt]
  | left _ _ _ ih => simp [evalAt, ih, XVal.op_nan_left]
  | right _ _ _ ih => simp [evalAt, ih, XVal.op_nan_right]

end Verif
