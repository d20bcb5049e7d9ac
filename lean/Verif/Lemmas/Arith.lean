import Verif.Lemmas.Shape
import Mathlib.Algebra.Order.Floor.Ring
import Mathlib.Tactic.Ring
import Mathlib.Algebra.Order.Ring.Cast
import Mathlib.Tactic.Linarith

/-! # Values of elementwise arithmetic -/

namespace Verif

variable {K : Type} [Field K] [LinearOrder K]

theorem val?_of_num? {v : Scalar K} {x : Num K} (h : v.num? = some x) : v.val? = some x.val := by
  simp [Scalar.val?, h]

theorem num?_of_val? {v : Scalar K} {x : K} (h : v.val? = some x) :
    ∃ n, v.num? = some n ∧ n.val = x := by
  unfold Scalar.val? at h
  cases hn : v.num? with
  | none => rw [hn] at h; cases h
  | some n => rw [hn] at h; exact ⟨n, rfl, by simpa using h⟩

theorem Scalar.lt_ok {a b : Scalar K} {c : Bool} :
    a.lt b = .ok c ↔ ∃ x y, a.val? = some x ∧ b.val? = some y ∧ c = decide (x < y) := by
  unfold Scalar.lt
  constructor
  · intro h
    split at h
    · rename_i x y hx hy
      cases h
      exact ⟨_, _, val?_of_num? hx, val?_of_num? hy, rfl⟩
    · cases h
  · rintro ⟨x, y, hx, hy, rfl⟩
    obtain ⟨n, hn, rfl⟩ := num?_of_val? hx
    obtain ⟨m, hm, rfl⟩ := num?_of_val? hy
    rw [hn, hm]

variable [FloorRing K] [IsStrictOrderedRing K]

theorem pyMax_ok {a b c : Scalar K} (h : pyMax a b = .ok c) :
    ∃ x y, a.val? = some x ∧ b.val? = some y ∧ c.val? = some (max x y) := by
  simp only [pyMax, Except.bind_ok_iff] at h
  obtain ⟨t, h1, h2⟩ := h
  obtain ⟨x, y, hx, hy, rfl⟩ := Scalar.lt_ok.1 h1
  refine ⟨x, y, hx, hy, ?_⟩
  cases h2
  by_cases hlt : x < y
  · simp [hlt, hy, max_eq_right hlt.le]
  · simp [hlt, hx, max_eq_left (not_lt.1 hlt)]

theorem pyMin_ok {a b c : Scalar K} (h : pyMin a b = .ok c) :
    ∃ x y, a.val? = some x ∧ b.val? = some y ∧ c.val? = some (min x y) := by
  simp only [pyMin, Except.bind_ok_iff] at h
  obtain ⟨t, h1, h2⟩ := h
  obtain ⟨y, x, hy, hx, rfl⟩ := Scalar.lt_ok.1 h1
  refine ⟨x, y, hx, hy, ?_⟩
  cases h2
  by_cases hlt : y < x
  · simp [hlt, hy, min_eq_right hlt.le]
  · simp [hlt, hx, min_eq_left (not_lt.1 hlt)]

theorem pyBin_max {powf : K → K → Option K} {a b c : Scalar K} (h : pyBin powf .max a b = .ok c) :
    ∃ x y, a.val? = some x ∧ b.val? = some y ∧ c.val? = some (max x y) := by
  unfold pyBin at h
  split at h
  · rename_i x y hx hy
    refine ⟨_, _, val?_of_num? hx, val?_of_num? hy, ?_⟩
    cases h
    cases x <;> cases y <;> simp [Scalar.val?, Scalar.num?, Num.val]
  · split_ifs at h

theorem pyBin_min {powf : K → K → Option K} {a b c : Scalar K} (h : pyBin powf .min a b = .ok c) :
    ∃ x y, a.val? = some x ∧ b.val? = some y ∧ c.val? = some (min x y) := by
  unfold pyBin at h
  split at h
  · rename_i x y hx hy
    refine ⟨_, _, val?_of_num? hx, val?_of_num? hy, ?_⟩
    cases h
    cases x <;> cases y <;> simp [Scalar.val?, Scalar.num?, Num.val]
  · split_ifs at h

/-- Apart from two booleans, numpy's elementwise maximum is Python's. -/
theorem npBin_max {powf : K → K → Option K} {a b c : Scalar K} (h : npBin powf .max a b = .ok c) :
    ∃ x y, a.val? = some x ∧ b.val? = some y ∧ c.val? = some (max x y) := by
  unfold npBin at h
  split at h
  · rename_i p q
    cases h
    cases p <;> cases q <;> simp [Scalar.val?, Scalar.num?, Num.val]
  · split at h
    · exact pyBin_max h
    · exact pyBin_max h

theorem npBin_min {powf : K → K → Option K} {a b c : Scalar K} (h : npBin powf .min a b = .ok c) :
    ∃ x y, a.val? = some x ∧ b.val? = some y ∧ c.val? = some (min x y) := by
  unfold npBin at h
  split at h
  · rename_i p q
    cases h
    cases p <;> cases q <;> simp [Scalar.val?, Scalar.num?, Num.val]
  · split at h
    · exact pyBin_min h
    · exact pyBin_min h

theorem applyL_values {powf : K → K → Option K} {l : Scalar K} {x z : Samples K}
    (h : applyL powf (some l) x = .ok z) :
    List.Forall₂ (fun v0 v => ∃ x y, v0.val? = some x ∧ l.val? = some y ∧
      v.val? = some (max x y)) x.toList z.toList := by
  have key : ∀ (v : Scalar K) (c : Bool), v.lt l = .ok c →
      ∃ x y, v.val? = some x ∧ l.val? = some y ∧
        (if c then l else v).val? = some (max x y) := by
    intro v c hc
    obtain ⟨x, y, hx, hy, rfl⟩ := Scalar.lt_ok.1 hc
    refine ⟨x, y, hx, hy, ?_⟩
    by_cases hlt : x < y
    · simp [hlt, hy, max_eq_right hlt.le]
    · simp [hlt, hx, max_eq_left (not_lt.1 hlt)]
  simp only [applyL] at h
  split_ifs at h with hs
  · match x with
    | .scalar v =>
      exfalso
      cases v <;> simp [Samples.safeLen] at hs
    | .arr vs =>
      obtain ⟨rs, rfl, h2⟩ := binSamples_arr_scalar h
      rw [mapExcept_ok] at h2
      exact h2.imp fun a b hab => npBin_max hab
  · match x with
    | .scalar v =>
      simp only [Except.bind_ok_iff] at h
      obtain ⟨c, h1, h⟩ := h
      cases h
      exact .cons (key v c h1) .nil
    | .arr [] => cases h
    | .arr [v] =>
      simp only [Except.bind_ok_iff] at h
      obtain ⟨c, h1, h⟩ := h
      have := key v c h1
      cases c
      · cases h; exact .cons this .nil
      · cases h; exact .cons this .nil
    | .arr (a :: b :: c) => cases h

theorem applyR_values {powf : K → K → Option K} {l : Scalar K} {x z : Samples K}
    (h : applyR powf (some l) x = .ok z) :
    List.Forall₂ (fun v0 v => ∃ x y, v0.val? = some x ∧ l.val? = some y ∧
      v.val? = some (min x y)) x.toList z.toList := by
  have key : ∀ (v : Scalar K) (c : Bool), l.lt v = .ok c →
      ∃ x y, v.val? = some x ∧ l.val? = some y ∧
        (if c then l else v).val? = some (min x y) := by
    intro v c hc
    obtain ⟨y, x, hy, hx, rfl⟩ := Scalar.lt_ok.1 hc
    refine ⟨x, y, hx, hy, ?_⟩
    by_cases hlt : y < x
    · simp [hlt, hy, min_eq_right hlt.le]
    · simp [hlt, hx, min_eq_left (not_lt.1 hlt)]
  simp only [applyR] at h
  split_ifs at h with hs
  · match x with
    | .scalar v =>
      exfalso
      cases v <;> simp [Samples.safeLen] at hs
    | .arr vs =>
      obtain ⟨rs, rfl, h2⟩ := binSamples_arr_scalar h
      rw [mapExcept_ok] at h2
      exact h2.imp fun a b hab => npBin_min hab
  · match x with
    | .scalar v =>
      simp only [Except.bind_ok_iff] at h
      obtain ⟨c, h1, h⟩ := h
      cases h
      exact .cons (key v c h1) .nil
    | .arr [] => cases h
    | .arr [v] =>
      simp only [Except.bind_ok_iff] at h
      obtain ⟨c, h1, h⟩ := h
      have := key v c h1
      cases c
      · cases h; exact .cons this .nil
      · cases h; exact .cons this .nil
    | .arr (a :: b :: c) => cases h

end Verif
