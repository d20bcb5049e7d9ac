import Verif.Model.DoubleSample
import Verif.Spec.Magnitude
import Verif.Props.DoubleWeights
import Verif.Props.RoundedSample

/-!
# C173: models of positive quantities in floats of bounded size
-/

namespace Verif

open Spec

variable {σ K : Type} [Field K] [LinearOrder K] [IsStrictOrderedRing K] [FloorRing K] {f : FloatFormat} {fl fl' : K → K}

omit [FloorRing K] in
theorem Spec.Within.pos {m : ℕ} {x : K} (h : Within m x) : 0 < x := lt_of_lt_of_le (by positivity) h.1

omit [FloorRing K] in
theorem Spec.Within.mono {m n : ℕ} (hmn : m ≤ n) {x : K} (h : Within m x) : Within n x :=
  ⟨(zpow_le_zpow_right₀ one_le_two (by omega)).trans h.1, h.2.trans (zpow_le_zpow_right₀ one_le_two (by omega))⟩

omit [FloorRing K] in
theorem Spec.Within.add {m : ℕ} {x y : K} (hx : Within m x) (hy : Within m y) : Within (m + 1) (x + y) := by
  have h2 : (2 : K) ^ ((m + 1 : ℕ) : ℤ) = 2 ^ (m : ℤ) + 2 ^ (m : ℤ) := by
    push_cast
    rw [zpow_add₀ two_ne_zero]
    norm_num
    ring
  refine ⟨(hx.mono (Nat.le_succ m)).1.trans (by linarith [hy.pos]), ?_⟩
  rw [h2]
  exact add_le_add hx.2 hy.2

omit [FloorRing K] in
theorem Spec.Within.mul {m n : ℕ} {x y : K} (hx : Within m x) (hy : Within n y) : Within (m + n) (x * y) := by
  constructor
  · rw [show -((m + n : ℕ) : ℤ) = -(m : ℤ) + -(n : ℤ) by push_cast; ring, zpow_add₀ two_ne_zero]
    exact mul_le_mul hx.1 hy.1 (by positivity) hx.pos.le
  · rw [Nat.cast_add, zpow_add₀ two_ne_zero]
    exact mul_le_mul hx.2 hy.2 hy.pos.le (by positivity)

omit [FloorRing K] in
theorem Spec.Within.inv {n : ℕ} {y : K} (hy : Within n y) : Within n y⁻¹ := by
  constructor
  · rw [zpow_neg]
    exact inv_anti₀ hy.pos hy.2
  · have := inv_anti₀ (by positivity) hy.1
    rwa [zpow_neg, inv_inv] at this

omit [FloorRing K] in
theorem Spec.Within.div {m n : ℕ} {x y : K} (hx : Within m x) (hy : Within n y) : Within (m + n) (x / y) := by
  rw [div_eq_mul_inv]
  exact hx.mul hy.inv

omit [FloorRing K] in
theorem Spec.Within.max {m n : ℕ} {x y : K} (hx : Within m x) (hy : Within n y) : Within (Nat.max m n) (max x y) := by
  rcases max_choice x y with h | h <;> rw [h]
  · exact hx.mono (Nat.le_max_left _ _)
  · exact hy.mono (Nat.le_max_right _ _)

omit [FloorRing K] in
theorem Spec.Within.min {m n : ℕ} {x y : K} (hx : Within m x) (hy : Within n y) : Within (Nat.max m n) (min x y) := by
  rcases min_choice x y with h | h <;> rw [h]
  · exact hx.mono (Nat.le_max_left _ _)
  · exact hy.mono (Nat.le_max_right _ _)

omit [FloorRing K] in
theorem isFloat_two_zpow (p : ℕ) (k : ℤ) : IsFloat p ((2 : K) ^ k) := by
  have := isFloat_mul_zpow (isFloat_one (K := K) p) k
  rwa [one_mul] at this

theorem Spec.Within.round {m : ℕ} {x : K} (h' : RoundsTo f.p fl') (hx : Within m x) : Within m (fl' x) :=
  ⟨h'.le_of_ge (isFloat_two_zpow _ _) hx.1, h'.le_of_le (isFloat_two_zpow _ _) hx.2⟩

/-- The format has the powers of two up to `2^m` and down to `2^-m` with all digits. -/
def FloatFormat.Covers (f : FloatFormat) (m : ℕ) : Prop := (m : ℤ) < f.top ∧ (m : ℤ) + f.low + f.p ≤ 1

theorem toDouble_within (h : RoundsDouble f fl) (h' : RoundsTo f.p fl') (he : ∀ x, Unharmed f x → fl x = fl' x)
    {m : ℕ} (hm : f.Covers m) {x : K} (hx : Within m x) :
    fl x = fl' x ∧ (XVal.fin x).toDouble f fl = .fin (fl' x) := by
  have e : fl x = fl' x := he x (Or.inr (by
    rw [abs_of_pos hx.pos]
    exact le_trans (zpow_le_zpow_right₀ one_le_two (by have := hm.2; omega)) hx.1))
  refine ⟨e, ?_⟩
  rw [toDouble_fin h hx.pos.le, e, if_pos]
  exact lt_of_le_of_lt (Within.round h' hx).2 (zpow_lt_zpow_right₀ one_lt_two hm.1)

omit [FloorRing K] in
theorem decide_neg_false {x : K} (hx : 0 < x) : decide (x < 0) = false := by simpa using hx.le

/-- One operation, on numbers within the range. -/
theorem opDouble_within (h : RoundsDouble f fl) (h' : RoundsTo f.p fl') (he : ∀ x, Unharmed f x → fl x = fl' x)
    {o : XOp} {m n M : ℕ} (hM : f.Covers M) {x y v : K} (hx : Within m x) (hy : Within n y)
    (ho : o = .add ∧ M = Nat.max m n + 1 ∨ o = .mul ∧ M = m + n ∨ o = .div ∧ M = m + n ∨
      o = .max ∧ M = Nat.max m n ∨ o = .min ∧ M = Nat.max m n)
    (hv : opFl fl' o x y = .ok v) : opDouble f fl o (.fin x) (.fin y) = .fin v ∧ Within M v := by
  have nx := decide_neg_false hx.pos
  have ny := decide_neg_false hy.pos
  rcases ho with ⟨rfl, rfl⟩ | ⟨rfl, rfl⟩ | ⟨rfl, rfl⟩ | ⟨rfl, rfl⟩ | ⟨rfl, rfl⟩
  · cases hv
    have w := (hx.mono (Nat.le_max_left m n)).add (hy.mono (Nat.le_max_right m n))
    refine ⟨?_, Within.round h' w⟩
    have : (XVal.fin x).add (.fin y) = .fin (x + y) := by simp [XVal.add, XVal.val?]
    simp only [opDouble, XVal.op, this]
    exact (toDouble_within h h' he hM w).2
  · cases hv
    have w := hx.mul hy
    refine ⟨?_, Within.round h' w⟩
    have : (XVal.fin x).mul (.fin y) = .fin (x * y) := by
      simp [XVal.mul, XVal.val?, XVal.signed, hx.pos.ne', hy.pos.ne']
    simp only [opDouble, XVal.op, this]
    exact (toDouble_within h h' he hM w).2
  · have w := hx.div hy
    simp only [opFl, if_neg hy.pos.ne'] at hv
    cases hv
    refine ⟨?_, Within.round h' w⟩
    have : (XVal.fin x).div (.fin y) = .fin (x / y) := by
      simp [XVal.div, XVal.val?, XVal.signed, hx.pos.ne', hy.pos.ne']
    simp only [opDouble, XVal.op, this]
    exact (toDouble_within h h' he hM w).2
  · cases hv
    refine ⟨?_, hx.max hy⟩
    by_cases hxy : x < y
    · simp [opDouble, XVal.max, XVal.le, XVal.lt, XVal.val?, hxy, max_eq_right hxy.le]
    · simp [opDouble, XVal.max, XVal.le, XVal.lt, XVal.val?, hxy, max_eq_left (not_lt.1 hxy)]
  · cases hv
    refine ⟨?_, hx.min hy⟩
    by_cases hxy : y < x
    · simp [opDouble, XVal.min, XVal.le, XVal.lt, XVal.val?, hxy, min_eq_right hxy.le]
    · simp [opDouble, XVal.min, XVal.le, XVal.lt, XVal.val?, hxy, min_eq_left (not_lt.1 hxy)]

theorem zip_within (h : RoundsDouble f fl) (h' : RoundsTo f.p fl') (he : ∀ x, Unharmed f x → fl x = fl' x)
    {o : XOp} {m n M : ℕ} (hM : f.Covers M)
    (ho : o = .add ∧ M = Nat.max m n + 1 ∨ o = .mul ∧ M = m + n ∨ o = .div ∧ M = m + n ∨
      o = .max ∧ M = Nat.max m n ∨ o = .min ∧ M = Nat.max m n) {rs qs vs : List K}
    (hr : ∀ r ∈ rs, Within m r) (hq : ∀ q ∈ qs, Within n q)
    (hv : mapExcept (fun q => opFl fl' o q.1 q.2) (rs.zip qs) = .ok vs) :
    List.zipWith (opDouble f fl o) (rs.map .fin) (qs.map .fin) = vs.map .fin ∧ ∀ v ∈ vs, Within M v := by
  induction rs generalizing qs vs with
  | nil =>
    simp only [List.zip_nil_left, mapExcept] at hv
    cases hv
    simp
  | cons r rs ih =>
    cases qs with
    | nil =>
      simp only [List.zip_nil_right, mapExcept] at hv
      cases hv
      simp
    | cons q qs =>
      rw [List.zip_cons_cons] at hv
      have hf := mapExcept_ok.1 hv
      cases hf with
      | @cons _ v _ vs h1 h2 =>
        obtain ⟨a1, a2⟩ := opDouble_within h h' he hM (hr r (by simp)) (hq q (by simp)) ho h1
        obtain ⟨b1, b2⟩ := ih (fun x hx => hr x (by simp [hx])) (fun x hx => hq x (by simp [hx])) (mapExcept_ok.2 h2)
        refine ⟨by simp [a1, b1], ?_⟩
        intro w hw
        rcases List.mem_cons.1 hw with rfl | hw
        · exact a2
        · exact b2 w hw

omit [IsStrictOrderedRing K] [FloorRing K] in
theorem Covers.mono {m n : ℕ} (hmn : m ≤ n) (h : f.Covers n) : f.Covers m := by
  obtain ⟨h1, h2⟩ := h
  exact ⟨by omega, by omega⟩

theorem sampleDouble_within (h : RoundsDouble f fl) (h' : RoundsTo f.p fl') (he : ∀ x, Unharmed f x → fl x = fl' x)
    (E : Env σ K) (ds : ℕ → Obj (St σ K) K) (n : ℕ) {B : ℕ → ℕ}
    (hB : ∀ k s s' z, sampleObj E (ds k) n none none s = (.ok z, s') →
      ∀ v ∈ z.toList, ∃ x, v = .flt x ∧ Within (B k) x)
    {e : XExpr K} {M : ℕ} (hs : Sized B e M) (hM : f.Covers M) {s s' : St σ K} {rs : List K}
    (hr : sampleFl fl' E ds n e s = (.ok rs, s')) :
    sampleDouble f fl E ds n e s = (.ok (rs.map .fin), s') ∧ ∀ r ∈ rs, Within M r := by
  induction hs generalizing s s' rs with
  | src k =>
    simp only [sampleFl, SM.bind_ok, SM.lift_ok, Except.bind_ok_iff] at hr
    obtain ⟨z, s1, h1, ⟨ys, h2, h3⟩, rfl⟩ := hr
    cases h3
    have hz := floats_ok h2
    have hw : ∀ y ∈ ys, Within (B k) y := by
      intro y hy
      obtain ⟨x, e1, e2⟩ := hB k s s1 z h1 (.flt y) (by rw [hz]; exact List.mem_map_of_mem hy)
      cases e1
      exact e2
    refine ⟨?_, ?_⟩
    · simp only [sampleDouble, SM.bind_ok, SM.lift_ok, Except.bind_ok_iff]
      refine ⟨z, s1, h1, ⟨ys, h2, ?_⟩, rfl⟩
      congr 1
      rw [List.map_map]
      exact List.map_congr_left fun y hy => (toDouble_within h h' he hM (hw y hy)).2
    · intro r hr
      obtain ⟨y, hy, rfl⟩ := List.mem_map.1 hr
      exact Within.round h' (hw y hy)
  | @num x m hx =>
    obtain ⟨rfl, rfl⟩ := SM.pure_ok.1 hr
    refine ⟨?_, ?_⟩
    · simp only [sampleDouble, (toDouble_within h h' he hM hx).2, List.map_replicate]
      rfl
    · intro r hr
      rw [List.eq_of_mem_replicate hr]
      exact Within.round h' hx
  | @add a b m k ha hb iha ihb =>
    simp only [sampleFl, SM.bind_ok, SM.lift_ok] at hr
    obtain ⟨r1, s1, k1, r2, s2, k2, k3, rfl⟩ := hr
    obtain ⟨d1, w1⟩ := iha (Covers.mono ((Nat.le_max_left m k).trans (Nat.le_succ _)) hM) k1
    obtain ⟨d2, w2⟩ := ihb (Covers.mono ((Nat.le_max_right m k).trans (Nat.le_succ _)) hM) k2
    obtain ⟨c1, c2⟩ := zip_within h h' he hM (by simp) w1 w2 k3
    refine ⟨?_, c2⟩
    simp only [sampleDouble, SM.bind_ok]
    exact ⟨_, s1, d1, _, _, d2, by rw [c1]; rfl⟩
  | @mul a b m k ha hb iha ihb =>
    simp only [sampleFl, SM.bind_ok, SM.lift_ok] at hr
    obtain ⟨r1, s1, k1, r2, s2, k2, k3, rfl⟩ := hr
    obtain ⟨d1, w1⟩ := iha (Covers.mono (by omega) hM) k1
    obtain ⟨d2, w2⟩ := ihb (Covers.mono (by omega) hM) k2
    obtain ⟨c1, c2⟩ := zip_within h h' he hM (by simp) w1 w2 k3
    refine ⟨?_, c2⟩
    simp only [sampleDouble, SM.bind_ok]
    exact ⟨_, s1, d1, _, _, d2, by rw [c1]; rfl⟩
  | @div a b m k ha hb iha ihb =>
    simp only [sampleFl, SM.bind_ok, SM.lift_ok] at hr
    obtain ⟨r1, s1, k1, r2, s2, k2, k3, rfl⟩ := hr
    obtain ⟨d1, w1⟩ := iha (Covers.mono (by omega) hM) k1
    obtain ⟨d2, w2⟩ := ihb (Covers.mono (by omega) hM) k2
    obtain ⟨c1, c2⟩ := zip_within h h' he hM (by simp) w1 w2 k3
    refine ⟨?_, c2⟩
    simp only [sampleDouble, SM.bind_ok]
    exact ⟨_, s1, d1, _, _, d2, by rw [c1]; rfl⟩
  | @max a b m k ha hb iha ihb =>
    simp only [sampleFl, SM.bind_ok, SM.lift_ok] at hr
    obtain ⟨r1, s1, k1, r2, s2, k2, k3, rfl⟩ := hr
    obtain ⟨d1, w1⟩ := iha (Covers.mono (Nat.le_max_left m k) hM) k1
    obtain ⟨d2, w2⟩ := ihb (Covers.mono (Nat.le_max_right m k) hM) k2
    obtain ⟨c1, c2⟩ := zip_within h h' he hM (by simp) w1 w2 k3
    refine ⟨?_, c2⟩
    simp only [sampleDouble, SM.bind_ok]
    exact ⟨_, s1, d1, _, _, d2, by rw [c1]; rfl⟩
  | @min a b m k ha hb iha ihb =>
    simp only [sampleFl, SM.bind_ok, SM.lift_ok] at hr
    obtain ⟨r1, s1, k1, r2, s2, k2, k3, rfl⟩ := hr
    obtain ⟨d1, w1⟩ := iha (Covers.mono (Nat.le_max_left m k) hM) k1
    obtain ⟨d2, w2⟩ := ihb (Covers.mono (Nat.le_max_right m k) hM) k2
    obtain ⟨c1, c2⟩ := zip_within h h' he hM (by simp) w1 w2 k3
    refine ⟨?_, c2⟩
    simp only [sampleDouble, SM.bind_ok]
    exact ⟨_, s1, d1, _, _, d2, by rw [c1]; rfl⟩
  | @lclip e c m k he' hc ih =>
    simp only [sampleFl, SM.bind_ok] at hr
    obtain ⟨r1, s1, k1, k3⟩ := hr
    obtain ⟨rfl, rfl⟩ := SM.pure_ok.1 k3
    obtain ⟨d1, w1⟩ := ih (Covers.mono (Nat.le_max_left m k) hM) k1
    have ec := (toDouble_within h h' he (Covers.mono (Nat.le_max_right m k) hM) hc).1
    refine ⟨?_, ?_⟩
    · refine SM.bind_ok.2 ⟨_, _, d1, ?_⟩
      rw [List.map_map, List.map_map]
      refine SM.pure_ok.2 ⟨List.map_congr_left fun r _ => ?_, rfl⟩
      simp only [Function.comp_apply, XVal.lclip, XVal.lt, XVal.val?, ec]
      by_cases hlt : r < fl' c <;> simp [hlt]
    · intro v hv
      obtain ⟨r, hr', rfl⟩ := List.mem_map.1 hv
      split
      · exact (Within.round h' hc).mono (Nat.le_max_right _ _)
      · exact (w1 r hr').mono (Nat.le_max_left _ _)
  | @rclip e c m k he' hc ih =>
    simp only [sampleFl, SM.bind_ok] at hr
    obtain ⟨r1, s1, k1, k3⟩ := hr
    obtain ⟨rfl, rfl⟩ := SM.pure_ok.1 k3
    obtain ⟨d1, w1⟩ := ih (Covers.mono (Nat.le_max_left m k) hM) k1
    have ec := (toDouble_within h h' he (Covers.mono (Nat.le_max_right m k) hM) hc).1
    refine ⟨?_, ?_⟩
    · refine SM.bind_ok.2 ⟨_, _, d1, ?_⟩
      rw [List.map_map, List.map_map]
      refine SM.pure_ok.2 ⟨List.map_congr_left fun r _ => ?_, rfl⟩
      simp only [Function.comp_apply, XVal.rclip, XVal.lt, XVal.val?, ec]
      by_cases hlt : fl' c < r <;> simp [hlt]
    · intro v hv
      obtain ⟨r, hr', rfl⟩ := List.mem_map.1 hv
      split
      · exact (Within.round h' hc).mono (Nat.le_max_right _ _)
      · exact (w1 r hr').mono (Nat.le_max_left _ _)

omit [FloorRing K] in
theorem Sized.noCancel {B : ℕ → ℕ} {e : XExpr K} {m : ℕ} (h : Sized B e m) : NoCancel e := by
  induction h with
  | src k => trivial
  | num hx => exact Within.pos hx
  | add _ _ h1 h2 => exact ⟨by decide, h1, h2⟩
  | mul _ _ h1 h2 => exact ⟨by decide, h1, h2⟩
  | div _ _ h1 h2 => exact ⟨by decide, h1, h2⟩
  | max _ _ h1 h2 => exact ⟨by decide, h1, h2⟩
  | min _ _ h1 h2 => exact ⟨by decide, h1, h2⟩
  | lclip _ _ h1 => exact h1
  | rclip _ hc h1 => exact ⟨Within.pos hc, h1⟩

/-- **C173.** A model of positive quantities whose exponents, read off its form, stay within the format: no sample is
infinite, `nan` or zero, each lies within the bounds, and each has a relative error of at most that of `roundings e`
roundings. -/
theorem C173_accuracy (hp : 1 ≤ f.p) (h : RoundsDouble f fl) (E : Env σ K) (hE : E.gen.Lawful)
    (ds : ℕ → Obj (St σ K) K) (hd : ∀ k, (ds k).Regular) (n : ℕ) (B : ℕ → ℕ)
    (hB : ∀ k s s' z, sampleObj E (ds k) n none none s = (.ok z, s') →
      ∀ v ∈ z.toList, ∃ x, v = .flt x ∧ Within (B k) x)
    (e : XExpr K) (M : ℕ) (hs : Sized B e M) (hM : f.Covers M) (s s' : St σ K) (z : Samples K)
    (hz : sampleObj E (toObj ds e) n none none s = (.ok z, s')) :
    ∃ rs : List K, sampleDouble f fl E ds n e s = (.ok (rs.map .fin), s') ∧ (∀ r ∈ rs, Within M r) ∧
      List.Forall₂ (fun v r => ∃ y, v = .flt y ∧ 0 < y ∧
        |r - y| ≤ (((1 + ulp f.p) / (1 - ulp f.p)) ^ roundings e - 1) * y) z.toList rs := by
  obtain ⟨fl', h', he⟩ := h.unlimited hp
  obtain ⟨rs, h1, h2⟩ := C139_accuracy h' hp E hE ds hd n (fun k s s' z hk v hv => by
    obtain ⟨x, e1, e2⟩ := hB k s s' z hk v hv
    exact ⟨x, e1, Within.pos e2⟩) e (Sized.noCancel hs) s s' z hz
  obtain ⟨d1, d2⟩ := sampleDouble_within h h' he E ds n hB hs hM h1
  exact ⟨rs, d1, d2, h2⟩

/-- The range of Python floats. -/
theorem binary64_covers : binary64.Covers 1022 := ⟨by decide, by decide⟩

/-- **C173** (the order of operations matters): `x * x / x` for a constant `x = 2^600` is infinite for floats, although the
exact value `2^600` is a float. -/
theorem C173_overflow_fails :
    let ds : ℕ → Obj (St ℕ ℚ) ℚ := fun _ => .leaf (.const (.flt (2 ^ 600))) none none
    let e : XExpr ℚ := .bin .div (.bin .mul (.src 0) (.src 0)) (.src 0)
    RoundsDouble binary64 (roundDouble (K := ℚ) binary64) ∧
    (sampleObj demoEnv (toObj ds e) 2 none none (demoSt 0)).1 = .ok (.arr [.flt (2 ^ 600), .flt (2 ^ 600)]) ∧
    (sampleDouble binary64 (roundDouble binary64) demoEnv ds 2 e (demoSt 0)).1 = .ok [.pinf, .pinf] := by
  refine ⟨roundDouble_rounds (by decide), ?_, ?_⟩ <;> decide +kernel

/-- **C173** (nor may parts become too small): `x * x / x` for a constant `x = 2^-600` is 0 for floats. -/
theorem C173_underflow_fails :
    let ds : ℕ → Obj (St ℕ ℚ) ℚ := fun _ => .leaf (.const (.flt (1 / 2 ^ 600))) none none
    let e : XExpr ℚ := .bin .div (.bin .mul (.src 0) (.src 0)) (.src 0)
    RoundsDouble binary64 (roundDouble (K := ℚ) binary64) ∧
    (sampleObj demoEnv (toObj ds e) 2 none none (demoSt 0)).1 = .ok (.arr [.flt (1 / 2 ^ 600), .flt (1 / 2 ^ 600)]) ∧
    (sampleDouble binary64 (roundDouble binary64) demoEnv ds 2 e (demoSt 0)).1 = .ok [.fin 0, .fin 0] := by
  refine ⟨roundDouble_rounds (by decide), ?_, ?_⟩ <;> decide +kernel

/-- The hypotheses are met: `uniform(1, 3) * uniform(1, 3) / 2 + 3`, clipped at 5, has exponents of at most 6. -/
example :
    let d : Obj (St ℕ ℚ) ℚ := .leaf (.uniform 1 3) none none
    let e : XExpr ℚ := .rclip (.bin .add (.bin .div (.bin .mul (.src 0) (.src 1)) (.num 2)) (.num 3)) 5
    Sized (fun _ => 2) e 6 ∧ binary64.Covers 6 ∧ d.Regular ∧
    (∀ (n : ℕ) (s s' : St ℕ ℚ) (z : Samples ℚ),
      sampleObj { demoEnv with exp := fun _ => 1 } d n none none s = (.ok z, s') →
      ∀ v ∈ z.toList, ∃ x, v = .flt x ∧ Within 2 x) := by
  refine ⟨?_, ⟨by decide, by decide⟩, trivial, ?_⟩
  · exact .rclip (m := 6) (n := 3) (.add (m := 5) (n := 2)
      (.div (m := 4) (n := 1) (.mul (m := 2) (n := 2) (.src 0) (.src 1))
        (.num ⟨by norm_num, by norm_num⟩)) (.num ⟨by norm_num, by norm_num⟩)) ⟨by norm_num, by norm_num⟩
  · intro n s s' z h v hv
    obtain ⟨x, e, h1, h2⟩ := C18_support { demoEnv with exp := fun _ => 1 } demoGen_lawful (fun _ => one_pos)
      (.uniform 1 3) n s s' z h v hv
    exact ⟨x, e, by norm_num; linarith, by norm_num; linarith⟩

end Verif
