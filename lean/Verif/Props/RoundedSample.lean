import Verif.Model.RoundedSample
import Verif.Spec.Accumulated
import Verif.Props.SpecialSample
import Verif.Props.Support
import Verif.Lemmas.Float

/-!
# Models in floating-point arithmetic (C139)

`fl` is any correct rounding to `p` binary digits (53 for a Python float), applied after each operation.
-/

namespace Verif

open Spec

section near

variable {K : Type} [Field K] [LinearOrder K] [IsStrictOrderedRing K]

/-- `r` is `y` up to a factor `g ^ k`. -/
def Near (g : K) (k : ℕ) (r y : K) : Prop := 0 < r ∧ 0 < y ∧ r ≤ y * g ^ k ∧ y ≤ r * g ^ k

variable {g : K} {k m : ℕ} {r y r' y' : K}

theorem Near.weaken (hg : 1 ≤ g) (h : Near g k r y) (hkm : k ≤ m) : Near g m r y := by
  have := pow_le_pow_right₀ hg hkm
  exact ⟨h.1, h.2.1, h.2.2.1.trans (mul_le_mul_of_nonneg_left this h.2.1.le),
    h.2.2.2.trans (mul_le_mul_of_nonneg_left this h.1.le)⟩

theorem Near.trans (h : Near g k r y) (hg : 1 ≤ g) {z : K} (h' : Near g m y z) : Near g (k + m) r z := by
  have hgk : (0 : K) ≤ g ^ k := pow_nonneg (by linarith) _
  have hgm : (0 : K) ≤ g ^ m := pow_nonneg (by linarith) _
  refine ⟨h.1, h'.2.1, ?_, ?_⟩
  · calc r ≤ y * g ^ k := h.2.2.1
      _ ≤ z * g ^ m * g ^ k := mul_le_mul_of_nonneg_right h'.2.2.1 hgk
      _ = z * g ^ (k + m) := by rw [pow_add]; ring
  · calc z ≤ y * g ^ m := h'.2.2.2
      _ ≤ r * g ^ k * g ^ m := mul_le_mul_of_nonneg_right h.2.2.2 hgm
      _ = r * g ^ (k + m) := by rw [pow_add]; ring

theorem Near.add (h : Near g k r y) (h' : Near g k r' y') : Near g k (r + r') (y + y') :=
  ⟨add_pos h.1 h'.1, add_pos h.2.1 h'.2.1, by rw [add_mul]; exact add_le_add h.2.2.1 h'.2.2.1,
    by rw [add_mul]; exact add_le_add h.2.2.2 h'.2.2.2⟩

theorem Near.mul (hg : 1 ≤ g) (h : Near g k r y) (h' : Near g m r' y') : Near g (k + m) (r * r') (y * y') := by
  have hgk : (0 : K) ≤ g ^ k := pow_nonneg (by linarith) _
  refine ⟨mul_pos h.1 h'.1, mul_pos h.2.1 h'.2.1, ?_, ?_⟩
  · calc r * r' ≤ (y * g ^ k) * (y' * g ^ m) :=
          mul_le_mul h.2.2.1 h'.2.2.1 h'.1.le (mul_nonneg h.2.1.le hgk)
      _ = y * y' * g ^ (k + m) := by rw [pow_add]; ring
  · calc y * y' ≤ (r * g ^ k) * (r' * g ^ m) :=
          mul_le_mul h.2.2.2 h'.2.2.2 h'.2.1.le (mul_nonneg h.1.le hgk)
      _ = r * r' * g ^ (k + m) := by rw [pow_add]; ring

theorem Near.inv (h : Near g k r y) : Near g k r⁻¹ y⁻¹ := by
  refine ⟨inv_pos.2 h.1, inv_pos.2 h.2.1, ?_, ?_⟩
  · have h1 := h.2.2.2
    have hr := h.1
    have hy := h.2.1
    field_simp
    exact h1
  · have h1 := h.2.2.1
    have hr := h.1
    have hy := h.2.1
    field_simp
    exact h1

theorem Near.div (hg : 1 ≤ g) (h : Near g k r y) (h' : Near g m r' y') : Near g (k + m) (r / r') (y / y') := by
  rw [div_eq_mul_inv, div_eq_mul_inv]
  exact h.mul hg h'.inv

theorem Near.max (h : Near g k r y) (hg : 1 ≤ g) (h' : Near g k r' y') : Near g k (max r r') (max y y') := by
  have hgk : (0 : K) ≤ g ^ k := pow_nonneg (by linarith) _
  refine ⟨lt_max_of_lt_left h.1, lt_max_of_lt_left h.2.1, ?_, ?_⟩
  · rw [max_mul_of_nonneg _ _ hgk]; exact max_le_max h.2.2.1 h'.2.2.1
  · rw [max_mul_of_nonneg _ _ hgk]; exact max_le_max h.2.2.2 h'.2.2.2

theorem Near.min (h : Near g k r y) (hg : 1 ≤ g) (h' : Near g k r' y') : Near g k (min r r') (min y y') := by
  have hgk : (0 : K) ≤ g ^ k := pow_nonneg (by linarith) _
  refine ⟨lt_min h.1 h'.1, lt_min h.2.1 h'.2.1, ?_, ?_⟩
  · rw [min_mul_of_nonneg _ _ hgk]; exact min_le_min h.2.2.1 h'.2.2.1
  · rw [min_mul_of_nonneg _ _ hgk]; exact min_le_min h.2.2.2 h'.2.2.2

/-- As a relative error. -/
theorem Near.err (h : Near g k r y) (hg : 1 ≤ g) : |r - y| ≤ (g ^ k - 1) * y := by
  have hgk : (1 : K) ≤ g ^ k := one_le_pow₀ hg
  obtain ⟨h1, h2, h3, h4⟩ := h
  rw [abs_le]
  refine ⟨?_, by linarith⟩
  rcases le_total y r with hyr | hyr
  · nlinarith
  · have := mul_le_mul_of_nonneg_right hyr (sub_nonneg.2 hgk)
    linarith

end near

variable {σ K : Type} [Field K] [LinearOrder K] [IsStrictOrderedRing K] [FloorRing K] {p : ℕ} {fl : K → K}

/-- The factor of one rounding. -/
def roundFactor (K : Type) [Field K] (p : ℕ) : K := (1 + ulp p) / (1 - ulp p)

theorem one_le_roundFactor (hp : 1 ≤ p) : 1 ≤ roundFactor K p := by
  have hu := ulp_pos (K := K) p
  have hu2 := ulp_le_half (K := K) hp
  unfold roundFactor
  rw [le_div_iff₀ (by linarith)]
  linarith

theorem RoundsTo.nearFactor (h : RoundsTo p fl) (hp : 1 ≤ p) {x : K} (hx : 0 < x) : Near (roundFactor K p) 1 (fl x) x := by
  have hu := ulp_pos (K := K) p
  have hu2 := ulp_le_half (K := K) hp
  have h1 := h.le_mul hx.le
  have h2 := h.ge_mul hx.le
  have hf := h.pos hp hx
  have hd : (0 : K) < 1 - ulp p := by linarith
  refine ⟨hf, hx, ?_, ?_⟩
  · rw [pow_one]
    unfold roundFactor
    rw [mul_div_assoc', le_div_iff₀ hd]
    have : 0 ≤ fl x * ulp p := mul_nonneg hf.le hu.le
    nlinarith
  · rw [pow_one]
    unfold roundFactor
    rw [mul_div_assoc', le_div_iff₀ hd]
    have : 0 ≤ fl x * ulp p := mul_nonneg hf.le hu.le
    nlinarith

theorem opFl_near (h : RoundsTo p fl) (hp : 1 ≤ p) {o : XOp} (ho : o ≠ .sub) {ea eb : XExpr K} {r r' y y' : K}
    {a b : XVal K} (ha : a.val? = some y) (hb : b.val? = some y')
    (h1 : Near (roundFactor K p) (roundings ea) r y) (h2 : Near (roundFactor K p) (roundings eb) r' y') :
    ∃ v w, opFl fl o r r' = .ok v ∧ (XVal.op o a b).val? = some w ∧
      Near (roundFactor K p) (roundings (.bin o ea eb)) v w := by
  have hg := one_le_roundFactor (K := K) hp
  have w1 : Near (roundFactor K p) (max (roundings ea) (roundings eb)) r y := h1.weaken hg (le_max_left _ _)
  have w2 : Near (roundFactor K p) (max (roundings ea) (roundings eb)) r' y' := h2.weaken hg (le_max_right _ _)
  cases o with
  | add =>
    refine ⟨_, _, rfl, XVal.val_add ha hb, ?_⟩
    have := (h.nearFactor hp (w1.add w2).1).trans hg (w1.add w2)
    rwa [Nat.add_comm] at this
  | sub => exact absurd rfl ho
  | mul =>
    refine ⟨_, _, rfl, XVal.val_mul ha hb, ?_⟩
    have := (h.nearFactor hp (h1.mul hg h2).1).trans hg (h1.mul hg h2)
    rwa [Nat.add_comm] at this
  | div =>
    refine ⟨fl (r / r'), _, by simp [opFl, h2.1.ne'], XVal.val_div ha hb h2.2.1.ne', ?_⟩
    have := (h.nearFactor hp (h1.div hg h2).1).trans hg (h1.div hg h2)
    rwa [Nat.add_comm] at this
  | max => exact ⟨_, _, rfl, XVal.val_max ha hb, w1.max hg w2⟩
  | min => exact ⟨_, _, rfl, XVal.val_min ha hb, w1.min hg w2⟩

/-- Pairwise close. -/
def AllNear (g : K) (k : ℕ) (xs : List (XVal K)) (rs : List K) : Prop :=
  List.Forall₂ (fun a r => ∃ y, a.val? = some y ∧ Near g k r y) xs rs

theorem zip_near (h : RoundsTo p fl) (hp : 1 ≤ p) {o : XOp} (ho : o ≠ .sub) {ea eb : XExpr K}
    {xs ys : List (XVal K)} {rs qs : List K} (h1 : AllNear (roundFactor K p) (roundings ea) xs rs)
    (h2 : AllNear (roundFactor K p) (roundings eb) ys qs) :
    ∃ vs, mapExcept (fun q => opFl fl o q.1 q.2) (rs.zip qs) = .ok vs ∧
      AllNear (roundFactor K p) (roundings (.bin o ea eb)) (List.zipWith (XVal.op o) xs ys) vs := by
  unfold AllNear at *
  induction h1 generalizing ys qs with
  | nil => exact ⟨[], rfl, .nil⟩
  | @cons a r xs rs m1 t1 ih =>
    cases h2 with
    | nil => exact ⟨[], rfl, .nil⟩
    | @cons b q ys qs m2 t2 =>
      obtain ⟨y, ha, n1⟩ := m1
      obtain ⟨y', hb, n2⟩ := m2
      obtain ⟨v, w, e1, e2, e3⟩ := opFl_near h hp ho ha hb n1 n2
      obtain ⟨vs, e4, e5⟩ := ih t2
      refine ⟨v :: vs, ?_, .cons ⟨w, e2, e3⟩ e5⟩
      rw [List.zip_cons_cons]
      exact mapExcept_ok.2 (.cons e1 (mapExcept_ok.1 e4))

theorem map_near {g : K} {k m : ℕ} {xs : List (XVal K)} {rs : List K} (h : AllNear g k xs rs) (F : XVal K → XVal K)
    (G : K → K) (hFG : ∀ a r y, a.val? = some y → Near g k r y → ∃ y', (F a).val? = some y' ∧ Near g m (G r) y') :
    AllNear g m (xs.map F) (rs.map G) := by
  unfold AllNear at *
  induction h with
  | nil => exact .nil
  | cons m1 _ ih =>
    obtain ⟨y, ha, n1⟩ := m1
    exact .cons (hFG _ _ y ha n1) ih

theorem sampleX_near (h : RoundsTo p fl) (hp : 1 ≤ p) (E : Env σ K) (ds : ℕ → Obj (St σ K) K) (n : ℕ)
    (hpos : ∀ k s s' z, sampleObj E (ds k) n none none s = (.ok z, s') → ∀ v ∈ z.toList, ∃ x, v = .flt x ∧ 0 < x)
    {e : XExpr K} (hc : NoCancel e) {s s' : St σ K} {xs : List (XVal K)} (hx : sampleX E ds n e s = (.ok xs, s')) :
    ∃ rs, sampleFl fl E ds n e s = (.ok rs, s') ∧ AllNear (roundFactor K p) (roundings e) xs rs := by
  have hg := one_le_roundFactor (K := K) hp
  induction e generalizing s s' xs with
  | src k =>
    simp only [sampleX, SM.bind_ok, SM.lift_ok, Except.bind_ok_iff] at hx
    obtain ⟨z, s1, h1, ⟨ys, h2, h3⟩, rfl⟩ := hx
    cases h3
    refine ⟨ys.map fl, ?_, ?_⟩
    · simp only [sampleFl, SM.bind_ok, SM.lift_ok, Except.bind_ok_iff]
      exact ⟨z, s1, h1, ⟨ys, h2, rfl⟩, rfl⟩
    · have hz := floats_ok h2
      have hp' : ∀ y ∈ ys, 0 < y := by
        intro y hy
        obtain ⟨x, e1, e2⟩ := hpos k s s1 z h1 (.flt y) (by rw [hz]; exact List.mem_map_of_mem hy)
        cases e1
        exact e2
      unfold AllNear
      clear hz h2
      induction ys with
      | nil => exact .nil
      | cons y ys ih =>
        exact .cons ⟨y, rfl, h.nearFactor hp (hp' y (by simp))⟩ (ih fun w hw => hp' w (by simp [hw]))
  | num x =>
    obtain ⟨rfl, rfl⟩ := SM.pure_ok.1 hx
    refine ⟨_, rfl, ?_⟩
    unfold AllNear
    generalize n = m
    induction m with
    | zero => exact .nil
    | succ m ih => exact .cons ⟨x, rfl, h.nearFactor hp hc⟩ ih
  | neg e ih => exact absurd hc (by simp [NoCancel])
  | bin o a b iha ihb =>
    obtain ⟨ho, ca, cb⟩ := hc
    simp only [sampleX, SM.bind_ok] at hx
    obtain ⟨x1, s1, h1, x2, s2, h2, h3⟩ := hx
    obtain ⟨rfl, rfl⟩ := SM.pure_ok.1 h3
    obtain ⟨r1, k1, n1⟩ := iha ca h1
    obtain ⟨r2, k2, n2⟩ := ihb cb h2
    obtain ⟨vs, k3, n3⟩ := zip_near h hp ho n1 n2
    refine ⟨vs, ?_, n3⟩
    simp only [sampleFl, SM.bind_ok, SM.lift_ok]
    exact ⟨r1, s1, k1, r2, _, k2, k3, rfl⟩
  | lclip e c ih =>
    simp only [sampleX, SM.bind_ok] at hx
    obtain ⟨x1, s1, h1, h3⟩ := hx
    obtain ⟨rfl, rfl⟩ := SM.pure_ok.1 h3
    obtain ⟨r1, k1, n1⟩ := ih hc h1
    refine ⟨_, SM.bind_ok.2 ⟨r1, _, k1, rfl⟩, map_near n1 _ _ ?_⟩
    intro a r y ha hn
    refine ⟨_, XVal.val_lclip ha c, ?_⟩
    have e1 : (if r < fl c then fl c else r) = max r (fl c) := by
      split
      · rename_i hlt; rw [max_eq_right hlt.le]
      · rename_i hge; rw [max_eq_left (not_lt.1 hge)]
    rw [e1]
    have w1 : Near (roundFactor K p) (max (roundings e) 1) r y := hn.weaken hg (le_max_left _ _)
    rcases le_or_gt c 0 with h0 | h0
    · rw [max_eq_left (h0.trans hn.2.1.le), max_eq_left ((h.le_of_le (isFloat_zero p) h0).trans hn.1.le)]
      exact w1
    · exact w1.max hg ((h.nearFactor hp h0).weaken hg (le_max_right _ _))
  | rclip e c ih =>
    simp only [sampleX, SM.bind_ok] at hx
    obtain ⟨x1, s1, h1, h3⟩ := hx
    obtain ⟨rfl, rfl⟩ := SM.pure_ok.1 h3
    obtain ⟨r1, k1, n1⟩ := ih hc.2 h1
    refine ⟨_, SM.bind_ok.2 ⟨r1, _, k1, rfl⟩, map_near n1 _ _ ?_⟩
    intro a r y ha hn
    refine ⟨_, XVal.val_rclip ha c, ?_⟩
    have e1 : (if fl c < r then fl c else r) = min r (fl c) := by
      split
      · rename_i hlt; rw [min_eq_right hlt.le]
      · rename_i hge; rw [min_eq_left (not_lt.1 hge)]
    rw [e1]
    have w1 : Near (roundFactor K p) (max (roundings e) 1) r y := hn.weaken hg (le_max_left _ _)
    exact w1.min hg ((h.nearFactor hp hc.1).weaken hg (le_max_right _ _))

/-- **C139**: a model of positive quantities built with sums, products, quotients, maxima, minima and bounds: wherever the
exact sampler returns samples, floating-point arithmetic returns samples with a relative error of at most that of
`roundings e` roundings, each a factor of `(1 + u) / (1 - u)`, `u = 2 ^ -p`. -/
theorem C139_accuracy (h : RoundsTo p fl) (hp : 1 ≤ p) (E : Env σ K) (hE : E.gen.Lawful) (ds : ℕ → Obj (St σ K) K)
    (hd : ∀ k, (ds k).Regular) (n : ℕ)
    (hpos : ∀ k s s' z, sampleObj E (ds k) n none none s = (.ok z, s') → ∀ v ∈ z.toList, ∃ x, v = .flt x ∧ 0 < x)
    (e : XExpr K) (hc : NoCancel e) (s s' : St σ K) (z : Samples K)
    (hz : sampleObj E (toObj ds e) n none none s = (.ok z, s')) :
    ∃ rs, sampleFl fl E ds n e s = (.ok rs, s') ∧
      List.Forall₂ (fun v r => ∃ y, v = .flt y ∧ 0 < y ∧
        |r - y| ≤ (((1 + ulp p) / (1 - ulp p)) ^ roundings e - 1) * y) z.toList rs := by
  obtain ⟨xs, h1, h2⟩ := C133_extends E hE ds hd n
    (fun k s s' z hk v hv => by obtain ⟨x, e1, -⟩ := hpos k s s' z hk v hv; exact ⟨x, e1⟩) e s s' z hz
  obtain ⟨rs, h3, h4⟩ := sampleX_near h hp E ds n hpos hc h1
  refine ⟨rs, h3, ?_⟩
  have hg := one_le_roundFactor (K := K) hp
  unfold AllNear SameValues at *
  clear h3 h1 hz
  generalize z.toList = l at *
  induction h2 generalizing rs with
  | nil => cases h4; exact .nil
  | cons m _ ih =>
    cases h4 with
    | cons m' t' =>
      obtain ⟨y, e1, e2⟩ := m
      obtain ⟨y', e3, e4⟩ := m'
      rw [e2] at e3
      cases e3
      exact .cons ⟨y, e1, e4.2.1, e4.err hg⟩ (ih _ t')

/-! ## Whole numbers -/

theorem isFloat_whole {z : ℤ} {m : ℕ} (hz : |z| ≤ m) (hm : m ≤ 2 ^ p) : IsFloat p (z : K) :=
  isFloat_int (hz.trans (by exact_mod_cast hm))

/-- Pairwise equal, whole and at most `m`. -/
def AllWhole (m : ℕ) (xs : List (XVal K)) (rs : List K) : Prop :=
  List.Forall₂ (fun (a : XVal K) (r : K) => a.val? = some r ∧ ∃ z : ℤ, r = (z : K) ∧ |z| ≤ m) xs rs

theorem opFl_whole (h : RoundsTo p fl) {o : XOp} {m m' M : ℕ} {r r' : K} {a b : XVal K} (ha : a.val? = some r)
    (hb : b.val? = some r') (h1 : ∃ z : ℤ, r = (z : K) ∧ |z| ≤ m) (h2 : ∃ z : ℤ, r' = (z : K) ∧ |z| ≤ m')
    (hM : WholeOp o m m' M) (hMp : M ≤ 2 ^ p) :
    ∃ v, opFl fl o r r' = .ok v ∧ (XVal.op o a b).val? = some v ∧ ∃ z : ℤ, v = (z : K) ∧ |z| ≤ M := by
  obtain ⟨z, rfl, hz⟩ := h1
  obtain ⟨z', rfl, hz'⟩ := h2
  cases o with
  | add =>
    have hb2 : |z + z'| ≤ M := (abs_add_le _ _).trans (by have : m + m' ≤ M := hM; omega)
    have := h.exact (isFloat_whole (K := K) hb2 hMp)
    push_cast at this
    exact ⟨_, by simp only [opFl, this], XVal.val_add ha hb, z + z', by push_cast; rfl, hb2⟩
  | sub =>
    have hb2 : |z - z'| ≤ M := (abs_sub _ _).trans (by have : m + m' ≤ M := hM; omega)
    have := h.exact (isFloat_whole (K := K) hb2 hMp)
    push_cast at this
    exact ⟨_, by simp only [opFl, this], XVal.val_sub ha hb, z - z', by push_cast; rfl, hb2⟩
  | mul =>
    have hb2 : |z * z'| ≤ M := by
      rw [abs_mul]
      have h3 : |z| * |z'| ≤ (m : ℤ) * m' := mul_le_mul hz hz' (abs_nonneg _) (by positivity)
      have : m * m' ≤ M := hM
      have : ((m * m' : ℕ) : ℤ) ≤ M := by exact_mod_cast this
      push_cast at this
      omega
    have := h.exact (isFloat_whole (K := K) hb2 hMp)
    push_cast at this
    exact ⟨_, by simp only [opFl, this], XVal.val_mul ha hb, z * z', by push_cast; rfl, hb2⟩
  | div => exact absurd hM (by simp [WholeOp])
  | max =>
    have hM' : max m m' ≤ M := hM
    refine ⟨_, rfl, XVal.val_max ha hb, max z z', by push_cast; rfl, ?_⟩
    rcases max_choice z z' with e | e <;> rw [e] <;> omega
  | min =>
    have hM' : max m m' ≤ M := hM
    refine ⟨_, rfl, XVal.val_min ha hb, min z z', by push_cast; rfl, ?_⟩
    rcases min_choice z z' with e | e <;> rw [e] <;> omega

theorem zip_whole (h : RoundsTo p fl) {o : XOp} {m m' M : ℕ} {xs ys : List (XVal K)} {rs qs : List K}
    (h1 : AllWhole m xs rs) (h2 : AllWhole m' ys qs) (hM : WholeOp o m m' M) (hMp : M ≤ 2 ^ p) :
    ∃ vs, mapExcept (fun q => opFl fl o q.1 q.2) (rs.zip qs) = .ok vs ∧
      AllWhole M (List.zipWith (XVal.op o) xs ys) vs := by
  unfold AllWhole at *
  induction h1 generalizing ys qs with
  | nil => exact ⟨[], rfl, .nil⟩
  | @cons a r xs rs m1 t1 ih =>
    cases h2 with
    | nil => exact ⟨[], rfl, .nil⟩
    | @cons b q ys qs m2 t2 =>
      obtain ⟨v, e1, e2, e3⟩ := opFl_whole h m1.1 m2.1 m1.2 m2.2 hM hMp
      obtain ⟨vs, e4, e5⟩ := ih t2
      refine ⟨v :: vs, ?_, .cons ⟨e2, e3⟩ e5⟩
      rw [List.zip_cons_cons]
      exact mapExcept_ok.2 (.cons e1 (mapExcept_ok.1 e4))

theorem map_whole {k m : ℕ} {xs : List (XVal K)} {rs : List K} (h : AllWhole k xs rs) (F : XVal K → XVal K)
    (G : K → K) (hFG : ∀ (a : XVal K) (z : ℤ), a.val? = some (z : K) → |z| ≤ k →
      (F a).val? = some (G z) ∧ ∃ z' : ℤ, G z = (z' : K) ∧ |z'| ≤ m) :
    AllWhole m (xs.map F) (rs.map G) := by
  unfold AllWhole at *
  induction h with
  | nil => exact .nil
  | cons m1 _ ih =>
    obtain ⟨ha, z, rfl, hz⟩ := m1
    exact .cons (hFG _ _ ha hz) ih

theorem sampleX_whole (h : RoundsTo p fl) (E : Env σ K) (ds : ℕ → Obj (St σ K) K) (n : ℕ) (B : ℕ → ℕ)
    (hw : ∀ k s s' z, sampleObj E (ds k) n none none s = (.ok z, s') →
      ∀ v ∈ z.toList, ∃ x : ℤ, v = .flt (x : K) ∧ |x| ≤ B k)
    {e : XExpr K} {m : ℕ} (hc : Whole p B e m) {s s' : St σ K} {xs : List (XVal K)}
    (hx : sampleX E ds n e s = (.ok xs, s')) :
    ∃ rs, sampleFl fl E ds n e s = (.ok rs, s') ∧ AllWhole m xs rs := by
  induction hc generalizing s s' xs with
  | src k hk =>
    simp only [sampleX, SM.bind_ok, SM.lift_ok, Except.bind_ok_iff] at hx
    obtain ⟨z, s1, h1, ⟨ys, h2, h3⟩, rfl⟩ := hx
    cases h3
    refine ⟨ys.map fl, ?_, ?_⟩
    · simp only [sampleFl, SM.bind_ok, SM.lift_ok, Except.bind_ok_iff]
      exact ⟨z, s1, h1, ⟨ys, h2, rfl⟩, rfl⟩
    · have hz := floats_ok h2
      have hp' : ∀ y ∈ ys, ∃ x : ℤ, y = (x : K) ∧ |x| ≤ B k := by
        intro y hy
        obtain ⟨x, e1, e2⟩ := hw k s s1 z h1 (.flt y) (by rw [hz]; exact List.mem_map_of_mem hy)
        cases e1
        exact ⟨x, rfl, e2⟩
      unfold AllWhole
      clear hz h2
      induction ys with
      | nil => exact .nil
      | cons y ys ih =>
        obtain ⟨x, rfl, hx⟩ := hp' y (by simp)
        have e : fl (x : K) = x := h.exact (isFloat_whole hx hk)
        exact .cons ⟨by rw [e]; rfl, x, e, hx⟩ (ih fun w hw => hp' w (by simp [hw]))
  | num z hz =>
    obtain ⟨rfl, rfl⟩ := SM.pure_ok.1 hx
    refine ⟨_, rfl, ?_⟩
    have hz' : |z| ≤ (z.natAbs : ℤ) := by rw [Int.natCast_natAbs]
    have e : fl (z : K) = z := h.exact (isFloat_whole hz' hz)
    unfold AllWhole
    generalize n = m
    induction m with
    | zero => exact .nil
    | succ m ih => exact .cons ⟨by rw [e]; rfl, z, e, hz'⟩ ih
  | neg _ ih =>
    simp only [sampleX, SM.bind_ok] at hx
    obtain ⟨x1, s1, h1, h3⟩ := hx
    obtain ⟨rfl, rfl⟩ := SM.pure_ok.1 h3
    obtain ⟨r1, k1, n1⟩ := ih h1
    refine ⟨_, SM.bind_ok.2 ⟨r1, _, k1, rfl⟩, map_whole n1 _ _ ?_⟩
    intro a z ha hz
    exact ⟨XVal.val_neg ha, -z, by push_cast; rfl, by rwa [abs_neg]⟩
  | bin _ _ hM hMp iha ihb =>
    simp only [sampleX, SM.bind_ok] at hx
    obtain ⟨x1, s1, h1, x2, s2, h2, h3⟩ := hx
    obtain ⟨rfl, rfl⟩ := SM.pure_ok.1 h3
    obtain ⟨r1, k1, n1⟩ := iha h1
    obtain ⟨r2, k2, n2⟩ := ihb h2
    obtain ⟨vs, k3, n3⟩ := zip_whole h n1 n2 hM hMp
    refine ⟨vs, ?_, n3⟩
    simp only [sampleFl, SM.bind_ok, SM.lift_ok]
    exact ⟨r1, s1, k1, r2, _, k2, k3, rfl⟩
  | @lclip _ m c _ hcp ih =>
    simp only [sampleX, SM.bind_ok] at hx
    obtain ⟨x1, s1, h1, h3⟩ := hx
    obtain ⟨rfl, rfl⟩ := SM.pure_ok.1 h3
    obtain ⟨r1, k1, n1⟩ := ih h1
    refine ⟨_, SM.bind_ok.2 ⟨r1, _, k1, rfl⟩, map_whole n1 _ _ ?_⟩
    intro a z ha hz
    have e : fl (c : K) = c := h.exact (isFloat_whole (m := c.natAbs) (by rw [Int.natCast_natAbs]) hcp)
    have e1 : (if (z : K) < fl c then fl c else (z : K)) = max (z : K) c := by
      rw [e]
      split
      · rename_i hlt; rw [max_eq_right hlt.le]
      · rename_i hge; rw [max_eq_left (not_lt.1 hge)]
    rw [e1]
    refine ⟨XVal.val_lclip ha _, max z c, by push_cast; rfl, ?_⟩
    push_cast
    rcases max_choice z c with e | e <;> rw [e]
    · exact hz.trans (le_max_left _ _)
    · exact le_max_right _ _
  | @rclip _ m c _ hcp ih =>
    simp only [sampleX, SM.bind_ok] at hx
    obtain ⟨x1, s1, h1, h3⟩ := hx
    obtain ⟨rfl, rfl⟩ := SM.pure_ok.1 h3
    obtain ⟨r1, k1, n1⟩ := ih h1
    refine ⟨_, SM.bind_ok.2 ⟨r1, _, k1, rfl⟩, map_whole n1 _ _ ?_⟩
    intro a z ha hz
    have e : fl (c : K) = c := h.exact (isFloat_whole (m := c.natAbs) (by rw [Int.natCast_natAbs]) hcp)
    have e1 : (if fl (c : K) < (z : K) then fl c else (z : K)) = min (z : K) c := by
      rw [e]
      split
      · rename_i hlt; rw [min_eq_right hlt.le]
      · rename_i hge; rw [min_eq_left (not_lt.1 hge)]
    rw [e1]
    refine ⟨XVal.val_rclip ha _, min z c, by push_cast; rfl, ?_⟩
    push_cast
    rcases min_choice z c with e | e <;> rw [e]
    · exact hz.trans (le_max_left _ _)
    · exact le_max_right _ _

/-- **C139**: models of whole numbers held as floats (constants, values of `discrete`) that stay within `2 ^ p` are computed without any rounding
error, subtractions included. -/
theorem C139_whole (h : RoundsTo p fl) (E : Env σ K) (hE : E.gen.Lawful) (ds : ℕ → Obj (St σ K) K)
    (hd : ∀ k, (ds k).Regular) (n : ℕ) (B : ℕ → ℕ)
    (hw : ∀ k s s' z, sampleObj E (ds k) n none none s = (.ok z, s') →
      ∀ v ∈ z.toList, ∃ x : ℤ, v = .flt (x : K) ∧ |x| ≤ B k)
    (e : XExpr K) (m : ℕ) (hc : Whole p B e m) (s s' : St σ K) (z : Samples K)
    (hz : sampleObj E (toObj ds e) n none none s = (.ok z, s')) :
    ∃ rs, sampleFl fl E ds n e s = (.ok rs, s') ∧ z.toList = rs.map .flt := by
  obtain ⟨xs, h1, h2⟩ := C133_extends E hE ds hd n
    (fun k s s' z hk v hv => by obtain ⟨x, e1, -⟩ := hw k s s' z hk v hv; exact ⟨_, e1⟩) e s s' z hz
  obtain ⟨rs, h3, h4⟩ := sampleX_whole h E ds n B hw hc h1
  refine ⟨rs, h3, ?_⟩
  unfold AllWhole SameValues at *
  clear h3 h1 hz
  generalize z.toList = l at *
  induction h2 generalizing rs with
  | nil => cases h4; rfl
  | cons m _ ih =>
    cases h4 with
    | cons m' t' =>
      obtain ⟨y, e1, e2⟩ := m
      obtain ⟨e3, -⟩ := m'
      rw [e2] at e3
      cases e3
      rw [List.map_cons, ih _ t', e1]

/-- **C139** fails with cancellation: `(x + 1) - 2 ** 54` for `x = 2 ** 54` is 1 in exact arithmetic, and 0 with Python's
floats: a relative error of 100 percent. -/
theorem C139_cancellation_fails :
    let ds : ℕ → Obj (St ℕ ℚ) ℚ := fun _ => .leaf (.const (.flt (2 ^ 54))) none none
    let e : XExpr ℚ := .bin .sub (.bin .add (.src 0) (.num 1)) (.num (2 ^ 54))
    RoundsTo 53 (roundBits 53 (K := ℚ)) ∧
    (sampleObj demoEnv (toObj ds e) 2 none none (demoSt 0)).1 = .ok (.arr [.flt 1, .flt 1]) ∧
    (sampleFl (roundBits 53) demoEnv ds 2 e (demoSt 0)).1 = .ok [0, 0] := by
  refine ⟨roundBits_roundsTo (by norm_num), ?_, ?_⟩ <;> decide +kernel

/-! ### The hypotheses are met -/

/-- `uniform(1, 3) * uniform(1, 3) / 2 + 3`, clipped at 5: draws are positive, nothing is subtracted, and the sampler
returns samples. -/
example :
    let d : Obj (St ℕ ℚ) ℚ := .leaf (.uniform 1 3) none none
    let e : XExpr ℚ := .rclip (.bin .add (.bin .div (.bin .mul (.src 0) (.src 1)) (.num 2)) (.num 3)) 5
    NoCancel e ∧ roundings e = 6 ∧ d.Regular ∧
    (∀ (n : ℕ) (s s' : St ℕ ℚ) (z : Samples ℚ),
      sampleObj { demoEnv with exp := fun _ => 1 } d n none none s = (.ok z, s') →
      ∀ v ∈ z.toList, ∃ x, v = .flt x ∧ 0 < x) ∧
    (sampleObj { demoEnv with exp := fun _ => 1 } (toObj (fun _ => d) e) 2 none none (demoSt 0)).1 =
      .ok (.arr [.flt (41 / 10), .flt 5]) := by
  refine ⟨by simp [NoCancel], by decide, trivial, ?_, ?_⟩
  · intro n s s' z h v hv
    obtain ⟨x, e, h1, -⟩ := C18_support { demoEnv with exp := fun _ => 1 } demoGen_lawful (fun _ => one_pos) (.uniform 1 3) n s s' z h v hv
    exact ⟨x, e, by linarith⟩
  · decide +kernel

/-- `(2 - x) * 3` for a constant `x = 5`: whole numbers throughout, subtraction included. -/
example :
    let d : Obj (St ℕ ℚ) ℚ := .leaf (.const (.flt 5)) none none
    let e : XExpr ℚ := .bin .mul (.bin .sub (.num ((2 : ℤ) : ℚ)) (.src 0)) (.num ((3 : ℤ) : ℚ))
    Whole 53 (fun _ => 5) e 21 ∧
    (sampleObj demoEnv (toObj (fun _ => d) e) 2 none none (demoSt 0)).1 = .ok (.arr [.flt (-9), .flt (-9)]) ∧
    (sampleFl (roundBits 53) demoEnv (fun _ => d) 2 e (demoSt 0)).1 = .ok [-9, -9] := by
  refine ⟨?_, ?_, ?_⟩
  · exact .bin (m := 7) (.bin (.num 2 (by norm_num)) (.src 0 (by norm_num)) (by simp [WholeOp]) (by norm_num))
      (.num 3 (by norm_num)) (by simp [WholeOp]) (by norm_num)
  · decide +kernel
  · decide +kernel

end Verif
