import Verif.Props.Event
import Mathlib.Analysis.SpecialFunctions.Sqrt

/-! # C82: a t-distribution given by an interval -/

namespace Verif

/-- What the generator will return for one `tdist` sample: standard normal score `z`, chi-square `c`. -/
structure TDraw {σ : Type} (E : Env σ ℝ) (st : St σ ℝ) (t z c : ℝ) : Prop where
  normal : ∃ r1, (∀ m s, E.gen.draw (.normal m s) 1 st.rng = (.ok [.flt (m + s * z)], r1)) ∧
    ∃ r2, E.gen.draw (.chisquare t) 1 r1 = (.ok [.flt c], r2)
  sqrt : ∀ a, 0 < a → E.powf a (1 / 2) = some (Real.sqrt a)

/-- The scale the library derives from the interval. -/
noncomputable def tScale {σ : Type} (E : Env σ ℝ) (x y cred : ℝ) : ℝ :=
  (y - (y + x) / 2) / E.ppf (1 / 2 + 1 / 2 * (cred / 100))

theorem tInterval_value {σ : Type} (E : Env σ ℝ) (st : St σ ℝ) (x y t cred z c : ℝ) (hxy : x < y)
    (ht : 0 < t) (hc : 0 < c) (h : TDraw E st t z c) :
    (sampleObj E (.leaf (.tdist (some x) (some y) t cred) none none) 1 none none st).1 =
      .ok (.scalar (.flt (((y + x) / 2 + tScale E x y cred * z) / Real.sqrt (c / t)))) := by
  obtain ⟨r1, h1, r2, h2⟩ := h.normal
  have hct : 0 < c / t := div_pos hc ht
  have hs := h.sqrt _ hct
  have hz : drawSimple E (.normal ((y + x) / 2) (tScale E x y cred)) 1 st =
      (.ok (.scalar (.flt ((y + x) / 2 + tScale E x y cred * z))), { st with rng := r1 }) :=
    drawSimple_ok.2 ⟨[.flt ((y + x) / 2 + tScale E x y cred * z)], by simp only [drawSM, h1], rfl⟩
  have hq : drawSimple E (.chisquare t) 1 { st with rng := r1 } =
      (.ok (.scalar (.flt c)), { st with rng := r2 }) :=
    drawSimple_ok.2 ⟨[.flt c], by simp only [drawSM, h2], rfl⟩
  have hb : (do
      let r ← binSamples E.powf .truediv (.scalar (.flt c)) (.scalar (.flt t))
      let q ← binSamples E.powf .pow r (.scalar (.flt (1 / 2)))
      let x ← binSamples E.powf .truediv (.scalar (.flt ((y + x) / 2 + tScale E x y cred * z))) q
      .ok x.simplify : Except PyErr (Samples ℝ)) =
      .ok (.scalar (.flt (((y + x) / 2 + tScale E x y cred * z) / Real.sqrt (c / t)))) := by
    have e1 : binSamples E.powf .truediv (.scalar (.flt c)) (.scalar (.flt t)) =
        .ok (.scalar (.flt (c / t))) := by
      simp only [binSamples, pyBin, Scalar.num?]
      rw [if_neg (show ¬ (Num.F t).val = 0 from ht.ne')]
      rfl
    have e2 : binSamples E.powf .pow (.scalar (.flt (c / t))) (.scalar (.flt (1 / 2))) =
        .ok (.scalar (.flt (Real.sqrt (c / t)))) := by
      simp only [binSamples, pyBin, Scalar.num?]
      rw [if_neg (show ¬ ((Num.F (c / t)).val = 0 ∧ (Num.F (1 / 2 : ℝ)).val < 0) from fun h => hct.ne' h.1)]
      simp only [Num.val, hs]
      rfl
    have e3 : binSamples E.powf .truediv (.scalar (.flt ((y + x) / 2 + tScale E x y cred * z)))
        (.scalar (.flt (Real.sqrt (c / t)))) =
        .ok (.scalar (.flt (((y + x) / 2 + tScale E x y cred * z) / Real.sqrt (c / t)))) := by
      simp only [binSamples, pyBin, Scalar.num?]
      rw [if_neg (show ¬ (Num.F (Real.sqrt (c / t))).val = 0 from (Real.sqrt_pos.2 hct).ne')]
      rfl
    rw [e1]
    show (do
      let q ← binSamples E.powf .pow (.scalar (.flt (c / t))) (.scalar (.flt (1 / 2)))
      let x ← binSamples E.powf .truediv (.scalar (.flt ((y + x) / 2 + tScale E x y cred * z))) q
      .ok x.simplify : Except PyErr (Samples ℝ)) = _
    rw [e2]
    show (do
      let x ← binSamples E.powf .truediv (.scalar (.flt ((y + x) / 2 + tScale E x y cred * z)))
        (.scalar (.flt (Real.sqrt (c / t))))
      .ok x.simplify : Except PyErr (Samples ℝ)) = _
    rw [e3]
    rfl
  have hraw : rawObj E (.leaf (.tdist (some x) (some y) t cred) none none) 1 st =
      (.ok (.scalar (.flt (((y + x) / 2 + tScale E x y cred * z) / Real.sqrt (c / t)))),
        { st with rng := r2 }) := by
    simp only [rawObj, leafSample]
    rw [if_neg (not_lt.2 hxy.le), if_neg hxy.ne]
    exact SM.bind_ok.2 ⟨_, _, hz, SM.bind_ok.2 ⟨_, _, hq, SM.lift_ok.2 ⟨hb, rfl⟩⟩⟩
  have := (withClips_ok (E := E) (own := (none, none)) (lc := none) (rc := none)).2
    ⟨one_ne_zero, none, none, _, rfl, rfl, hraw, rfl⟩
  unfold sampleObj
  exact congrArg Prod.fst this

/-- One sample of `tdist(x, y, t)`, as a number. -/
noncomputable def tSample {σ : Type} (E : Env σ ℝ) (st : St σ ℝ) (x y t cred : ℝ) :
    Except PyErr (Samples ℝ) :=
  (sampleObj E (.leaf (.tdist (some x) (some y) t cred) none none) 1 none none st).1

/-- **C82 fails**: moving the interval by `a` moves the sample by `a / √(c/t)`, where `c` is the
chi-square number drawn, not by `a`: the centre of the interval is divided by the random scale too. -/
theorem C82_translation_fails {σ : Type} (E : Env σ ℝ) (st : St σ ℝ) (x y t cred z c a : ℝ) (hxy : x < y)
    (ht : 0 < t) (hc : 0 < c) (h : TDraw E st t z c) :
    ∃ v v', tSample E st x y t cred = .ok (.scalar (.flt v)) ∧
      tSample E st (x + a) (y + a) t cred = .ok (.scalar (.flt v')) ∧
      v' = v + a / Real.sqrt (c / t) ∧ (v' = v + a ↔ a = 0 ∨ c = t) := by
  have hs : 0 < Real.sqrt (c / t) := Real.sqrt_pos.2 (div_pos hc ht)
  refine ⟨_, _, tInterval_value E st x y t cred z c hxy ht hc h,
    tInterval_value E st (x + a) (y + a) t cred z c (by linarith) ht hc h, ?_, ?_⟩
  · have : tScale E (x + a) (y + a) cred = tScale E x y cred := by
      unfold tScale; congr 1; ring
    rw [this, ← add_div]
    congr 1
    ring
  · have : tScale E (x + a) (y + a) cred = tScale E x y cred := by
      unfold tScale; congr 1; ring
    rw [this, div_eq_iff hs.ne', add_mul, div_mul_cancel₀ _ hs.ne']
    constructor
    · intro he
      have h1 : a * (Real.sqrt (c / t) - 1) = 0 := by linarith
      rcases mul_eq_zero.1 h1 with h1 | h1
      · exact Or.inl h1
      · right
        have h2 : Real.sqrt (c / t) = 1 := by linarith
        rw [Real.sqrt_eq_one, div_eq_one_iff_eq ht.ne'] at h2
        exact h2
    · rintro (rfl | rfl)
      · ring
      · rw [div_self hc.ne', Real.sqrt_one]; ring

/-- **C82**: what does hold: stretching the interval by `k > 0` stretches the sample by `k`, and for an
interval around zero a sample is the scale times a t-distributed number `z / √(c/t)`. -/
theorem C82_scale_partial {σ : Type} (E : Env σ ℝ) (st : St σ ℝ) (x y t cred z c : ℝ) (hxy : x < y)
    (ht : 0 < t) (hc : 0 < c) (h : TDraw E st t z c) :
    (∀ k, 0 < k → ∃ v, tSample E st x y t cred = .ok (.scalar (.flt v)) ∧
      tSample E st (k * x) (k * y) t cred = .ok (.scalar (.flt (k * v)))) ∧
    (x = -y → tSample E st x y t cred = .ok (.scalar (.flt
      (y / E.ppf (1 / 2 + 1 / 2 * (cred / 100)) * (z / Real.sqrt (c / t)))))) := by
  constructor
  · intro k hk
    refine ⟨_, tInterval_value E st x y t cred z c hxy ht hc h, ?_⟩
    have h1 := tInterval_value E st (k * x) (k * y) t cred z c (mul_lt_mul_of_pos_left hxy hk) ht hc h
    rw [tSample, h1]
    have : tScale E (k * x) (k * y) cred = k * tScale E x y cred := by
      unfold tScale; rw [← mul_div_assoc]; ring
    rw [this, ← mul_div_assoc]
    congr 4
    ring
  · rintro rfl
    rw [tSample, tInterval_value E st (-y) y t cred z c hxy ht hc h]
    have : tScale E (-y) y cred = y / E.ppf (1 / 2 + 1 / 2 * (cred / 100)) := by
      unfold tScale; congr 1; ring
    rw [this, add_neg_cancel, zero_div, zero_add, mul_div_assoc]

/-! ### The hypotheses are met -/

/-- A generator with a fixed normal score and a fixed chi-square number. -/
noncomputable def tGen (z c : ℝ) : Gen Unit ℝ where
  draw p n s := match p with
    | .normal m d => (.ok (List.replicate n (.flt (m + d * z))), s)
    | .chisquare _ => (.ok (List.replicate n (.flt c)), s)
    | _ => (.error .unmodelled, s)

/-- An environment with this generator and the real power function. -/
noncomputable def tEnv (z c : ℝ) : Env Unit ℝ where
  gen := tGen z c
  exp := Real.exp
  log := Real.log
  powf a b := some (a ^ b)
  ppf _ := 1
  fmt _ := ""
  induce _ cols := .ok cols
  fuel := fun _ _ => 0

theorem tEnv_draw (z c t : ℝ) (st : St Unit ℝ) : TDraw (tEnv z c) st t z c where
  normal := ⟨(), fun _ _ => rfl, (), rfl⟩
  sqrt a _ := by simp [tEnv, Real.sqrt_eq_rpow]

/-- With score 0 and chi-square 4 times the degrees of freedom: the interval `[9, 11]` gives 5, the
interval `[-1, 1]` gives 0. -/
example (st : St Unit ℝ) : ∃ v v', tSample (tEnv 0 4) st (-1) 1 1 90 = .ok (.scalar (.flt v)) ∧
    tSample (tEnv 0 4) st (-1 + 10) (1 + 10) 1 90 = .ok (.scalar (.flt v')) ∧ v' ≠ v + 10 := by
  obtain ⟨v, v', h1, h2, -, h3⟩ := C82_translation_fails (tEnv 0 4) st (-1) 1 1 90 0 4 10 (by norm_num)
    (by norm_num) (by norm_num) (tEnv_draw 0 4 1 st)
  exact ⟨v, v', h1, h2, fun h => by rcases h3.1 h with h | h <;> norm_num at h⟩

end Verif
