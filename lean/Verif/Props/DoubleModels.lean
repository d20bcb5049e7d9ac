import Verif.Props.DoubleUpdate
import Verif.Lemmas.CompensatedSum

/-!
# C176: models of any form in floats of bounded size
-/

namespace Verif

open Spec

variable {σ K : Type} [Field K] [LinearOrder K] [IsStrictOrderedRing K] [FloorRing K] {f : FloatFormat} {fl fl' : K → K}

/-- A float, what it is, and its size. -/
def Matches (f : FloatFormat) (m : ℕ) (v : XVal K) (r : K) : Prop := v.Is r ∧ Moderate m r ∧ IsFloat f.p r

omit [FloorRing K] in
theorem Spec.Moderate.mono {m n : ℕ} (hmn : m ≤ n) {x : K} (h : Moderate m x) : Moderate n x :=
  h.imp_right fun h => h.mono hmn

omit [FloorRing K] in
theorem Matches.mono {m n : ℕ} (hmn : m ≤ n) {v : XVal K} {r : K} (h : Matches f m v r) : Matches f n v r :=
  ⟨h.1, h.2.1.mono hmn, h.2.2⟩

omit [FloorRing K] in
theorem Spec.Moderate.neg {m : ℕ} {x : K} (h : Moderate m x) : Moderate m (-x) := by
  rcases h with rfl | h
  · exact .inl neg_zero
  · exact .inr (by rwa [abs_neg])

omit [IsStrictOrderedRing K] [FloorRing K] in
theorem XVal.lt_is {a b : XVal K} {x y : K} (ha : a.Is x) (hb : b.Is y) : a.lt b = decide (x < y) := by
  rcases a.is_cases ha with rfl | ⟨rfl, rfl⟩ <;> rcases b.is_cases hb with rfl | ⟨rfl, rfl⟩ <;>
    simp [XVal.lt, XVal.val?]

omit [IsStrictOrderedRing K] [FloorRing K] in
theorem XVal.is_ne_nan {a : XVal K} {x : K} (ha : a.Is x) : a ≠ .nan := by
  rintro rfl
  simp [XVal.Is, XVal.val?] at ha

omit [IsStrictOrderedRing K] [FloorRing K] in
theorem XVal.max_is {a b : XVal K} {x y : K} (ha : a.Is x) (hb : b.Is y) :
    XVal.max a b = if x < y then b else a := by
  unfold XVal.max XVal.le
  have e := XVal.lt_is ha hb
  by_cases h : x < y <;> simp [h, e, XVal.is_ne_nan ha, XVal.is_ne_nan hb]

omit [IsStrictOrderedRing K] [FloorRing K] in
theorem XVal.min_is {a b : XVal K} {x y : K} (ha : a.Is x) (hb : b.Is y) :
    XVal.min a b = if y < x then b else a := by
  unfold XVal.min XVal.le
  have e := XVal.lt_is hb ha
  by_cases h : y < x <;> simp [h, e, XVal.is_ne_nan ha, XVal.is_ne_nan hb]

/-- The result of a rounded operation. -/
theorem matches_round (h : RoundsDouble f fl) (h' : RoundsTo f.p fl') (he : ∀ x, Unharmed f x → fl x = fl' x)
    {M : ℕ} (hM : f.Covers M) {v : XVal K} {z : K} (hv : v.Is z) (hz : Moderate M z) :
    Matches f M (v.toDouble f fl) (fl' z) := by
  obtain ⟨e1, e2⟩ := moderate_round h' he hM hz
  refine ⟨?_, Moderate.round h' hz, h'.float _⟩
  rw [← e1]
  exact toDouble_is_of h hv e2

/-- How the exponents of an operation follow from those of its operands. -/
def OpSpan (p : ℕ) (o : XOp) (m n M : ℕ) : Prop :=
  o = .add ∧ M = Nat.max m n + p ∨ o = .sub ∧ M = Nat.max m n + p ∨ o = .mul ∧ M = m + n ∨ o = .div ∧ M = m + n ∨
    o = .max ∧ M = Nat.max m n ∨ o = .min ∧ M = Nat.max m n

theorem opDouble_matches (hp : 1 ≤ f.p) (h : RoundsDouble f fl) (h' : RoundsTo f.p fl')
    (he : ∀ x, Unharmed f x → fl x = fl' x) {o : XOp} {m n M : ℕ} (hM : f.Covers M) {a b : XVal K} {x y v : K}
    (ha : Matches f m a x) (hb : Matches f n b y) (ho : OpSpan f.p o m n M) (hv : opFl fl' o x y = .ok v) :
    Matches f M (opDouble f fl o a b) v := by
  have ha' := ha.mono (Nat.le_max_left m n)
  have hb' := hb.mono (Nat.le_max_right m n)
  rcases ho with ⟨rfl, rfl⟩ | ⟨rfl, rfl⟩ | ⟨rfl, rfl⟩ | ⟨rfl, rfl⟩ | ⟨rfl, rfl⟩ | ⟨rfl, rfl⟩
  · cases hv
    exact matches_round h h' he hM (XVal.add_is ha.1 hb.1) (Moderate.add hp ha.2.2 hb.2.2 ha'.2.1 hb'.2.1)
  · cases hv
    have := Moderate.add hp ha.2.2 (isFloat_neg hb.2.2) ha'.2.1 hb'.2.1.neg
    rw [← sub_eq_add_neg] at this
    exact matches_round h h' he hM (XVal.sub_is ha.1 hb.1) this
  · cases hv
    exact matches_round h h' he hM (XVal.mul_is ha.1 hb.1) (ha.2.1.mul hb.2.1)
  · have hy : y ≠ 0 := by
      rintro rfl
      simp [opFl] at hv
    simp only [opFl, if_neg hy] at hv
    cases hv
    obtain rfl : b = .fin y := by
      rcases b.is_cases hb.1 with rfl | ⟨rfl, e⟩
      · rfl
      · exact absurd e hy
    refine matches_round h h' he hM (XVal.div_is ha.1 hy) ?_
    rcases ha.2.1 with h0 | h0
    · exact .inl (by rw [h0, zero_div])
    · exact .inr (by
        rw [abs_div]
        exact h0.div (hb.2.1.resolve_left hy))
  · cases hv
    simp only [opDouble, XVal.max_is ha.1 hb.1]
    by_cases hxy : x < y
    · rw [if_pos hxy, max_eq_right hxy.le]
      exact hb'
    · rw [if_neg hxy, max_eq_left (not_lt.1 hxy)]
      exact ha'
  · cases hv
    simp only [opDouble, XVal.min_is ha.1 hb.1]
    by_cases hxy : y < x
    · rw [if_pos hxy, min_eq_right hxy.le]
      exact hb'
    · rw [if_neg hxy, min_eq_left (not_lt.1 hxy)]
      exact ha'

theorem zip_matches (hp : 1 ≤ f.p) (h : RoundsDouble f fl) (h' : RoundsTo f.p fl')
    (he : ∀ x, Unharmed f x → fl x = fl' x) {o : XOp} {m n M : ℕ} (hM : f.Covers M) (ho : OpSpan f.p o m n M)
    {as bs : List (XVal K)} {xs ys vs : List K} (ha : List.Forall₂ (Matches f m) as xs)
    (hb : List.Forall₂ (Matches f n) bs ys) (hv : mapExcept (fun q => opFl fl' o q.1 q.2) (xs.zip ys) = .ok vs) :
    List.Forall₂ (Matches f M) (List.zipWith (opDouble f fl o) as bs) vs := by
  induction ha generalizing bs ys vs with
  | nil =>
    simp only [List.zip_nil_left, mapExcept] at hv
    cases hv
    simp
  | cons a1 a2 ih =>
    cases hb with
    | nil =>
      simp only [List.zip_nil_right, mapExcept] at hv
      cases hv
      simp
    | cons b1 b2 =>
      rw [List.zip_cons_cons] at hv
      have hf := mapExcept_ok.1 hv
      cases hf with
      | cons h1 h2 =>
        exact .cons (opDouble_matches hp h h' he hM a1 b1 ho h1) (ih b2 (mapExcept_ok.2 h2))

theorem sampleDouble_matches (hp : 1 ≤ f.p) (h : RoundsDouble f fl) (h' : RoundsTo f.p fl')
    (he : ∀ x, Unharmed f x → fl x = fl' x) (E : Env σ K) (ds : ℕ → Obj (St σ K) K) (n : ℕ) {B : ℕ → ℕ}
    (hB : ∀ k s s' z, sampleObj E (ds k) n none none s = (.ok z, s') →
      ∀ v ∈ z.toList, ∃ x, v = .flt x ∧ Moderate (B k) x)
    {e : XExpr K} {M : ℕ} (hs : Spans f.p B e M) (hM : f.Covers M) {s s' : St σ K} {rs : List K}
    (hr : sampleFl fl' E ds n e s = (.ok rs, s')) :
    ∃ vs, sampleDouble f fl E ds n e s = (.ok vs, s') ∧ List.Forall₂ (Matches f M) vs rs := by
  have bin : ∀ {o : XOp} {a b : XExpr K} {m k M : ℕ}, f.Covers M → OpSpan f.p o m k M →
      (∀ {s s' : St σ K} {rs : List K}, sampleFl fl' E ds n a s = (.ok rs, s') →
        ∃ vs, sampleDouble f fl E ds n a s = (.ok vs, s') ∧ List.Forall₂ (Matches f m) vs rs) →
      (∀ {s s' : St σ K} {rs : List K}, sampleFl fl' E ds n b s = (.ok rs, s') →
        ∃ vs, sampleDouble f fl E ds n b s = (.ok vs, s') ∧ List.Forall₂ (Matches f k) vs rs) →
      ∀ {s s' : St σ K} {rs : List K}, sampleFl fl' E ds n (.bin o a b) s = (.ok rs, s') →
        ∃ vs, sampleDouble f fl E ds n (.bin o a b) s = (.ok vs, s') ∧ List.Forall₂ (Matches f M) vs rs := by
    intro o a b m k M hM ho iha ihb s s' rs hr
    simp only [sampleFl, SM.bind_ok, SM.lift_ok] at hr
    obtain ⟨r1, s1, k1, r2, s2, k2, k3, rfl⟩ := hr
    obtain ⟨v1, d1, w1⟩ := iha k1
    obtain ⟨v2, d2, w2⟩ := ihb k2
    refine ⟨_, ?_, zip_matches hp h h' he hM ho w1 w2 k3⟩
    simp only [sampleDouble, SM.bind_ok]
    exact ⟨_, s1, d1, _, _, d2, rfl⟩
  induction hs generalizing s s' rs with
  | src k =>
    simp only [sampleFl, SM.bind_ok, SM.lift_ok, Except.bind_ok_iff] at hr
    obtain ⟨z, s1, h1, ⟨ys, h2, h3⟩, rfl⟩ := hr
    cases h3
    have hz := floats_ok h2
    have hw : ∀ y ∈ ys, Moderate (B k) y := by
      intro y hy
      obtain ⟨x, e1, e2⟩ := hB k s s1 z h1 (.flt y) (by rw [hz]; exact List.mem_map_of_mem hy)
      cases e1
      exact e2
    refine ⟨ys.map fun x => (XVal.fin x).toDouble f fl, ?_, ?_⟩
    · simp only [sampleDouble, SM.bind_ok, SM.lift_ok, Except.bind_ok_iff]
      exact ⟨z, s1, h1, ⟨ys, h2, rfl⟩, rfl⟩
    · rw [List.forall₂_map_left_iff, List.forall₂_map_right_iff]
      exact List.forall₂_same.2 fun y hy => matches_round h h' he hM rfl (hw y hy)
  | @num x m hx =>
    obtain ⟨rfl, rfl⟩ := SM.pure_ok.1 hr
    refine ⟨_, rfl, ?_⟩
    have := matches_round h h' he hM (v := XVal.fin x) rfl hx
    exact List.forall₂_iff_get.2 ⟨by simp, fun i h1 h2 => by simpa using this⟩
  | @neg e m he' ih =>
    simp only [sampleFl, SM.bind_ok] at hr
    obtain ⟨r1, s1, k1, k3⟩ := hr
    obtain ⟨rfl, rfl⟩ := SM.pure_ok.1 k3
    obtain ⟨v1, d1, w1⟩ := ih hM k1
    refine ⟨v1.map XVal.neg, SM.bind_ok.2 ⟨_, _, d1, rfl⟩, ?_⟩
    rw [List.forall₂_map_left_iff, List.forall₂_map_right_iff]
    exact w1.imp fun v r hv => ⟨XVal.neg_is hv.1, hv.2.1.neg, isFloat_neg hv.2.2⟩
  | @add a b m k ha hb iha ihb =>
    exact bin hM (.inl ⟨rfl, rfl⟩) (iha (Covers.mono ((Nat.le_max_left m k).trans (Nat.le_add_right _ _)) hM))
      (ihb (Covers.mono ((Nat.le_max_right m k).trans (Nat.le_add_right _ _)) hM)) hr
  | @sub a b m k ha hb iha ihb =>
    exact bin hM (.inr (.inl ⟨rfl, rfl⟩)) (iha (Covers.mono ((Nat.le_max_left m k).trans (Nat.le_add_right _ _)) hM))
      (ihb (Covers.mono ((Nat.le_max_right m k).trans (Nat.le_add_right _ _)) hM)) hr
  | @mul a b m k ha hb iha ihb =>
    exact bin hM (.inr (.inr (.inl ⟨rfl, rfl⟩))) (iha (Covers.mono (by omega) hM)) (ihb (Covers.mono (by omega) hM)) hr
  | @div a b m k ha hb iha ihb =>
    exact bin hM (.inr (.inr (.inr (.inl ⟨rfl, rfl⟩)))) (iha (Covers.mono (by omega) hM))
      (ihb (Covers.mono (by omega) hM)) hr
  | @max a b m k ha hb iha ihb =>
    exact bin hM (.inr (.inr (.inr (.inr (.inl ⟨rfl, rfl⟩))))) (iha (Covers.mono (Nat.le_max_left m k) hM))
      (ihb (Covers.mono (Nat.le_max_right m k) hM)) hr
  | @min a b m k ha hb iha ihb =>
    exact bin hM (.inr (.inr (.inr (.inr (.inr ⟨rfl, rfl⟩))))) (iha (Covers.mono (Nat.le_max_left m k) hM))
      (ihb (Covers.mono (Nat.le_max_right m k) hM)) hr
  | @lclip e c m k he' hc ih =>
    simp only [sampleFl, SM.bind_ok] at hr
    obtain ⟨r1, s1, k1, k3⟩ := hr
    obtain ⟨rfl, rfl⟩ := SM.pure_ok.1 k3
    obtain ⟨v1, d1, w1⟩ := ih (Covers.mono (Nat.le_max_left m k) hM) k1
    have ec := (moderate_round h' he (Covers.mono (Nat.le_max_right m k) hM) hc).1
    refine ⟨v1.map (XVal.lclip · (fl c)), SM.bind_ok.2 ⟨_, _, d1, rfl⟩, ?_⟩
    rw [List.forall₂_map_left_iff, List.forall₂_map_right_iff]
    refine w1.imp fun v r hv => ?_
    simp only [XVal.lclip, ec, XVal.lt_is hv.1 (show (XVal.fin (fl' c)).Is (fl' c) from rfl), decide_eq_true_eq]
    by_cases hlt : r < fl' c
    · rw [if_pos hlt, if_pos hlt]
      exact ⟨rfl, (Moderate.round h' hc).mono (Nat.le_max_right _ _), h'.float _⟩
    · rw [if_neg hlt, if_neg hlt]
      exact hv.mono (Nat.le_max_left _ _)
  | @rclip e c m k he' hc ih =>
    simp only [sampleFl, SM.bind_ok] at hr
    obtain ⟨r1, s1, k1, k3⟩ := hr
    obtain ⟨rfl, rfl⟩ := SM.pure_ok.1 k3
    obtain ⟨v1, d1, w1⟩ := ih (Covers.mono (Nat.le_max_left m k) hM) k1
    have ec := (moderate_round h' he (Covers.mono (Nat.le_max_right m k) hM) hc).1
    refine ⟨v1.map (XVal.rclip · (fl c)), SM.bind_ok.2 ⟨_, _, d1, rfl⟩, ?_⟩
    rw [List.forall₂_map_left_iff, List.forall₂_map_right_iff]
    refine w1.imp fun v r hv => ?_
    simp only [XVal.rclip, ec, XVal.lt_is (show (XVal.fin (fl' c)).Is (fl' c) from rfl) hv.1, decide_eq_true_eq]
    by_cases hlt : fl' c < r
    · rw [if_pos hlt, if_pos hlt]
      exact ⟨rfl, (Moderate.round h' hc).mono (Nat.le_max_right _ _), h'.float _⟩
    · rw [if_neg hlt, if_neg hlt]
      exact hv.mono (Nat.le_max_left _ _)

/-- **C176.** For each correct rounding into a format with limited exponents there is a correct rounding without limits
such that every model, subtractions and changes of sign included, whose exponents, read off its form, stay within the
format has the same samples with both: whenever no division by zero occurs without limits, no sample is infinite or `nan`
with them, each has the value it has without them, and is zero or within the bounds. -/
theorem C176_same (hp : 1 ≤ f.p) (h : RoundsDouble f fl) :
    ∃ fl' : K → K, RoundsTo f.p fl' ∧
      ∀ (E : Env σ K) (ds : ℕ → Obj (St σ K) K) (n : ℕ) (B : ℕ → ℕ),
      (∀ k s s' z, sampleObj E (ds k) n none none s = (.ok z, s') →
        ∀ v ∈ z.toList, ∃ x, v = .flt x ∧ Moderate (B k) x) →
      ∀ (e : XExpr K) (M : ℕ), Spans f.p B e M → f.Covers M → ∀ (s s' : St σ K) (rs : List K),
      sampleFl fl' E ds n e s = (.ok rs, s') →
      ∃ vs : List (XVal K), sampleDouble f fl E ds n e s = (.ok vs, s') ∧ vs.map XVal.val? = rs.map some ∧
        ∀ r ∈ rs, Moderate M r := by
  obtain ⟨fl', h', he⟩ := h.unlimited hp
  refine ⟨fl', h', fun E ds n B hB e M hs hM s s' rs hr => ?_⟩
  obtain ⟨vs, h1, h2⟩ := sampleDouble_matches hp h h' he E ds n hB hs hM hr
  refine ⟨vs, h1, ?_⟩
  clear h1 hr
  induction h2 with
  | nil => simp
  | cons a _ ih =>
    refine ⟨by rw [List.map_cons, List.map_cons, ih.1, a.1], ?_⟩
    rintro r (_ | ⟨_, hr⟩)
    · exact a.2.1
    · exact ih.2 r hr

/-- Whole numbers of up to `p` digits are kept. -/
theorem toDouble_whole (h : RoundsDouble f fl) (hlow : f.low ≤ 0) (htop : (f.p : ℤ) < f.top) {v : XVal K} {r : K} {m : ℕ}
    (hm : m ≤ 2 ^ f.p) (hv : v.val? = some r) (hr : ∃ z : ℤ, r = (z : K) ∧ |z| ≤ m) :
    fl r = r ∧ (v.toDouble f fl).val? = some r := by
  obtain ⟨z, rfl, hz⟩ := hr
  have hg : OnGrid f (z : K) := by
    obtain ⟨j, hj⟩ := grid_of_le (K := K) (m := z) hlow
    exact ⟨j, by rw [← hj]; simp⟩
  have e : fl (z : K) = z := h.exact ⟨isFloat_whole hz hm, hg⟩
  refine ⟨e, ?_⟩
  have hb : |(z : K)| ≤ 2 ^ f.p := by
    have : |z| ≤ 2 ^ f.p := hz.trans (by exact_mod_cast hm)
    exact_mod_cast this
  have := toDouble_is_of h (x := (z : K)) hv (by
    rw [e, ← zpow_natCast] at *
    exact hb.trans_lt (zpow_lt_zpow_right₀ one_lt_two htop))
  rw [e] at this
  exact this

theorem opDouble_whole (h : RoundsDouble f fl) (hlow : f.low ≤ 0) (htop : (f.p : ℤ) < f.top) (h' : RoundsTo f.p fl')
    {o : XOp} {m m' M : ℕ} {a b : XVal K} {r r' v : K}
    (ha : a.val? = some r ∧ ∃ z : ℤ, r = (z : K) ∧ |z| ≤ m) (hb : b.val? = some r' ∧ ∃ z : ℤ, r' = (z : K) ∧ |z| ≤ m')
    (hM : WholeOp o m m' M) (hMp : M ≤ 2 ^ f.p) (hv : opFl fl' o r r' = .ok v) :
    (opDouble f fl o a b).val? = some v ∧ ∃ z : ℤ, v = (z : K) ∧ |z| ≤ M := by
  obtain ⟨v', e1, e2, e3⟩ := opFl_whole h' ha.1 hb.1 ha.2 hb.2 hM hMp
  rw [hv] at e1
  cases e1
  refine ⟨?_, e3⟩
  cases o with
  | max => exact e2
  | min => exact e2
  | add => exact (toDouble_whole h hlow htop hMp e2 e3).2
  | sub => exact (toDouble_whole h hlow htop hMp e2 e3).2
  | mul => exact (toDouble_whole h hlow htop hMp e2 e3).2
  | div => exact (toDouble_whole h hlow htop hMp e2 e3).2

theorem zipDouble_whole (h : RoundsDouble f fl) (hlow : f.low ≤ 0) (htop : (f.p : ℤ) < f.top) (h' : RoundsTo f.p fl')
    {o : XOp} {m m' M : ℕ} {as bs : List (XVal K)} {xs ys vs : List K} (ha : AllWhole m as xs) (hb : AllWhole m' bs ys)
    (hM : WholeOp o m m' M) (hMp : M ≤ 2 ^ f.p)
    (hv : mapExcept (fun q => opFl fl' o q.1 q.2) (xs.zip ys) = .ok vs) :
    AllWhole M (List.zipWith (opDouble f fl o) as bs) vs := by
  unfold AllWhole at *
  induction ha generalizing bs ys vs with
  | nil =>
    simp only [List.zip_nil_left, mapExcept] at hv
    cases hv
    simp
  | cons a1 a2 ih =>
    cases hb with
    | nil =>
      simp only [List.zip_nil_right, mapExcept] at hv
      cases hv
      simp
    | cons b1 b2 =>
      rw [List.zip_cons_cons] at hv
      have hf := mapExcept_ok.1 hv
      cases hf with
      | cons h1 h2 =>
        exact .cons (opDouble_whole h hlow htop h' a1 b1 hM hMp h1) (ih b2 (mapExcept_ok.2 h2))

theorem sampleDouble_whole (h : RoundsDouble f fl) (hlow : f.low ≤ 0) (htop : (f.p : ℤ) < f.top) (h' : RoundsTo f.p fl')
    (E : Env σ K) (ds : ℕ → Obj (St σ K) K) (n : ℕ) (B : ℕ → ℕ)
    (hw : ∀ k s s' z, sampleObj E (ds k) n none none s = (.ok z, s') →
      ∀ v ∈ z.toList, ∃ x : ℤ, v = .flt (x : K) ∧ |x| ≤ B k)
    {e : XExpr K} {m : ℕ} (hc : Whole f.p B e m) {s s' : St σ K} {rs : List K}
    (hr : sampleFl fl' E ds n e s = (.ok rs, s')) :
    ∃ vs, sampleDouble f fl E ds n e s = (.ok vs, s') ∧ AllWhole m vs rs := by
  induction hc generalizing s s' rs with
  | src k hk =>
    simp only [sampleFl, SM.bind_ok, SM.lift_ok, Except.bind_ok_iff] at hr
    obtain ⟨z, s1, h1, ⟨ys, h2, h3⟩, rfl⟩ := hr
    cases h3
    have hz := floats_ok h2
    refine ⟨ys.map fun x => (XVal.fin x).toDouble f fl, ?_, ?_⟩
    · simp only [sampleDouble, SM.bind_ok, SM.lift_ok, Except.bind_ok_iff]
      exact ⟨z, s1, h1, ⟨ys, h2, rfl⟩, rfl⟩
    · unfold AllWhole
      rw [List.forall₂_map_left_iff, List.forall₂_map_right_iff]
      refine List.forall₂_same.2 fun y hy => ?_
      obtain ⟨x, e1, e2⟩ := hw k s s1 z h1 (.flt y) (by rw [hz]; exact List.mem_map_of_mem hy)
      cases e1
      rw [h'.exact (isFloat_whole e2 hk)]
      exact ⟨(toDouble_whole h hlow htop hk rfl ⟨x, rfl, e2⟩).2, x, rfl, e2⟩
  | num z hz =>
    obtain ⟨rfl, rfl⟩ := SM.pure_ok.1 hr
    refine ⟨_, rfl, ?_⟩
    have hz' : |z| ≤ (z.natAbs : ℤ) := by rw [Int.natCast_natAbs]
    have t := (toDouble_whole (v := .fin (z : K)) h hlow htop hz rfl ⟨z, rfl, hz'⟩).2
    rw [h'.exact (isFloat_whole hz' hz)]
    exact List.forall₂_iff_get.2 ⟨by simp, fun i h1 h2 => by
      simp only [List.get_eq_getElem, List.getElem_replicate]
      exact ⟨t, z, rfl, hz'⟩⟩
  | neg _ ih =>
    simp only [sampleFl, SM.bind_ok] at hr
    obtain ⟨r1, s1, k1, k3⟩ := hr
    obtain ⟨rfl, rfl⟩ := SM.pure_ok.1 k3
    obtain ⟨v1, d1, w1⟩ := ih k1
    refine ⟨v1.map XVal.neg, SM.bind_ok.2 ⟨_, _, d1, rfl⟩, map_whole w1 _ _ ?_⟩
    intro a z ha hz
    exact ⟨XVal.val_neg ha, -z, by push_cast; rfl, by rwa [abs_neg]⟩
  | bin _ _ hM hMp iha ihb =>
    simp only [sampleFl, SM.bind_ok, SM.lift_ok] at hr
    obtain ⟨r1, s1, k1, r2, s2, k2, k3, rfl⟩ := hr
    obtain ⟨v1, d1, w1⟩ := iha k1
    obtain ⟨v2, d2, w2⟩ := ihb k2
    refine ⟨_, ?_, zipDouble_whole h hlow htop h' w1 w2 hM hMp k3⟩
    simp only [sampleDouble, SM.bind_ok]
    exact ⟨_, s1, d1, _, _, d2, rfl⟩
  | @lclip _ m c _ hcp ih =>
    simp only [sampleFl, SM.bind_ok] at hr
    obtain ⟨r1, s1, k1, k3⟩ := hr
    obtain ⟨rfl, rfl⟩ := SM.pure_ok.1 k3
    obtain ⟨v1, d1, w1⟩ := ih k1
    have hc' : |c| ≤ (c.natAbs : ℤ) := by rw [Int.natCast_natAbs]
    have e := (toDouble_whole (v := .fin (c : K)) h hlow htop hcp rfl ⟨c, rfl, hc'⟩).1
    have e' : fl' (c : K) = c := h'.exact (isFloat_whole hc' hcp)
    refine ⟨v1.map (XVal.lclip · (fl c)), SM.bind_ok.2 ⟨_, _, d1, rfl⟩, map_whole w1 _ _ ?_⟩
    intro a z ha hz
    simp only [e, e', XVal.lclip, XVal.lt_is ha (show (XVal.fin (c : K)).Is (c : K) from rfl), decide_eq_true_eq]
    by_cases hlt : (z : K) < c
    · rw [if_pos hlt, if_pos hlt]
      exact ⟨rfl, c, rfl, by push_cast; exact hc'.trans (by simp)⟩
    · rw [if_neg hlt, if_neg hlt]
      exact ⟨ha, z, rfl, hz.trans (by push_cast; exact le_max_left _ _)⟩
  | @rclip _ m c _ hcp ih =>
    simp only [sampleFl, SM.bind_ok] at hr
    obtain ⟨r1, s1, k1, k3⟩ := hr
    obtain ⟨rfl, rfl⟩ := SM.pure_ok.1 k3
    obtain ⟨v1, d1, w1⟩ := ih k1
    have hc' : |c| ≤ (c.natAbs : ℤ) := by rw [Int.natCast_natAbs]
    have e := (toDouble_whole (v := .fin (c : K)) h hlow htop hcp rfl ⟨c, rfl, hc'⟩).1
    have e' : fl' (c : K) = c := h'.exact (isFloat_whole hc' hcp)
    refine ⟨v1.map (XVal.rclip · (fl c)), SM.bind_ok.2 ⟨_, _, d1, rfl⟩, map_whole w1 _ _ ?_⟩
    intro a z ha hz
    simp only [e, e', XVal.rclip, XVal.lt_is (show (XVal.fin (c : K)).Is (c : K) from rfl) ha, decide_eq_true_eq]
    by_cases hlt : (c : K) < z
    · rw [if_pos hlt, if_pos hlt]
      exact ⟨rfl, c, rfl, by push_cast; exact hc'.trans (by simp)⟩
    · rw [if_neg hlt, if_neg hlt]
      exact ⟨ha, z, rfl, hz.trans (by push_cast; exact le_max_left _ _)⟩

/-- **C176**: models of whole numbers held as floats that stay within `2 ^ p` are computed without any rounding error, in every
format that has these numbers. -/
theorem C176_whole (hp : 1 ≤ f.p) (hlow : f.low ≤ 0) (htop : (f.p : ℤ) < f.top) (h : RoundsDouble f fl) (E : Env σ K)
    (hE : E.gen.Lawful) (ds : ℕ → Obj (St σ K) K) (hd : ∀ k, (ds k).Regular) (n : ℕ) (B : ℕ → ℕ)
    (hw : ∀ k s s' z, sampleObj E (ds k) n none none s = (.ok z, s') →
      ∀ v ∈ z.toList, ∃ x : ℤ, v = .flt (x : K) ∧ |x| ≤ B k)
    (e : XExpr K) (m : ℕ) (hc : Whole f.p B e m) (s s' : St σ K) (z : Samples K)
    (hz : sampleObj E (toObj ds e) n none none s = (.ok z, s')) :
    ∃ (vs : List (XVal K)) (rs : List K), sampleDouble f fl E ds n e s = (.ok vs, s') ∧
      vs.map XVal.val? = rs.map some ∧ z.toList = rs.map .flt := by
  obtain ⟨fl', h', -⟩ := h.unlimited hp
  obtain ⟨rs, h1, h2⟩ := C139_whole h' E hE ds hd n B hw e m hc s s' z hz
  obtain ⟨vs, d1, d2⟩ := sampleDouble_whole h hlow htop h' E ds n B hw hc h1
  refine ⟨vs, rs, d1, ?_, h2⟩
  unfold AllWhole at d2
  clear d1 h1 h2
  induction d2 with
  | nil => rfl
  | cons a _ ih => rw [List.map_cons, List.map_cons, ih, a.1]

/-- **C176** (parts that become infinite may cancel): `x * x - x * x` for a constant `x = 2^600` is `nan` for floats,
although the exact value is 0. -/
theorem C176_infinite_fails :
    let ds : ℕ → Obj (St ℕ ℚ) ℚ := fun _ => .leaf (.const (.flt (2 ^ 600))) none none
    let e : XExpr ℚ := .bin .sub (.bin .mul (.src 0) (.src 0)) (.bin .mul (.src 0) (.src 0))
    RoundsDouble binary64 (roundDouble (K := ℚ) binary64) ∧
    (sampleObj demoEnv (toObj ds e) 2 none none (demoSt 0)).1 = .ok (.arr [.flt 0, .flt 0]) ∧
    (sampleDouble binary64 (roundDouble binary64) demoEnv ds 2 e (demoSt 0)).1 = .ok [.nan, .nan] := by
  refine ⟨roundDouble_rounds (by decide), ?_, ?_⟩ <;> decide +kernel

/-- The hypotheses are met: `(2 - x) * -x`, clipped at 7 from below, for a constant `x = 5`. -/
example :
    let d : Obj (St ℕ ℚ) ℚ := .leaf (.const (.flt 5)) none none
    let e : XExpr ℚ := .lclip (.bin .mul (.bin .sub (.num 2) (.src 0)) (.neg (.src 0))) 7
    Spans 53 (fun _ => 3) e 59 ∧ binary64.Covers 59 ∧ (5 : ℤ) ≤ 2 ^ 3 ∧
    (sampleDouble binary64 (roundDouble binary64) demoEnv (fun _ => d) 2 e (demoSt 0)).1 =
      .ok [.fin 15, .fin 15] := by
  refine ⟨?_, ⟨by decide, by decide⟩, by norm_num, by decide +kernel⟩
  exact .lclip (m := 59) (n := 3) (.mul (m := 56) (n := 3) (.sub (m := 1) (n := 3)
    (.num (.inr ⟨by norm_num, by norm_num⟩)) (.src 0)) (.neg (.src 0))) (.inr ⟨by norm_num, by norm_num⟩)

/-- `(2 - x) * 3` for a constant `x = 5`: whole numbers throughout. -/
example :
    let d : Obj (St ℕ ℚ) ℚ := .leaf (.const (.flt 5)) none none
    let e : XExpr ℚ := .bin .mul (.bin .sub (.num ((2 : ℤ) : ℚ)) (.src 0)) (.num ((3 : ℤ) : ℚ))
    binary64.low ≤ 0 ∧ (binary64.p : ℤ) < binary64.top ∧ Whole binary64.p (fun _ => 5) e 21 ∧
    (sampleDouble binary64 (roundDouble binary64) demoEnv (fun _ => d) 2 e (demoSt 0)).1 =
      .ok [.fin (-9), .fin (-9)] := by
  refine ⟨by decide, by decide, ?_, by decide +kernel⟩
  exact .bin (m := 7) (.bin (.num 2 (by norm_num [binary64])) (.src 0 (by norm_num [binary64])) (by simp [WholeOp])
    (by norm_num [binary64])) (.num 3 (by norm_num [binary64])) (by simp [WholeOp]) (by norm_num [binary64])

end Verif
