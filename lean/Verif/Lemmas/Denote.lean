import Verif.Spec.Denote
import Verif.Spec.Named
import Verif.Model.IdealSource
import Verif.Lemmas.Stream
import Verif.Lemmas.Shape
import Verif.Props.Event
import Mathlib.MeasureTheory.Function.Floor

/-!
# Helper lemmas: operations on samples that are real numbers
-/

namespace Verif

open MeasureTheory Spec

/-! ### Elementwise -/

theorem IsReal.ne_bool {v : Scalar ℝ} {r : ℝ} (h : IsReal v r) : ∀ b, v ≠ .bool b := by
  rintro b rfl
  rcases h with h | ⟨z, h, -⟩ <;> cases h

/-- `float ** float` is the power of real numbers. -/
def RealPowers (powf : ℝ → ℝ → Option ℝ) : Prop :=
  ∀ x y : ℝ, (∃ k : ℕ, y = k) ∨ 0 < x ∧ 0 ≤ y → powf x y = some (x ^ y)

theorem floor_intDiv (m k : ℤ) : ⌊(m : ℝ) / k⌋ = m.fdiv k := by
  have pos : ∀ (m : ℤ) (k : ℕ), ⌊(m : ℝ) / (k : ℤ)⌋ = m.fdiv k := fun m k => by
    rw [Int.fdiv_eq_ediv_of_nonneg _ (Int.natCast_nonneg k), ← Rat.floor_intCast_div_natCast,
      ← Rat.floor_cast (α := ℝ)]
    push_cast
    rfl
  rcases Int.le_total 0 k with h | h
  · lift k to ℕ using h
    exact pos m k
  · obtain ⟨j, rfl⟩ : ∃ j : ℕ, k = -(j : ℤ) := ⟨k.natAbs, by omega⟩
    have := pos (-m) j
    rw [← Int.neg_fdiv_neg, neg_neg, ← this]
    push_cast
    rw [div_neg, neg_div]

theorem opDefined_pow_nonneg {x y : ℝ} (hd : opDefined .pow x y) : 0 ≤ y := by
  rcases hd with ⟨k, rfl⟩ | ⟨-, h⟩
  · exact Nat.cast_nonneg k
  · exact h

theorem pyBin_real {powf : ℝ → ℝ → Option ℝ} {o : BinOp} {g : ℝ → ℝ → ℝ} (ho : opMeaning o = some g)
    (hpow : o = .pow → RealPowers powf)
    {a b : Scalar ℝ} {x y : ℝ} (ha : IsReal a x) (hb : IsReal b y) (hd : opDefined o x y) :
    ∃ v, pyBin powf o a b = .ok v ∧ IsReal v (g x y) := by
  rcases ha with rfl | ⟨m, rfl, rfl⟩ <;> rcases hb with rfl | ⟨k, rfl, rfl⟩ <;>
    cases o <;> simp only [opMeaning, Option.some.injEq, reduceCtorEq] at ho <;> subst ho <;>
    first
    | exact ⟨_, if_neg hd, Or.inl rfl⟩
    | exact ⟨_, if_neg hd, Or.inr ⟨_, rfl, by rw [floor_intDiv]⟩⟩
    | exact ⟨_, rfl, Or.inl rfl⟩
    | exact ⟨_, rfl, Or.inr ⟨_, rfl, by push_cast; rfl⟩⟩
    | skip
  · refine ⟨_, (if_neg fun h => absurd h.2 (opDefined_pow_nonneg hd).not_gt).trans ?_, Or.inl rfl⟩
    have h := hpow rfl _ _ hd
    simp only [Num.val, h]
  · refine ⟨_, (if_neg fun h => absurd h.2 (opDefined_pow_nonneg hd).not_gt).trans ?_, Or.inl rfl⟩
    have h := hpow rfl _ _ hd
    simp only [Num.val, h]
  · refine ⟨_, (if_neg fun h => absurd h.2 (opDefined_pow_nonneg hd).not_gt).trans ?_, Or.inl rfl⟩
    have h := hpow rfl _ _ hd
    simp only [Num.val, h]
  · refine ⟨_, if_neg hd, Or.inr ⟨_, rfl, ?_⟩⟩
    change ((⌊(m : ℝ) / k⌋ : ℤ) : ℝ) = _
    rw [floor_intDiv]
  · have hk := opDefined_pow_nonneg hd
    have hk' : 0 ≤ k := by exact_mod_cast hk
    refine ⟨_, if_pos hk', Or.inr ⟨_, rfl, ?_⟩⟩
    change (m : ℝ) ^ (k : ℝ) = _
    lift k to ℕ using hk'
    simp

theorem npBin_real {powf : ℝ → ℝ → Option ℝ} {o : BinOp} {g : ℝ → ℝ → ℝ} (ho : opMeaning o = some g)
    (hpow : o = .pow → RealPowers powf)
    {a b : Scalar ℝ} {x y : ℝ} (ha : IsReal a x) (hb : IsReal b y) (hd : opDefined o x y) :
    ∃ v, npBin powf o a b = .ok v ∧ IsReal v (g x y) := by
  have key : npBin powf o a b = pyBin powf o a b := by
    rcases ha with rfl | ⟨m, rfl, rfl⟩ <;> rcases hb with rfl | ⟨k, rfl, rfl⟩ <;>
      cases o <;> simp only [opMeaning, reduceCtorEq] at ho <;>
      first
      | exact if_neg hd
      | rfl
      | skip
    all_goals have hk := opDefined_pow_nonneg hd
    · exact if_neg fun h => absurd h.2 hk.not_gt
    · exact if_neg fun h => absurd h.2 hk.not_gt
    · exact if_neg fun h => absurd h.2 hk.not_gt
    · exact if_neg (by push Not; exact_mod_cast hk)
  rw [key]
  exact pyBin_real ho hpow ha hb hd

/-- Reading a list of numbers entry by entry. -/
theorem forall₂_ofFn {n : ℕ} {vs : List (Scalar ℝ)} {x : Fin n → ℝ} :
    List.Forall₂ IsReal vs (List.ofFn x) ↔
      ∃ h : vs.length = n, ∀ i : Fin n, IsReal (vs[i.1]'(h ▸ i.2)) (x i) := by
  constructor
  · intro h
    have hl : vs.length = n := by rw [h.length_eq, List.length_ofFn]
    refine ⟨hl, fun i => ?_⟩
    have := h.get (hl ▸ i.2 : i.1 < vs.length) (by rw [List.length_ofFn]; exact i.2)
    simpa using this
  · rintro ⟨hl, h⟩
    refine List.forall₂_iff_get.2 ⟨by simp [hl], fun i h1 h2 => ?_⟩
    have := h ⟨i, hl ▸ h1⟩
    simpa using this

theorem reads_scalar {v : Scalar ℝ} {x : Fin 1 → ℝ} : Reads 1 (.scalar v) x ↔ IsReal v (x 0) := by
  simp [Reads, Shape, Samples.toList]

theorem reads_one {z : Samples ℝ} {x : Fin 1 → ℝ} (h : Reads 1 z x) :
    ∃ v, z = .scalar v ∧ IsReal v (x 0) := by
  obtain ⟨h1, h2⟩ := h
  cases z with
  | scalar v => exact ⟨v, rfl, by simpa [Samples.toList] using h2⟩
  | arr vs => exact absurd rfl h1.1

theorem reads_many {n : ℕ} (hn : n ≠ 1) {z : Samples ℝ} {x : Fin n → ℝ} (h : Reads n z x) :
    ∃ vs, z = .arr vs ∧ List.Forall₂ IsReal vs (List.ofFn x) := by
  obtain ⟨h1, h2⟩ := h
  cases z with
  | scalar v => exact absurd h1 hn
  | arr vs => exact ⟨vs, rfl, h2⟩

theorem reads_arr {n : ℕ} (hn : n ≠ 1) {vs : List (Scalar ℝ)} {x : Fin n → ℝ}
    (h : List.Forall₂ IsReal vs (List.ofFn x)) : Reads n (.arr vs) x :=
  ⟨⟨hn, by rw [h.length_eq, List.length_ofFn]⟩, h⟩

theorem reads_simplify {n : ℕ} {vs : List (Scalar ℝ)} {x : Fin n → ℝ}
    (h : List.Forall₂ IsReal vs (List.ofFn x)) : Reads n (Samples.simplify (.arr vs)) x :=
  ⟨shape_simplify' (by rw [h.length_eq, List.length_ofFn]), by rw [toList_simplify]; exact h⟩

theorem mapExcept_total_real {α β : Type} {f : α → Except PyErr β} {P : α → β → Prop} (as : List α)
    (h : ∀ a ∈ as, ∃ b, f a = .ok b ∧ P a b) :
    ∃ bs, mapExcept f as = .ok bs ∧ List.Forall₂ P as bs := by
  induction as with
  | nil => exact ⟨[], rfl, .nil⟩
  | cons a as ih =>
    obtain ⟨b, hb, hP⟩ := h a (by simp)
    obtain ⟨bs, hbs, hPs⟩ := ih fun a ha => h a (by simp [ha])
    refine ⟨b :: bs, ?_, .cons hP hPs⟩
    simp only [mapExcept, hb, hbs]
    rfl

theorem binSamples_real {powf : ℝ → ℝ → Option ℝ} {o : BinOp} {g : ℝ → ℝ → ℝ}
    (ho : opMeaning o = some g) (hpow : o = .pow → RealPowers powf) {n : ℕ} {a b : Samples ℝ} {x y : Fin n → ℝ} (ha : Reads n a x)
    (hb : Reads n b y) (hd : ∀ i, opDefined o (x i) (y i)) :
    ∃ z, binSamples powf o a b = .ok z ∧ Reads n z fun i => g (x i) (y i) := by
  by_cases hn : n = 1
  · subst hn
    obtain ⟨v, rfl, hv⟩ := reads_one ha
    obtain ⟨w, rfl, hw⟩ := reads_one hb
    obtain ⟨r, hr, hr'⟩ := pyBin_real ho hpow hv hw (hd 0)
    exact ⟨.scalar r, by simp only [binSamples, hr]; rfl, reads_scalar.2 hr'⟩
  · obtain ⟨vs, rfl, hv⟩ := reads_many hn ha
    obtain ⟨ws, rfl, hw⟩ := reads_many hn hb
    obtain ⟨l1, h1⟩ := forall₂_ofFn.1 hv
    obtain ⟨l2, h2⟩ := forall₂_ofFn.1 hw
    have hpair : ∀ i : Fin n, ∃ r, npBin powf o (vs[i.1]'(l1 ▸ i.2)) (ws[i.1]'(l2 ▸ i.2)) = .ok r ∧
        IsReal r (g (x i) (y i)) := fun i => npBin_real ho hpow (h1 i) (h2 i) (hd i)
    choose r hr hr' using hpair
    refine ⟨.arr (List.ofFn r), ?_, reads_arr hn (forall₂_ofFn.2 ⟨by simp, fun i => by
      simpa using hr' i⟩)⟩
    have hm : mapExcept (fun p : Scalar ℝ × Scalar ℝ => npBin powf o p.1 p.2) (vs.zip ws)
        = .ok (List.ofFn r) := by
      refine mapExcept_ok.2 (List.forall₂_iff_get.2 ⟨by simp [l1, l2], fun i hi hi' => ?_⟩)
      have hin : i < n := by simpa using hi'
      simpa using hr ⟨i, hin⟩
    simp only [binSamples, Samples.toList, broadcast, l1, l2, if_true]
    simp only [hm, bind, Except.bind]

/-- One operand is a single number. -/
theorem binSamples_real_right {powf : ℝ → ℝ → Option ℝ} {o : BinOp} {g : ℝ → ℝ → ℝ}
    (ho : opMeaning o = some g) (hpow : o = .pow → RealPowers powf) {n : ℕ} {a : Samples ℝ} {x : Fin n → ℝ}
    (ha : Reads n a x) {b : Scalar ℝ} {y : ℝ} (hb : IsReal b y) (hd : ∀ i, opDefined o (x i) y) :
    ∃ z, binSamples powf o a (.scalar b) = .ok z ∧ Reads n z fun i => g (x i) y := by
  by_cases hn : n = 1
  · subst hn
    exact binSamples_real ho hpow ha (y := fun _ => y) (reads_scalar.2 hb) hd
  · obtain ⟨vs, rfl, hv⟩ := reads_many hn ha
    obtain ⟨l1, h1⟩ := forall₂_ofFn.1 hv
    have hpair : ∀ i : Fin n, ∃ r, npBin powf o (vs[i.1]'(l1 ▸ i.2)) b = .ok r ∧
        IsReal r (g (x i) y) := fun i => npBin_real ho hpow (h1 i) hb (hd i)
    choose r hr hr' using hpair
    refine ⟨.arr (List.ofFn r), ?_, reads_arr hn (forall₂_ofFn.2 ⟨by simp, fun i => by
      simpa using hr' i⟩)⟩
    have hm : mapExcept (fun p : Scalar ℝ × Scalar ℝ => npBin powf o p.1 p.2)
        (vs.map fun v => (v, b)) = .ok (List.ofFn r) := by
      refine mapExcept_ok.2 (List.forall₂_iff_get.2 ⟨by simp [l1], fun i hi hi' => ?_⟩)
      have hin : i < n := by simpa using hi'
      simpa using hr ⟨i, hin⟩
    have hb : broadcast vs [b] = .ok (vs.map fun v => (v, b)) := by
      unfold broadcast
      rw [if_neg (by simp; omega)]
      match vs, l1 with
      | [], _ => rfl
      | [v], h => simp at h; omega
      | _ :: _ :: _, _ => rfl
    simp only [binSamples, Samples.toList, hb]
    simp only [hm, bind, Except.bind]

theorem mapFlt_real {n : ℕ} {a : Samples ℝ} {x : Fin n → ℝ} (ha : Reads n a x) (h : ℝ → ℝ) :
    ∃ z, mapFlt h a = .ok z ∧ Reads n z fun i => h (x i) := by
  by_cases hn : n = 1
  · subst hn
    obtain ⟨v, rfl, hv⟩ := reads_one ha
    refine ⟨.scalar (.flt (h (x 0))), ?_, reads_scalar.2 (Or.inl rfl)⟩
    rcases hv with rfl | ⟨z, rfl, hz⟩
    · rfl
    · rw [hz]; rfl
  · obtain ⟨vs, rfl, hv⟩ := reads_many hn ha
    obtain ⟨l1, h1⟩ := forall₂_ofFn.1 hv
    refine ⟨.arr (List.ofFn fun i => .flt (h (x i))), ?_, reads_arr hn (forall₂_ofFn.2
      ⟨by simp, fun i => by simp [IsReal]⟩)⟩
    simp only [mapFlt]
    rw [(mapExcept_ok (bs := List.ofFn fun i => Scalar.flt (h (x i)))).2]
    · rfl
    · refine List.forall₂_iff_get.2 ⟨by simp [l1], fun i hi hi' => ?_⟩
      have hin : i < n := by simpa using hi'
      have := h1 ⟨i, hin⟩
      simp only [List.get_eq_getElem, List.getElem_ofFn]
      rcases this with e | ⟨z, e, e'⟩
      · rw [e]; rfl
      · rw [e, e']; rfl

theorem unSamples_real {σ : Type} (E : Env σ ℝ) {f : UnFn} {g : ℝ → ℝ} (hf : unMeaning f = some g) {n : ℕ}
    {a : Samples ℝ} {x : Fin n → ℝ} (ha : Reads n a x) :
    ∃ z, unSamples E f a = .ok z ∧ Reads n z fun i => g (x i) := by
  cases f with
  | neg =>
    simp only [unMeaning, Option.some.injEq] at hf
    subst hf
    have hone : ∀ v r, IsReal v r → ∃ w, pyNeg v = .ok w ∧ npNeg v = .ok w ∧ IsReal w (-r) := by
      rintro v r (rfl | ⟨z, rfl, rfl⟩)
      · exact ⟨_, rfl, rfl, Or.inl rfl⟩
      · exact ⟨_, rfl, rfl, Or.inr ⟨_, rfl, by push_cast; rfl⟩⟩
    by_cases hn : n = 1
    · subst hn
      obtain ⟨v, rfl, hv⟩ := reads_one ha
      obtain ⟨w, hw, -, hw'⟩ := hone v _ hv
      exact ⟨.scalar w, by simp only [unSamples, hw]; rfl, reads_scalar.2 hw'⟩
    · obtain ⟨vs, rfl, hv⟩ := reads_many hn ha
      obtain ⟨l1, h1⟩ := forall₂_ofFn.1 hv
      have := fun i : Fin n => hone _ _ (h1 i)
      choose r hr0 hr hr' using this
      refine ⟨.arr (List.ofFn r), ?_, reads_arr hn (forall₂_ofFn.2 ⟨by simp, fun i => by
        simpa using hr' i⟩)⟩
      have hm : mapExcept npNeg vs = .ok (List.ofFn r) := by
        refine mapExcept_ok.2 (List.forall₂_iff_get.2 ⟨by simp [l1], fun i hi hi' => ?_⟩)
        have hin : i < n := by simpa using hi'
        simpa using hr ⟨i, hin⟩
      simp only [unSamples, hm]; rfl
  | floor => simp only [unMeaning, Option.some.injEq] at hf; subst hf; exact mapFlt_real ha fun x => ((⌊x⌋ : ℤ) : ℝ)
  | ceil => simp only [unMeaning, Option.some.injEq] at hf; subst hf; exact mapFlt_real ha fun x => ((⌈x⌉ : ℤ) : ℝ)
  | clipNone => simp only [unMeaning, Option.some.injEq] at hf; subst hf; exact ⟨a, rfl, ha⟩
  | exp => cases hf
  | round0 =>
    simp only [unMeaning, Option.some.injEq] at hf
    subst hf
    have hr : ∀ r : ℝ, truncZ ((roundEven (r * (10 : ℝ) ^ (0 : ℤ)) : ℝ) / (10 : ℝ) ^ (0 : ℤ)) = nearest r := by
      intro r
      rw [zpow_zero, mul_one, div_one]
      have e : ∀ z : ℤ, truncZ (z : ℝ) = z := fun z => by
        unfold truncZ; split_ifs <;> simp
      rw [e]
      unfold roundEven nearest
      simp only [← Int.even_iff]
      rcases lt_trichotomy (r - ⌊r⌋) (1 / 2) with h | h | h
      · rw [if_pos h, if_pos (Or.inl h)]
      · rw [if_neg h.not_lt, if_neg h.not_gt]
        simp [h]
      · rw [if_neg h.not_gt, if_pos h, if_neg (by push Not; exact ⟨h.le, fun e => absurd e h.ne'⟩)]
    have hone : ∀ v r, IsReal v r → roundScalar 0 v = .ok (.int (nearest r)) ∧
        roundElem 0 v = .ok (.int (nearest r)) := by
      rintro v r (rfl | ⟨z, rfl, rfl⟩)
      · rw [← hr]; exact ⟨rfl, rfl⟩
      · rw [← hr]; exact ⟨rfl, rfl⟩
    by_cases hn : n = 1
    · subst hn
      obtain ⟨v, rfl, hv⟩ := reads_one ha
      exact ⟨.scalar (.int (nearest (x 0))), by simp only [unSamples, roundSamples, (hone v _ hv).1]; rfl,
        reads_scalar.2 (Or.inr ⟨_, rfl, rfl⟩)⟩
    · obtain ⟨vs, rfl, hv⟩ := reads_many hn ha
      obtain ⟨l1, h1⟩ := forall₂_ofFn.1 hv
      refine ⟨.arr (List.ofFn fun i => .int (nearest (x i))), ?_, reads_arr hn (forall₂_ofFn.2 ⟨by simp, fun i => by
        rw [List.getElem_ofFn]; exact Or.inr ⟨_, rfl, rfl⟩⟩)⟩
      have hm : mapExcept (roundElem 0) vs = .ok (List.ofFn fun i => Scalar.int (nearest (x i))) := by
        refine mapExcept_ok.2 (List.forall₂_iff_get.2 ⟨by simp [l1], fun i hi hi' => ?_⟩)
        have hin : i < n := by simpa using hi'
        simpa using (hone _ _ (h1 ⟨i, hin⟩)).2
      match vs, l1, hm with
      | [], _, hm => simp only [unSamples, roundSamples, hm]; rfl
      | [_], h, _ => exact absurd h.symm hn
      | _ :: _ :: _, _, hm => simp only [unSamples, roundSamples, hm]; rfl

theorem safeLen_real {n : ℕ} {z : Samples ℝ} {x : Fin n → ℝ} (h : Reads n z x) : z.safeLen = n := by
  by_cases hn : n = 1
  · subst hn
    obtain ⟨v, rfl, hv⟩ := reads_one h
    rcases hv with rfl | ⟨_, rfl, -⟩ <;> rfl
  · obtain ⟨vs, rfl, hv⟩ := reads_many hn h
    exact (forall₂_ofFn.1 hv).1

theorem applyL_real (powf : ℝ → ℝ → Option ℝ) {l : Scalar ℝ} {a : ℝ} (hl : IsReal l a) {n : ℕ}
    (hn : 1 ≤ n) {z : Samples ℝ} {x : Fin n → ℝ} (h : Reads n z x) :
    ∃ z', applyL powf (some l) z = .ok z' ∧ Reads n z' fun i => max (x i) a := by
  unfold applyL
  simp only [safeLen_real h]
  by_cases h1 : n > 1
  · rw [if_pos h1]
    exact binSamples_real_right (o := .max) rfl (by simp) h hl fun _ => trivial
  · rw [if_neg h1]
    obtain rfl : n = 1 := by omega
    obtain ⟨v, rfl, hv⟩ := reads_one h
    have hlt : v.lt l = .ok (decide (x 0 < a)) := by
      rcases hv with rfl | ⟨_, rfl, hz⟩ <;> rcases hl with rfl | ⟨_, rfl, hz'⟩ <;>
        simp_all [Scalar.lt, Scalar.num?, Num.val] <;> rfl
    refine ⟨.scalar (if decide (x 0 < a) then l else v), by simp only [hlt]; rfl, reads_scalar.2 ?_⟩
    by_cases hc : x 0 < a
    · simpa [hc, max_eq_right hc.le] using hl
    · simpa [hc, max_eq_left (not_lt.1 hc)] using hv

theorem applyR_real (powf : ℝ → ℝ → Option ℝ) {l : Scalar ℝ} {a : ℝ} (hl : IsReal l a) {n : ℕ}
    (hn : 1 ≤ n) {z : Samples ℝ} {x : Fin n → ℝ} (h : Reads n z x) :
    ∃ z', applyR powf (some l) z = .ok z' ∧ Reads n z' fun i => min (x i) a := by
  unfold applyR
  simp only [safeLen_real h]
  by_cases h1 : n > 1
  · rw [if_pos h1]
    exact binSamples_real_right (o := .min) rfl (by simp) h hl fun _ => trivial
  · rw [if_neg h1]
    obtain rfl : n = 1 := by omega
    obtain ⟨v, rfl, hv⟩ := reads_one h
    have hlt : l.lt v = .ok (decide (a < x 0)) := by
      rcases hv with rfl | ⟨_, rfl, hz⟩ <;> rcases hl with rfl | ⟨_, rfl, hz'⟩ <;>
        simp_all [Scalar.lt, Scalar.num?, Num.val] <;> rfl
    refine ⟨.scalar (if decide (a < x 0) then l else v), by simp only [hlt]; rfl, reads_scalar.2 ?_⟩
    by_cases hc : a < x 0
    · simpa [hc, min_eq_right hc.le] using hl
    · simpa [hc, min_eq_left (not_lt.1 hc)] using hv

theorem applyClips_real (powf : ℝ → ℝ → Option ℝ) {lc rc : Option (Scalar ℝ)} {lo hi : Option ℝ}
    (hlo : IsBound lc lo) (hhi : IsBound rc hi) {n : ℕ} (hn : 1 ≤ n) {z : Samples ℝ} {x : Fin n → ℝ}
    (h : Reads n z x) :
    ∃ z', applyClips powf lc rc z = .ok z' ∧ Reads n z' fun i => clamp lo hi (x i) := by
  have h1 : ∃ z', applyL powf lc z = .ok z' ∧ Reads n z' fun i => clamp lo none (x i) := by
    clear hhi
    cases lc <;> cases lo <;> simp only [IsBound] at hlo
    · exact ⟨z, rfl, h⟩
    · exact applyL_real powf hlo hn h
  obtain ⟨z1, e1, r1⟩ := h1
  have h2 : ∃ z', applyR powf rc z1 = .ok z' ∧ Reads n z' fun i => clamp lo hi (x i) := by
    cases rc <;> cases hi <;> simp only [IsBound] at hhi
    · exact ⟨z1, rfl, r1⟩
    · exact applyR_real powf hhi hn r1
  obtain ⟨z2, e2, r2⟩ := h2
  exact ⟨z2, by simp only [applyClips, e1, bind, Except.bind, e2], r2⟩

theorem measurable_clamp (lo hi : Option ℝ) : Measurable (clamp lo hi) := by
  unfold clamp
  cases lo <;> cases hi <;> fun_prop

theorem measurable_opMeaning {o : BinOp} {g : ℝ → ℝ → ℝ} (h : opMeaning o = some g) :
    Measurable fun p : ℝ × ℝ => g p.1 p.2 := by
  cases o <;> simp only [opMeaning, Option.some.injEq, reduceCtorEq] at h <;> subst h <;> fun_prop

theorem measurable_nearest : Measurable nearest := by
  unfold nearest
  have hfl : Measurable fun x : ℝ => ((⌊x⌋ : ℤ) : ℝ) :=
    (measurable_from_top (f := fun z : ℤ => (z : ℝ))).comp Int.measurable_floor
  have hd : Measurable fun x : ℝ => x - ⌊x⌋ := measurable_id.sub hfl
  refine Measurable.ite ?_ Int.measurable_floor (Int.measurable_floor.add_const 1)
  refine (measurableSet_lt hd measurable_const).union
    ((measurableSet_eq_fun hd measurable_const).inter ?_)
  exact Int.measurable_floor (MeasurableSet.of_discrete (s := {z : ℤ | Even z}))

theorem measurable_unMeaning {f : UnFn} {g : ℝ → ℝ} (h : unMeaning f = some g) : Measurable g := by
  cases f <;> simp only [unMeaning, Option.some.injEq, reduceCtorEq] at h <;> subst h
  · fun_prop
  · exact (measurable_from_top (f := fun z : ℤ => (z : ℝ))).comp Int.measurable_floor
  · exact (measurable_from_top (f := fun z : ℤ => (z : ℝ))).comp Int.measurable_ceil
  · exact (measurable_from_top (f := fun z : ℤ => (z : ℝ))).comp measurable_nearest
  · fun_prop

theorem constSamples_real {v : Scalar ℝ} {r : ℝ} (h : IsReal v r) (n : ℕ) :
    Reads n (constSamples v n) fun _ => r := by
  refine reads_simplify (forall₂_ofFn.2 ⟨by simp, fun i => ?_⟩)
  simpa using h

theorem castTo_real {fmt : Scalar ℝ → String} {v : Scalar ℝ} {r : ℝ} (h : IsReal v r) {d : DT}
    (hd : d = .flt ∨ d = .int ∨ d = .bool) : IsReal (v.castTo fmt d) r := by
  rcases h with rfl | ⟨z, rfl, rfl⟩ <;> rcases hd with rfl | rfl | rfl
  · exact Or.inl rfl
  · exact Or.inl rfl
  · exact Or.inl rfl
  · exact Or.inl rfl
  · exact Or.inr ⟨z, rfl, rfl⟩
  · exact Or.inr ⟨z, rfl, rfl⟩

theorem npArray_real {fmt : Scalar ℝ → String} {vs : List (Scalar ℝ)} {rs : List ℝ}
    (h : List.Forall₂ IsReal vs rs) : List.Forall₂ IsReal (npArray fmt vs) rs := by
  have hd : ∀ (vs : List (Scalar ℝ)) (rs : List ℝ), List.Forall₂ IsReal vs rs → ∀ d : DT,
      (d = .flt ∨ d = .int ∨ d = .bool) →
      (vs.foldl (fun d v => d.join v.dt) d = .flt ∨ vs.foldl (fun d v => d.join v.dt) d = .int ∨
        vs.foldl (fun d v => d.join v.dt) d = .bool) := by
    intro vs rs h
    induction h with
    | nil => exact fun d hd => hd
    | cons hv _ ih =>
      intro d hd
      refine ih _ ?_
      rcases hv with rfl | ⟨z, rfl, -⟩ <;> rcases hd with rfl | rfl | rfl <;> simp [DT.join, Scalar.dt]
  have hc := hd vs rs h .bool (by simp)
  unfold npArray
  rw [List.forall₂_map_left_iff]
  exact h.imp fun v r hv => castTo_real hv hc

theorem gather_real {σ : Type} (E : Env σ ℝ) {n : ℕ} {ss : List (Samples ℝ)} {x : Fin n → ℝ}
    (h : List.Forall₂ (fun s r => ∃ v, s = .scalar v ∧ IsReal v r) ss (List.ofFn x)) :
    ∃ z, gather E ss = .ok z ∧ Reads n z x := by
  have hm : ∃ vs, List.Forall₂ (fun (s : Samples ℝ) v => s = .scalar v) ss vs ∧
      List.Forall₂ IsReal vs (List.ofFn x) := by
    generalize List.ofFn x = rs at h
    induction h with
    | nil => exact ⟨[], .nil, .nil⟩
    | cons hs _ ih =>
      obtain ⟨v, rfl, hv⟩ := hs
      obtain ⟨vs, hvs, hr⟩ := ih
      exact ⟨v :: vs, .cons rfl hvs, .cons hv hr⟩
  obtain ⟨vs, hvs, hr⟩ := hm
  refine ⟨_, ?_, reads_simplify (npArray_real (fmt := E.fmt) hr)⟩
  unfold gather
  rw [(mapExcept_ok (bs := vs)).2]
  · rfl
  · exact hvs.imp fun s v h => by rw [h]

end Verif
