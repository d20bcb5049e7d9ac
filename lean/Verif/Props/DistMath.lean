import Verif.Model.DistMath
import Verif.Spec.Rounding
import Verif.Lemmas.Round
import Verif.Props.Arith

/-! # C83, C84: rounding, `exp` and `log` of distributions; growth rates that are distributions -/

namespace Verif

section
variable {σ K : Type} [Field K] [LinearOrder K] [FloorRing K]

/-! ## Sampling one function node -/

theorem sample_un (E : Env σ K) (f : UnFn) (d : Obj (St σ K) K) (n : ℕ) (s s' : St σ K)
    (z : Samples K) :
    sampleObj E (.un f d) n none none s = (.ok z, s') ↔
      ∃ x, sampleObj E d n none none s = (.ok x, s') ∧ unSamples E f x = .ok z := by
  unfold sampleObj
  rw [withClips_ok]
  constructor
  · rintro ⟨hn, l, r, w, h1, h2, h3, h4⟩
    cases h1; cases h2
    simp only [rawObj, SM.bind_ok, SM.lift_ok] at h3
    obtain ⟨x, s1, h5, h6, rfl⟩ := h3
    cases h4
    exact ⟨x, h5, h6⟩
  · rintro ⟨x, h1, h2⟩
    refine ⟨(withClips_ok.1 h1).1, none, none, z, rfl, rfl, ?_, rfl⟩
    simp only [rawObj, SM.bind_ok, SM.lift_ok]
    exact ⟨x, s', h1, h2, rfl⟩

theorem sample_bin (E : Env σ K) (f : BinFn) (d e : Obj (St σ K) K) (n : ℕ) (s s' : St σ K)
    (z : Samples K) :
    sampleObj E (.bin f d e) n none none s = (.ok z, s') ↔
      ∃ x s1 y, sampleObj E d n none none s = (.ok x, s1) ∧
        sampleObj E e n none none s1 = (.ok y, s') ∧ binFnSamples E f x y = .ok z := by
  unfold sampleObj
  rw [withClips_ok]
  constructor
  · rintro ⟨hn, l, r, w, h1, h2, h3, h4⟩
    cases h1; cases h2
    simp only [rawObj, SM.bind_ok, SM.lift_ok] at h3
    obtain ⟨x, s1, h5, y, s2, h6, h7, rfl⟩ := h3
    cases h4
    exact ⟨x, s1, y, h5, h6, h7⟩
  · rintro ⟨x, s1, y, h1, h2, h3⟩
    refine ⟨(withClips_ok.1 h1).1, none, none, z, rfl, rfl, ?_, rfl⟩
    simp only [rawObj, SM.bind_ok, SM.lift_ok]
    exact ⟨x, s1, h1, y, s', h2, h3, rfl⟩

/-- Whatever the bounds, if a node without clips of its own can be sampled with them, then also
without. -/
theorem sample_unbounded {E : Env σ K} {d : Obj (St σ K) K} (hd : d.clips = (none, none)) {n : ℕ}
    {lc rc : Option (Scalar K)} {s s' : St σ K} {z : Samples K}
    (h : sampleObj E d n lc rc s = (.ok z, s')) :
    ∃ z', sampleObj E d n none none s = (.ok z', s') := by
  obtain ⟨hn, l, r, w, -, -, h3, -⟩ := withClips_ok.1 h
  refine ⟨w, withClips_ok.2 ⟨hn, none, none, w, ?_, ?_, h3, rfl⟩⟩ <;> rw [hd] <;> rfl

theorem sample_litN (E : Env σ K) (v : Scalar K) (n : ℕ) (hn : n ≠ 0) (s s' : St σ K) (z : Samples K) :
    sampleObj E (.lit v) n none none s = (.ok z, s') ↔ z = constSamples v n ∧ s' = s := by
  unfold sampleObj
  rw [withClips_ok]
  constructor
  · rintro ⟨-, l, r, w, h1, h2, h3, h4⟩
    cases h1; cases h2
    obtain ⟨rfl, rfl⟩ := SM.pure_ok.1 h3
    cases h4
    exact ⟨rfl, rfl⟩
  · rintro ⟨rfl, rfl⟩
    exact ⟨hn, none, none, _, rfl, rfl, rfl, rfl⟩

theorem sample_constN (E : Env σ K) (v : Scalar K) (n : ℕ) (hn : n ≠ 0) (s s' : St σ K)
    (z : Samples K) :
    sampleObj E (.leaf (.const v) none none) n none none s = (.ok z, s') ↔
      z = constSamples v n ∧ s' = s := by
  unfold sampleObj
  rw [withClips_ok]
  constructor
  · rintro ⟨-, l, r, w, h1, h2, h3, h4⟩
    cases h1; cases h2
    obtain ⟨rfl, rfl⟩ := SM.pure_ok.1 h3
    cases h4
    exact ⟨rfl, rfl⟩
  · rintro ⟨rfl, rfl⟩
    exact ⟨hn, none, none, _, rfl, rfl, rfl, rfl⟩

theorem constSamples_two (v : Scalar K) (n : ℕ) (hn : 2 ≤ n) :
    constSamples v n = .arr (List.replicate n v) := by
  obtain ⟨m, rfl⟩ : ∃ m, n = m + 2 := ⟨n - 2, by omega⟩
  rfl

/-- One number in, one number out; several in, several out. -/
def SameForm (x z : Samples K) : Prop := (∃ v, x = .scalar v) ↔ ∃ v, z = .scalar v

theorem mapFlt_ok {f : K → K} {x z : Samples K} :
    mapFlt f x = .ok z ↔ SameForm x z ∧
      List.Forall₂ (fun a v => ∃ y, a.val? = some y ∧ v = .flt (f y)) x.toList z.toList := by
  have key : ∀ a v : Scalar K, (match a.num? with
      | some x => Except.ok (Scalar.flt (f x.val))
      | none => Except.error PyErr.typeError) = .ok v ↔ ∃ y, a.val? = some y ∧ v = .flt (f y) := by
    intro a v
    unfold Scalar.val?
    cases a.num? with
    | none => simp
    | some x =>
      simp only [Option.map_some, Option.some.injEq, Except.ok.injEq, exists_eq_left']
      exact eq_comm
  cases x with
  | scalar a =>
    simp only [mapFlt, Except.bind_ok_iff]
    constructor
    · rintro ⟨w, hw1, hw⟩
      obtain ⟨y, hy, rfl⟩ := (key _ _).1 hw1
      cases hw
      exact ⟨⟨fun _ => ⟨_, rfl⟩, fun _ => ⟨_, rfl⟩⟩, .cons ⟨y, hy, rfl⟩ .nil⟩
    · rintro ⟨h1, h2⟩
      obtain ⟨v, rfl⟩ := h1.1 ⟨_, rfl⟩
      cases h2 with
      | cons h3 _ => exact ⟨v, (key _ _).2 h3, rfl⟩
  | arr vs =>
    simp only [mapFlt, Except.bind_ok_iff, mapExcept_ok]
    constructor
    · rintro ⟨w, hw, h⟩
      cases h
      refine ⟨⟨fun h => absurd h (by simp), fun h => absurd h (by simp)⟩, ?_⟩
      exact hw.imp fun a b hab => (key a b).1 hab
    · rintro ⟨h1, h2⟩
      cases z with
      | scalar v => exact absurd (h1.2 ⟨v, rfl⟩) (by simp)
      | arr ws => exact ⟨ws, h2.imp fun a b hab => (key a b).2 hab, rfl⟩

/-! ## C83 -/

/-- **C83.** `dist_floor(d)` can be sampled exactly when `d` gives numbers, uses the same randomness as
sampling `d`, and each sample is the floor of the corresponding sample of `d`, for every number of
samples. -/
theorem C83_floor (E : Env σ K) (d : Obj (St σ K) K) :
    ∃ c, distFloor (.dist d) = .ok (.cplx c) ∧
      ∀ (n : ℕ) (s s' : St σ K) (z : Samples K),
        sampleObj E c.toObj n none none s = (.ok z, s') ↔
          ∃ x, sampleObj E d n none none s = (.ok x, s') ∧ SameForm x z ∧
            List.Forall₂ (fun a v => ∃ y, a.val? = some y ∧ v = .flt (⌊y⌋ : ℤ)) x.toList z.toList := by
  refine ⟨⟨d, none, .floor⟩, rfl, fun n s s' z => ?_⟩
  refine (sample_un E .floor d n s s' z).trans ?_
  simp only [unSamples, mapFlt_ok]

/-- **C83.** `dist_ceil(d)`, likewise. -/
theorem C83_ceil (E : Env σ K) (d : Obj (St σ K) K) :
    ∃ c, distCeil (.dist d) = .ok (.cplx c) ∧
      ∀ (n : ℕ) (s s' : St σ K) (z : Samples K),
        sampleObj E c.toObj n none none s = (.ok z, s') ↔
          ∃ x, sampleObj E d n none none s = (.ok x, s') ∧ SameForm x z ∧
            List.Forall₂ (fun a v => ∃ y, a.val? = some y ∧ v = .flt (⌈y⌉ : ℤ)) x.toList z.toList := by
  refine ⟨⟨d, none, .ceil⟩, rfl, fun n s s' z => ?_⟩
  refine (sample_un E .ceil d n s s' z).trans ?_
  simp only [unSamples, mapFlt_ok]

/-- **C83, one sample.** `dist_exp(d)`: if one sample of `d` is the number `y`, one sample of
`dist_exp(d)` from the same state is `exp(y)`. -/
theorem C83_exp_single_partial (E : Env σ K) (d : Obj (St σ K) K) :
    ∃ c, distExp (.dist d) = .ok (.cplx c) ∧
      ∀ (s s' : St σ K) (v : Scalar K) (y : K),
        sampleObj E d 1 none none s = (.ok (.scalar v), s') → v.val? = some y →
        sampleObj E c.toObj 1 none none s = (.ok (.scalar (.flt (E.exp y))), s') := by
  refine ⟨⟨d, none, .exp⟩, rfl, fun s s' v y h hv => ?_⟩
  refine (sample_un E .exp d 1 s s' _).2 ⟨_, h, ?_⟩
  obtain ⟨w, hw, rfl⟩ := num?_of_val? hv
  simp only [unSamples, Samples.toList, hw]

/-- **C83, one sample.** `dist_log(d, b)`: if one sample of `d` is the positive number `y` and the base
is positive and not 1, one sample from the same state is `log(y) / log(b)`. -/
theorem C83_log_single_partial (E : Env σ K) (d : Obj (St σ K) K) (base : Scalar K) :
    ∃ c, distLog (.dist d) base = .ok (.cplx c) ∧
      ∀ (s s' : St σ K) (v : Scalar K) (y b : K),
        sampleObj E d 1 none none s = (.ok (.scalar v), s') → v.val? = some y →
        base.val? = some b → 0 < y → 0 < b → E.log b ≠ 0 →
        sampleObj E c.toObj 1 none none s = (.ok (.scalar (.flt (E.log y / E.log b))), s') := by
  refine ⟨⟨d, some (.leaf (.const base) none none), .log⟩, rfl, fun s s' v y b h hv hb hy hb0 hl => ?_⟩
  refine (sample_bin E .log d _ 1 s s' _).2
    ⟨_, s', _, h, (sample_constN E base 1 one_ne_zero s' s' _).2 ⟨rfl, rfl⟩, ?_⟩
  obtain ⟨w, hw, rfl⟩ := num?_of_val? hv
  obtain ⟨b', hb', rfl⟩ := num?_of_val? hb
  simp only [binFnSamples, logSamples, constSamples, Samples.toList, Samples.simplify,
    List.replicate, hw, hb']
  rw [if_neg (by push Not; exact ⟨hy, hb0⟩), if_neg hl]

/-- **C83 fails**: `dist_log(d, b)` can never be sampled more than once at a time, whatever the
distribution, the base, the bounds and the state. -/
theorem C83_log_fails (E : Env σ K) (d : Obj (St σ K) K) (base : Scalar K) :
    ∃ c, distLog (.dist d) base = .ok (.cplx c) ∧
      ∀ (n : ℕ), 2 ≤ n → ∀ (lc rc : Option (Scalar K)) (s s' : St σ K) (z : Samples K),
        sampleObj E c.toObj n lc rc s ≠ (.ok z, s') := by
  refine ⟨⟨d, some (.leaf (.const base) none none), .log⟩, rfl, fun n hn lc rc s s' z h => ?_⟩
  obtain ⟨z', h⟩ := sample_unbounded rfl h
  obtain ⟨x, s1, y, -, h2, h3⟩ := (sample_bin E .log d _ n s s' z').1 h
  obtain ⟨rfl, -⟩ := (sample_constN E base n (by omega) s1 s' y).1 h2
  rw [constSamples_two _ _ hn] at h3
  obtain ⟨m, rfl⟩ : ∃ m, n = m + 2 := ⟨n - 2, by omega⟩
  simp only [binFnSamples, logSamples, Samples.toList, List.replicate] at h3
  split at h3
  · rename_i hb
    exact absurd hb (by simp)
  · cases h3

/-- **C83 fails**: `dist_round(d, digits)` – also with the default `digits=0` – can never be sampled more
than once at a time, whatever the distribution, the digits, the bounds and the state. -/
theorem C83_round_fails (E : Env σ K) (d : Obj (St σ K) K) (digits : ℤ) :
    ∃ c, distRound (.dist d) (.num (.int digits)) (digits = 0) = .ok (.cplx c) ∧
      ∀ (n : ℕ), 2 ≤ n → ∀ (lc rc : Option (Scalar K)) (s s' : St σ K) (z : Samples K),
        sampleObj E c.toObj n lc rc s ≠ (.ok z, s') := by
  refine ⟨⟨d, some (.lit (.int digits)), .round⟩, rfl, fun n hn lc rc s s' z h => ?_⟩
  obtain ⟨z', h⟩ := sample_unbounded rfl h
  obtain ⟨x, s1, y, -, h2, h3⟩ := (sample_bin E .round d _ n s s' z').1 h
  obtain ⟨rfl, -⟩ := (sample_litN E _ n (by omega) s1 s' y).1 h2
  rw [constSamples_two _ _ hn] at h3
  cases h3

/-- **C83 fails**: `dist_exp(d)` can never be sampled more than once at a time, for every regular
expression `d` (see C11) and every generator that honours the requested size. -/
theorem C83_exp_fails (E : Env σ K) (hE : E.gen.Lawful) (d : Obj (St σ K) K) (hd : d.Regular) :
    ∃ c, distExp (.dist d) = .ok (.cplx c) ∧
      ∀ (n : ℕ), 2 ≤ n → ∀ (lc rc : Option (Scalar K)) (s s' : St σ K) (z : Samples K),
        sampleObj E c.toObj n lc rc s ≠ (.ok z, s') := by
  refine ⟨⟨d, none, .exp⟩, rfl, fun n hn lc rc s s' z h => ?_⟩
  obtain ⟨z', h⟩ := sample_unbounded rfl h
  obtain ⟨x, h1, h2⟩ := (sample_un E .exp d n s s' z').1 h
  have hs := shape_length (C11_count_partial E hE d hd n none none s s' x h1).2
  simp only [unSamples] at h2
  split at h2
  · rename_i v hv
    rw [hv] at hs
    simp at hs
    omega
  · cases h2

end

section
variable {σ K : Type} [Field K] [LinearOrder K] [FloorRing K] [IsStrictOrderedRing K]

theorem truncZ_intCast (z : ℤ) : truncZ (z : K) = z := by
  unfold truncZ
  split_ifs <;> simp

/-- Rounding one number. -/
theorem roundScalar_rounded (k : ℤ) (v : Scalar K) (y : K) (hv : v.val? = some y) :
    ∃ w r, roundScalar k v = .ok w ∧ w.val? = some r ∧ IsRounded k y r ∧
      (k ≤ 0 → ∃ z, w = .int z) := by
  obtain ⟨x, hx, rfl⟩ := num?_of_val? hv
  have hp : (0 : K) < (10 : K) ^ k := by positivity
  have hround : IsRounded k x.val ((roundEven (x.val * (10 : K) ^ k) : K) / (10 : K) ^ k) := by
    refine ⟨⟨roundEven (x.val * (10 : K) ^ k), by field_simp⟩, ?_⟩
    have h := abs_roundEven_sub_le (x.val * (10 : K) ^ k)
    have e : (roundEven (x.val * (10 : K) ^ k) : K) / (10 : K) ^ k - x.val
        = ((roundEven (x.val * (10 : K) ^ k) : K) - x.val * (10 : K) ^ k) / (10 : K) ^ k := by
      field_simp
    rw [e, abs_div, abs_of_pos hp, div_mul_cancel₀ _ hp.ne']
    exact h
  unfold roundScalar
  rw [hx]
  by_cases hk : k ≤ 0
  · refine ⟨_, _, rfl, ?_, hround, fun _ => ⟨_, if_pos hk⟩⟩
    have hint : ∃ m : ℤ, (roundEven (x.val * (10 : K) ^ k) : K) / (10 : K) ^ k = m := by
      refine ⟨roundEven (x.val * (10 : K) ^ k) * 10 ^ (-k).toNat, ?_⟩
      have : (10 : K) ^ k = ((10 : K) ^ (-k).toNat)⁻¹ := by
        rw [← zpow_natCast, ← zpow_neg]
        congr 1
        omega
      rw [this]
      push_cast
      rw [div_inv_eq_mul]
    obtain ⟨m, hm⟩ := hint
    simp only [if_pos hk, hm, truncZ_intCast]
    rfl
  · cases x with
    | F y => exact ⟨_, _, rfl, by simp only [if_neg hk]; rfl, hround, fun h => absurd h hk⟩
    | I z =>
      refine ⟨.int z, (z : K), ?_, rfl, ⟨⟨z * 10 ^ k.toNat, ?_⟩, ?_⟩, fun h => absurd h hk⟩
      · simp only [if_neg hk]
      · have : (10 : K) ^ k = (10 : K) ^ k.toNat := by
          rw [← zpow_natCast]
          congr 1
          omega
        rw [this]; push_cast; rfl
      · simp [Num.val]

/-- **C83, one sample.** `dist_round(d, k)`: if one sample of `d` is the number `y`, one sample from the
same state is `y` rounded to `k` digits, an integer if `k ≤ 0`. -/
theorem C83_round_single_partial (E : Env σ K) (d : Obj (St σ K) K) (k : ℤ) :
    ∃ c, distRound (.dist d) (.num (.int k)) (k = 0) = .ok (.cplx c) ∧
      ∀ (s s' : St σ K) (v : Scalar K) (y : K),
        sampleObj E d 1 none none s = (.ok (.scalar v), s') → v.val? = some y →
        ∃ w r, sampleObj E c.toObj 1 none none s = (.ok (.scalar w), s') ∧
          w.val? = some r ∧ IsRounded k y r ∧ (k ≤ 0 → ∃ z, w = .int z) := by
  refine ⟨⟨d, some (.lit (.int k)), .round⟩, rfl, fun s s' v y h hv => ?_⟩
  obtain ⟨w, r, h1, h2, h3, h4⟩ := roundScalar_rounded k v y hv
  refine ⟨w, r, (sample_bin E .round d _ 1 s s' _).2
    ⟨_, s', _, h, (sample_litN E _ 1 one_ne_zero s' s' _).2 ⟨rfl, rfl⟩, ?_⟩, h2, h3, h4⟩
  simp only [binFnSamples, constSamples, Samples.simplify, List.replicate, roundSamples, h1]
  rfl

/-- **C83, one sample of a correlated variable**, which comes as an array with one element: `dist_round(d, k)`
rounds it to `k` digits as well.  For `k ≤ 0` the result is a plain integer, otherwise still an array with one
element. -/
theorem C83_round_one_element (E : Env σ K) (d : Obj (St σ K) K) (k : ℤ) :
    ∃ c, distRound (.dist d) (.num (.int k)) (k = 0) = .ok (.cplx c) ∧
      ∀ (s s' : St σ K) (v : Scalar K) (y : K),
        sampleObj E d 1 none none s = (.ok (.arr [v]), s') → v.val? = some y →
        ∃ w r, sampleObj E c.toObj 1 none none s =
            (.ok (if k ≤ 0 then .scalar w else .arr [w]), s') ∧
          w.val? = some r ∧ IsRounded k y r ∧ (k ≤ 0 → ∃ z, w = .int z) := by
  refine ⟨⟨d, some (.lit (.int k)), .round⟩, rfl, fun s s' v y h hv => ?_⟩
  obtain ⟨w, r, h1, h2, h3, h4⟩ := roundScalar_rounded k v y hv
  refine ⟨w, r, (sample_bin E .round d _ 1 s s' _).2
    ⟨_, s', _, h, (sample_litN E _ 1 one_ne_zero s' s' _).2 ⟨rfl, rfl⟩, ?_⟩, h2, h3, h4⟩
  simp only [binFnSamples, constSamples, Samples.simplify, List.replicate, roundSamples, h1]
  rfl

theorem roundEven_nearest (x : K) : IsNearestInt x (roundEven x) := by
  refine ⟨abs_roundEven_sub_le x, fun h => ?_⟩
  have h1 := Int.floor_le x
  have h2 := Int.lt_floor_add_one x
  revert h
  unfold roundEven
  dsimp only
  split_ifs with h3 h4 h5 <;> intro h
  · exfalso
    rcases (abs_eq (by norm_num : (0 : K) ≤ 1 / 2)).1 h with h | h <;> linarith
  · exfalso
    push_cast at h
    rcases (abs_eq (by norm_num : (0 : K) ≤ 1 / 2)).1 h with h | h <;> linarith
  · exact Int.even_iff.2 h5
  · rw [Int.even_add_one, Int.even_iff]
    exact h5

theorem nearestInt_unique {x : K} {m k : ℤ} (hm : IsNearestInt x m) (hk : IsNearestInt x k) : m = k := by
  have a := abs_le.1 hm.1
  have b := abs_le.1 hk.1
  by_contra hne
  rcases lt_or_gt_of_ne hne with h | h
  · have h' : (m : K) + 1 ≤ k := by exact_mod_cast h
    have e1 : (m : K) - x = -(1 / 2) := by linarith [a.1, b.2]
    have e2 : (k : K) - x = 1 / 2 := by linarith [a.1, b.2]
    have h3 : k = m + 1 := by
      have : (k : K) = ((m + 1 : ℤ) : K) := by push_cast; linarith
      exact_mod_cast this
    have o1 := hm.2 (by rw [e1, abs_neg, abs_of_pos (by norm_num)])
    have o2 := hk.2 (by rw [e2, abs_of_pos (by norm_num)])
    rw [h3, Int.even_add_one] at o2
    exact o2 o1
  · have h' : (k : K) + 1 ≤ m := by exact_mod_cast h
    have e1 : (k : K) - x = -(1 / 2) := by linarith [b.1, a.2]
    have e2 : (m : K) - x = 1 / 2 := by linarith [b.1, a.2]
    have h3 : m = k + 1 := by
      have : (m : K) = ((k + 1 : ℤ) : K) := by push_cast; linarith
      exact_mod_cast this
    have o1 := hk.2 (by rw [e1, abs_neg, abs_of_pos (by norm_num)])
    have o2 := hm.2 (by rw [e2, abs_of_pos (by norm_num)])
    rw [h3, Int.even_add_one] at o2
    exact o2 o1

/-- **C83.** `dist_round(d, None)`, which rounds to integers, works for every number of samples: each sample is
the integer (of type `int`) nearest to the sample of `d`, the even one of two. -/
theorem C83_round_none (E : Env σ K) (d : Obj (St σ K) K) :
    ∃ c, distRound (.dist d) .none false = .ok (.cplx c) ∧
      ∀ (n : ℕ) (s s' : St σ K) (x : Samples K), sampleObj E d n none none s = (.ok x, s') →
        Shape n x → (∀ v ∈ x.toList, ∃ y, v.val? = some y) →
        ∃ z, sampleObj E c.toObj n none none s = (.ok z, s') ∧ Shape n z ∧
          List.Forall₂ (fun a v => ∃ y m, a.val? = some y ∧ v = .int m ∧ IsNearestInt y m) x.toList z.toList := by
  refine ⟨⟨d, none, .round⟩, rfl, fun n s s' x h hsh hx => ?_⟩
  have hr : ∀ y : K, truncZ ((roundEven (y * (10 : K) ^ (0 : ℤ)) : K) / (10 : K) ^ (0 : ℤ)) = roundEven y := by
    intro y
    simp [truncZ_intCast]
  have hone : ∀ v y, v.val? = some y → roundScalar 0 v = .ok (Scalar.int (roundEven y) : Scalar K) := by
    intro v y hv
    obtain ⟨x, hx, rfl⟩ := num?_of_val? hv
    simp only [roundScalar, hx, le_refl, if_true, hr]
  have helem : ∀ v y, v.val? = some y → roundElem 0 v = .ok (Scalar.int (roundEven y) : Scalar K) := by
    intro v y hv
    obtain ⟨x, hx, rfl⟩ := num?_of_val? hv
    simp only [roundElem, hx, if_true, hr]
  have hfin : ∃ z, roundSamples x (.scalar (.int 0)) = .ok z ∧
      List.Forall₂ (fun a v => ∃ y m, a.val? = some y ∧ v = .int m ∧ IsNearestInt y m) x.toList z.toList := by
    cases x with
    | scalar v =>
      obtain ⟨y, hy⟩ := hx v (by simp [Samples.toList])
      exact ⟨.scalar (.int (roundEven y)), by simp only [roundSamples, hone v y hy]; rfl,
        .cons ⟨y, _, hy, rfl, roundEven_nearest y⟩ .nil⟩
    | arr vs =>
      have hx' : ∀ v ∈ vs, ∃ y, v.val? = some y := hx
      have hmany : ∀ vs : List (Scalar K), (∀ v ∈ vs, ∃ y, v.val? = some y) →
          ∃ ws, mapExcept (roundElem 0) vs = .ok ws ∧
            List.Forall₂ (fun a v => ∃ y m, a.val? = some y ∧ v = .int m ∧ IsNearestInt y m) vs ws := by
        intro vs
        induction vs with
        | nil => exact fun _ => ⟨[], rfl, .nil⟩
        | cons v vs ih =>
          intro hv
          obtain ⟨ws, h1, h2⟩ := ih fun w hw => hv w (List.mem_cons_of_mem _ hw)
          obtain ⟨y, hy⟩ := hv v List.mem_cons_self
          refine ⟨.int (roundEven y) :: ws, ?_, .cons ⟨y, _, hy, rfl, roundEven_nearest y⟩ h2⟩
          rw [mapExcept_ok] at h1 ⊢
          exact .cons (helem v y hy) h1
      match vs, hsh, hx' with
      | [v], _, hx' =>
        obtain ⟨y, hy⟩ := hx' v (by simp)
        exact ⟨.scalar (.int (roundEven y)), by simp only [roundSamples, hone v y hy]; rfl,
          .cons ⟨y, _, hy, rfl, roundEven_nearest y⟩ .nil⟩
      | [], _, _ => exact ⟨.arr [], rfl, .nil⟩
      | v :: w :: vs, _, hx' =>
        obtain ⟨ws, h1, h2⟩ := hmany _ hx'
        exact ⟨.arr ws, by simp only [roundSamples, h1]; rfl, h2⟩
  obtain ⟨z, hz, hf⟩ := hfin
  have hz' := (sample_un E .round0 d n s s' z).2 ⟨x, h, hz⟩
  exact ⟨z, hz', roundSamples_shape hsh hz, hf⟩

end

/-! ### The hypotheses are met -/

example : (sampleObj demoEnv (.leaf (.normal 0 3) none none) 1 none none (demoSt 4)).1
    = .ok (.scalar (.flt (3 / 5))) := by decide +kernel

/-- The hypotheses of `C83_round_one_element` are met: one sample of a member of a correlated pair is an array
with one element, and rounding it to integers returns a plain integer. -/
example :
    let d : Obj (St ℕ ℚ) ℚ := .corr 0 2 (fun _ => .leaf (.normal 0 3) none none) 0
    (sampleObj demoEnv d 1 none none (demoSt 4)).1 = .ok (.arr [.flt (3 / 5)]) ∧
    (sampleObj demoEnv (Cplx.toObj ⟨d, some (.lit (.int 0)), .round⟩) 1 none none (demoSt 4)).1
      = .ok (.scalar (.int 1)) := by
  refine ⟨?_, ?_⟩
  · decide +kernel
  · decide +kernel

example : (sampleObj demoEnv (Cplx.toObj ⟨.leaf (.normal 0 3) none none, some (.lit (.int 0)), .round⟩)
    1 none none (demoSt 4)).1 = .ok (.scalar (.int 1)) := by decide +kernel

example : (sampleObj demoEnv (Cplx.toObj ⟨.leaf (.normal 0 3) none none, none, .round⟩)
    3 none none (demoSt 3)).1 = .ok (.arr [.int 3, .int 1, .int 2]) := by decide +kernel

example : (sampleObj demoEnv (Cplx.toObj ⟨.leaf (.normal 0 3) none none, none, .floor⟩)
    3 none none (demoSt 3)).1 = .ok (.arr [.flt 2, .flt 0, .flt 1]) := by decide +kernel

/-! ## C84 -/

section
variable {σ : Type}

theorem sample_bin_eq {K : Type} [Field K] [LinearOrder K] [FloorRing K] {E : Env σ K} {f : BinFn}
    {a b : Obj (St σ K) K} {n : ℕ} {s s1 s2 : St σ K} {x y : Samples K}
    (ha : sampleObj E a n none none s = (.ok x, s1)) (hb : sampleObj E b n none none s1 = (.ok y, s2)) :
    sampleObj E (.bin f a b) n none none s = (binFnSamples E f x y, s2) := by
  have hn := (withClips_ok.1 ha).1
  unfold sampleObj at ha hb ⊢
  conv_lhs => unfold withClips
  rw [if_neg hn]
  simp only [Obj.clips, combineL, combineR, SM.bind, SM.lift, rawObj, ha, hb]
  cases binFnSamples E f x y <;> rfl

theorem sample_bin_err {K : Type} [Field K] [LinearOrder K] [FloorRing K] {E : Env σ K} {f : BinFn}
    {a b : Obj (St σ K) K} {n : ℕ} (hn : n ≠ 0) {s s1 s2 : St σ K} {x : Samples K} {e : PyErr}
    (ha : sampleObj E a n none none s = (.error e, s2) ∨
      (sampleObj E a n none none s = (.ok x, s1) ∧ sampleObj E b n none none s1 = (.error e, s2))) :
    sampleObj E (.bin f a b) n none none s = (.error e, s2) := by
  unfold sampleObj at ha ⊢
  conv_lhs => unfold withClips
  rw [if_neg hn]
  rcases ha with ha | ⟨ha, hb⟩
  · simp only [Obj.clips, combineL, combineR, SM.bind, SM.lift, rawObj, ha]
  · simp only [Obj.clips, combineL, combineR, SM.bind, SM.lift, rawObj, ha, hb]

theorem sample_un_err {K : Type} [Field K] [LinearOrder K] [FloorRing K] {E : Env σ K} {f : UnFn}
    {a : Obj (St σ K) K} {n : ℕ} (hn : n ≠ 0) {s s1 : St σ K} {e : PyErr}
    (ha : sampleObj E a n none none s = (.error e, s1)) :
    sampleObj E (.un f a) n none none s = (.error e, s1) := by
  unfold sampleObj at ha ⊢
  conv_lhs => unfold withClips
  rw [if_neg hn]
  simp only [Obj.clips, combineL, combineR, SM.bind, SM.lift, rawObj, ha]

section
variable {K : Type} [Field K] [LinearOrder K] [FloorRing K]

theorem pyBin_add_one (powf : K → K → Option K) {v : Scalar K} {g : K} (hv : v.val? = some g) :
    pyBin powf .add (.flt 1) v = .ok (.flt (1 + g)) := by
  obtain ⟨w, hw, rfl⟩ := num?_of_val? hv
  unfold pyBin
  rw [hw]
  cases w <;> rfl

theorem pyBin_div (powf : K → K → Option K) (a : K) {v : Scalar K} {g : K} (hv : v.val? = some g) :
    pyBin powf .truediv (.flt a) v
      = if g = 0 then .error .zeroDivisionError else .ok (.flt (a / g)) := by
  obtain ⟨w, hw, rfl⟩ := num?_of_val? hv
  unfold pyBin
  rw [hw]
  rfl

end

/-- The environment computes with the real exponential and logarithm. -/
def RealFns (E : Env σ ℝ) : Prop := E.exp = Real.exp ∧ E.log = Real.log

/-- **C84, one sample.** If one sample of the growth rate `d` is the number `g`, then one sample of
`growth_rate_to_doubling_time(d)` from the same state is what the function gives for the number `g`
(see C59), error cases included. -/
theorem C84_growth_single_partial (E : Env σ ℝ) (hE : RealFns E) (d : Obj (St σ ℝ) ℝ) :
    ∃ t, growthToDoublingDist (Real.log 2) (Real.exp 1) d = .ok t ∧
      ∀ (s s' : St σ ℝ) (v : Scalar ℝ) (g : ℝ),
        sampleObj E d 1 none none s = (.ok (.scalar v), s') → v.val? = some g →
        sampleObj E t 1 none none s =
          ((growthToDoubling g).map fun x => .scalar (.flt x), s') := by
  refine ⟨_, rfl, fun s s' v g h hv => ?_⟩
  have hlit : ∀ (c : Scalar ℝ) (t : St σ ℝ),
      sampleObj E (.lit c) 1 none none t = (.ok (.scalar c), t) := fun c t =>
    (sample_litN E c 1 one_ne_zero t t _).2 ⟨rfl, rfl⟩
  have hconst : ∀ (c : Scalar ℝ) (t : St σ ℝ),
      sampleObj E (.leaf (.const c) none none) 1 none none t = (.ok (.scalar c), t) := fun c t =>
    (sample_constN E c 1 one_ne_zero t t _).2 ⟨rfl, rfl⟩
  have hadd : sampleObj E (.bin (.op .add) (.lit (.flt 1)) d) 1 none none s
      = (.ok (.scalar (.flt (1 + g))), s') := by
    rw [sample_bin_eq (hlit _ _) h]
    simp only [binFnSamples, binSamples, pyBin_add_one _ hv]
    rfl
  have hlog : sampleObj E (.bin .log (.bin (.op .add) (.lit (.flt 1)) d)
        (.leaf (.const (.flt (Real.exp 1))) none none)) 1 none none s
      = (if 1 + g ≤ 0 then .error .valueError
          else .ok (.scalar (.flt (Real.log (1 + g)))), s') := by
    rw [sample_bin_eq hadd (hconst _ _)]
    show (logSamples E (.scalar (.flt (1 + g))) (.scalar (.flt (Real.exp 1))), s') = _
    show ((if 1 + g ≤ 0 ∨ Real.exp 1 ≤ 0 then Except.error PyErr.valueError
      else if E.log (Real.exp 1) = 0 then .error .zeroDivisionError
      else .ok (Samples.scalar (.flt (E.log (1 + g) / E.log (Real.exp 1))))), s') = _
    simp only [hE.2, Real.log_exp, div_one, one_ne_zero, if_false, not_le.2 (Real.exp_pos 1), or_false]
  unfold growthToDoubling
  show sampleObj E (.bin (.op .truediv) (.lit (.flt (Real.log 2))) (.bin .log
      (.bin (.op .add) (.lit (.flt 1)) d) (.leaf (.const (.flt (Real.exp 1))) none none)))
      1 none none s = _
  by_cases h1 : 1 + g ≤ 0
  · rw [if_pos h1] at hlog
    rw [if_pos h1]
    exact sample_bin_err one_ne_zero (Or.inr ⟨hlit _ _, hlog⟩)
  · rw [if_neg h1] at hlog
    rw [if_neg h1, sample_bin_eq (hlit _ _) hlog]
    simp only [binFnSamples, binSamples, pyBin_div _ _ (show (Scalar.flt (Real.log (1 + g))).val? = some (Real.log (1 + g)) from rfl)]
    by_cases h2 : Real.log (1 + g) = 0
    · rw [if_pos h2, if_pos h2]; rfl
    · rw [if_neg h2, if_neg h2]; rfl

/-- **C84, one sample.** Likewise for `doubling_time_to_growth_rate`. -/
theorem C84_doubling_single_partial (E : Env σ ℝ) (hE : RealFns E) (d : Obj (St σ ℝ) ℝ) :
    ∃ t, doublingToGrowthDist (Real.log 2) d = .ok t ∧
      ∀ (s s' : St σ ℝ) (v : Scalar ℝ) (x : ℝ),
        sampleObj E d 1 none none s = (.ok (.scalar v), s') → v.val? = some x →
        sampleObj E t 1 none none s =
          ((doublingToGrowth x).map fun g => .scalar (.flt g), s') := by
  refine ⟨_, rfl, fun s s' v x h hv => ?_⟩
  have hlit : ∀ (c : Scalar ℝ) (t : St σ ℝ),
      sampleObj E (.lit c) 1 none none t = (.ok (.scalar c), t) := fun c t =>
    (sample_litN E c 1 one_ne_zero t t _).2 ⟨rfl, rfl⟩
  have hdiv : sampleObj E (.bin (.op .truediv) (.lit (.flt (Real.log 2))) d) 1 none none s
      = (if x = 0 then .error .zeroDivisionError
          else .ok (.scalar (.flt (Real.log 2 / x))), s') := by
    rw [sample_bin_eq (hlit _ _) h]
    simp only [binFnSamples, binSamples, pyBin_div _ _ hv]
    split_ifs <;> rfl
  unfold doublingToGrowth
  show sampleObj E (.bin (.op .sub) (.un .exp (.bin (.op .truediv) (.lit (.flt (Real.log 2))) d))
    (.lit (.int 1))) 1 none none s = _
  by_cases h1 : x = 0
  · rw [if_pos h1] at hdiv
    rw [if_pos h1]
    exact sample_bin_err (s1 := s) (x := .scalar .none) one_ne_zero (Or.inl (sample_un_err one_ne_zero hdiv))
  · rw [if_neg h1] at hdiv
    have hexp : sampleObj E (.un .exp (.bin (.op .truediv) (.lit (.flt (Real.log 2))) d)) 1 none none s
        = (.ok (.scalar (.flt (Real.exp (Real.log 2 / x)))), s') := by
      refine (sample_un E .exp _ 1 s s' _).2 ⟨_, hdiv, ?_⟩
      simp only [unSamples, Samples.toList, Scalar.num?, Num.val, hE.1]
    rw [if_neg h1, sample_bin_eq hexp (hlit _ _)]
    simp only [binFnSamples, binSamples, pyBin, Scalar.num?, Num.val, Int.cast_one]
    rfl

/-- **C84 fails**: the doubling time of an uncertain growth rate can never be sampled more than once at a
time, whatever the distribution. -/
theorem C84_growth_fails {K : Type} [Field K] [LinearOrder K] [FloorRing K] (E : Env σ K) (ln2 e : K)
    (d : Obj (St σ K) K) :
    ∃ t, growthToDoublingDist ln2 e d = .ok t ∧
      ∀ (n : ℕ), 2 ≤ n → ∀ (lc rc : Option (Scalar K)) (s s' : St σ K) (z : Samples K),
        sampleObj E t n lc rc s ≠ (.ok z, s') := by
  refine ⟨_, rfl, fun n hn lc rc s s' z h => ?_⟩
  obtain ⟨z', h⟩ := sample_unbounded rfl h
  obtain ⟨x, s1, y, -, h2, -⟩ := (sample_bin E (.op .truediv) _ _ n s s' z').1 h
  obtain ⟨c, hc, hf⟩ := C83_log_fails E (.bin (.op .add) (.lit (.flt 1)) d) (.flt e)
  cases hc
  exact hf n hn none none s1 s' y h2

/-- **C84 fails**: the growth rate of an uncertain doubling time can never be sampled more than once at a
time, for every regular expression (see C11). -/
theorem C84_doubling_fails {K : Type} [Field K] [LinearOrder K] [FloorRing K] (E : Env σ K)
    (hE : E.gen.Lawful) (ln2 : K) (d : Obj (St σ K) K) (hd : d.Regular) :
    ∃ t, doublingToGrowthDist ln2 d = .ok t ∧
      ∀ (n : ℕ), 2 ≤ n → ∀ (lc rc : Option (Scalar K)) (s s' : St σ K) (z : Samples K),
        sampleObj E t n lc rc s ≠ (.ok z, s') := by
  refine ⟨_, rfl, fun n hn lc rc s s' z h => ?_⟩
  obtain ⟨z', h⟩ := sample_unbounded rfl h
  obtain ⟨x, s1, y, h1, -, -⟩ := (sample_bin E (.op .sub) _ _ n s s' z').1 h
  obtain ⟨c, hc, hf⟩ := C83_exp_fails E hE (.bin (.op .truediv) (.lit (.flt ln2)) d) ⟨trivial, hd⟩
  cases hc
  exact hf n hn none none s s1 x h1

end

/-! ### The hypotheses are met -/

/-- A real environment: every draw gives `1/2`. -/
noncomputable def realEnv : Env Unit ℝ where
  gen := ⟨fun _ n s => (.ok (List.replicate n (.flt (1 / 2))), s)⟩
  exp := Real.exp
  log := Real.log
  powf _ _ := none
  ppf x := x
  fmt _ := ""
  induce _ cols := .ok cols
  fuel := fun _ _ => 0

example : RealFns realEnv ∧
    sampleObj realEnv (.leaf (.normal 0 1) none none) 1 none none ⟨(), fun _ _ => none⟩
      = (.ok (.scalar (.flt (1 / 2))), ⟨(), fun _ _ => none⟩) := ⟨⟨rfl, rfl⟩, rfl⟩

example : demoEnv.gen.Lawful ∧ (.leaf (.normal 0 1) none none : Obj (St ℕ ℚ) ℚ).Regular :=
  ⟨demoGen_lawful, trivial⟩

end Verif
