import Verif.Model.DoubleWeights
import Verif.Lemmas.Double
import Verif.Props.RoundedWeights

/-!
# C171: weights of any size in floating-point numbers

`f` is any floating-point format (`binary64` for a Python float) and `fl` any correct rounding in it, with
subnormal numbers and infinities.
-/

namespace Verif

variable {K : Type} [Field K] [LinearOrder K] [IsStrictOrderedRing K] [FloorRing K] {f : FloatFormat} {fl fl' : K → K}

/-- The result of `processFl`, as floats. -/
def finResult {ι : Type} (r : List K × List ι) : List (XVal K) × List ι := (r.1.map .fin, r.2)

omit [FloorRing K] in
theorem toDouble_fin (h : RoundsDouble f fl) {x : K} (hx : 0 ≤ x) :
    (XVal.fin x).toDouble f fl = if fl x < (2 : K) ^ f.top then .fin (fl x) else .pinf := by
  have h0 := h.nonneg hx
  have hd : decide (x < 0) = false := by simpa using hx
  simp only [XVal.toDouble, abs_of_nonneg h0, hd]
  split_ifs with h1
  · unfold XVal.signed XVal.zero
    by_cases h2 : fl x = 0
    · simp [h2]
    · simp [h2]
  · rfl

omit [FloorRing K] [IsStrictOrderedRing K] in
theorem foldX_pinf (xs : List K) :
    (xs.map XVal.fin).foldl (fun (acc x : XVal K) => (acc.add x).toDouble f fl) .pinf = .pinf := by
  induction xs with
  | nil => rfl
  | cons x xs ih =>
    have : ((XVal.pinf : XVal K).add (.fin x)).toDouble f fl = .pinf := by simp [XVal.add, XVal.val?, XVal.toDouble]
    simp only [List.map_cons, List.foldl_cons, this]
    exact ih

theorem foldX_fin (h : RoundsDouble f fl) (h' : RoundsTo f.p fl') (he : ∀ x, Unharmed f x → fl x = fl' x)
    (xs : List K) (hx : ∀ x ∈ xs, 0 ≤ x ∧ IsDouble f x) (acc : K) (ha : 0 ≤ acc) (hf : InFormat f acc)
    (ht : acc < (2 : K) ^ f.top) :
    (xs.map XVal.fin).foldl (fun (acc x : XVal K) => (acc.add x).toDouble f fl) (.fin acc) =
      if xs.foldl (fun a x => fl' (a + x)) acc < (2 : K) ^ f.top then
        .fin (xs.foldl (fun a x => fl' (a + x)) acc) else .pinf := by
  induction xs generalizing acc with
  | nil => simp [ht]
  | cons x xs ih =>
    obtain ⟨hx0, hxd⟩ := hx x (by simp)
    have hx' : ∀ y ∈ xs, 0 ≤ y ∧ IsDouble f y := fun y hy => hx y (by simp [hy])
    have hsum : 0 ≤ acc + x := add_nonneg ha hx0
    have hfl : fl (acc + x) = fl' (acc + x) := he _ (Or.inl (OnGrid.add hf.2 hxd.1.2))
    have hadd : ((XVal.fin acc).add (.fin x)) = .fin (acc + x) := by simp [XVal.add, XVal.val?]
    rw [List.map_cons, List.foldl_cons, hadd, toDouble_fin h hsum]
    change _ = if xs.foldl (fun a x => fl' (a + x)) (fl' (acc + x)) < (2 : K) ^ f.top then
        XVal.fin (xs.foldl (fun a x => fl' (a + x)) (fl' (acc + x))) else XVal.pinf
    by_cases h1 : fl (acc + x) < (2 : K) ^ f.top
    · rw [if_pos h1, ih hx' _ (h.nonneg hsum) (h.format _) h1, hfl]
    · rw [if_neg h1, foldX_pinf, if_neg]
      rw [not_lt] at h1 ⊢
      refine le_trans ?_ (foldFl_ge h' xs (fun y hy => (hx' y hy).1) _ (h'.float _))
      rwa [← hfl]

/-- The sum as Python computes it: that of the arithmetic without a largest number, or infinite. -/
theorem sumX_fin (h : RoundsDouble f fl) (h' : RoundsTo f.p fl') (he : ∀ x, Unharmed f x → fl x = fl' x)
    {xs : List K} (hx : ∀ x ∈ xs, 0 ≤ x ∧ IsDouble f x) :
    sumX f fl (xs.map .fin) = if sumFl fl' xs < (2 : K) ^ f.top then .fin (sumFl fl' xs) else .pinf :=
  foldX_fin h h' he xs hx 0 le_rfl inFormat_zero (by positivity)

omit [FloorRing K] [IsStrictOrderedRing K] in
theorem keepPositiveX_fin {ι : Type} (ws : List K) (vs : List ι) :
    keepPositiveX (ws.map .fin) vs = (keepPositive ws vs).map finResult := by
  induction ws generalizing vs with
  | nil => simp [keepPositiveX, keepPositive, finResult, Except.map]
  | cons w ws ih =>
    cases vs with
    | nil => simp [keepPositiveX, keepPositive, Except.map]
    | cons v vs =>
      simp only [List.map_cons, keepPositiveX, keepPositive, ih, XVal.lt, XVal.val?]
      by_cases hw : w < 0
      · simp [hw, Except.map]
      · rcases keepPositive ws vs with e | ⟨a, b⟩
        · simp [hw, Except.map, Bind.bind, Except.bind]
        · by_cases hw' : 0 < w <;> simp [hw, hw', Except.map, Bind.bind, Except.bind, finResult]

omit [FloorRing K] in
theorem usual_low (hf : f.Usual) : f.low ≤ 0 := by
  have := hf.fine
  omega

omit [FloorRing K] in
theorem unharmed_one_half (hf : f.Usual) {x : K} (hx : 1 / 2 ≤ x) : Unharmed f x := by
  refine Or.inr (le_trans ?_ (hx.trans (le_abs_self x)))
  have : (2 : K) ^ (f.low + f.p - 1) ≤ 2 ^ (-1 : ℤ) :=
    zpow_le_zpow_right₀ one_le_two (by have := hf.fine; omega)
  refine this.trans (by norm_num)

/-- `finish` of both models. -/
theorem finishX_fin (hf : f.Usual) (h : RoundsDouble f fl) (h' : RoundsTo f.p fl')
    (he : ∀ x, Unharmed f x → fl x = fl' x) {ι : Type} {ws : List K} (vals : List ι)
    (hw : ∀ x ∈ ws, 0 ≤ x ∧ IsDouble f x) :
    processX.finish f fl vals (ws.map .fin) = (processFl.finish fl' vals ws).map finResult := by
  have hp : 1 ≤ f.p := by have := hf.digits; omega
  have h2 : (2 : K) ≤ 2 ^ f.top := by
    calc (2 : K) = 2 ^ (1 : ℤ) := by norm_num
      _ ≤ 2 ^ f.top := zpow_le_zpow_right₀ one_le_two hf.large
  have e99 := he _ (unharmed_one_half (K := K) hf (x := 99 / 100) (by norm_num))
  have e101 := he _ (unharmed_one_half (K := K) hf (x := 101 / 100) (by norm_num))
  have two : IsFloat f.p (2 : K) := by
    have := isFloat_mul_zpow (isFloat_one (K := K) f.p) 1
    simpa using this
  have l101 : fl' (101 / 100 : K) ≤ 2 := h'.le_of_le two (by norm_num)
  unfold processX.finish processFl.finish
  simp only [sumX_fin h h' he hw, List.length_map, e99, e101]
  by_cases hs : sumFl fl' ws < (2 : K) ^ f.top
  · rw [if_pos hs]
    have hgrid : OnGrid f (sumFl fl' ws) := by
      have : ∀ (l : List K) (acc : K), (∀ x ∈ l, 0 ≤ x ∧ IsDouble f x) → InFormat f acc →
          InFormat f (l.foldl (fun a x => fl' (a + x)) acc) := by
        intro l
        induction l with
        | nil => intro acc _ h1; exact h1
        | cons x l ih =>
          intro acc h0 h1
          refine ih _ (fun y hy => h0 y (by simp [hy])) ?_
          change InFormat f (fl' (acc + x))
          rw [← he _ (Or.inl (OnGrid.add h1.2 (h0 x (by simp)).2.1.2))]
          exact h.format _
      exact (this ws 0 hw inFormat_zero).2
    by_cases hc : ws.length + 1 = vals.length ∧ sumFl fl' ws < 1
    · have hl : (XVal.fin (sumFl fl' ws)).lt (.fin 1) = true := by simp [XVal.lt, XVal.val?, hc.2]
      rw [if_pos ⟨hc.1, hl⟩, if_pos hc]
      have hsub : ((XVal.fin (1 : K)).sub (.fin (sumFl fl' ws))).toDouble f fl = .fin (fl' (1 - sumFl fl' ws)) := by
        have hS0 : 0 ≤ sumFl fl' ws := by
          have := foldFl_ge h' ws (fun x hx => (hw x hx).1) 0 (isFloat_zero _)
          exact this
        have e1 : (XVal.fin (1 : K)).sub (.fin (sumFl fl' ws)) = .fin (1 - sumFl fl' ws) := by
          unfold XVal.sub XVal.neg XVal.signed XVal.zero XVal.add
          by_cases h0 : sumFl fl' ws = 0
          · simp [h0, XVal.val?]
          · simp [h0, XVal.val?, sub_eq_add_neg]
        have hg : OnGrid f (1 - sumFl fl' ws) := (onGrid_one (usual_low hf)).sub hgrid
        have e2 := he _ (Or.inl hg)
        rw [e1, toDouble_fin h (by linarith), e2, if_pos]
        exact lt_of_le_of_lt (h'.le_of_le (isFloat_one _) (by linarith)) (by linarith)
      rw [hsub, ← keepPositiveX_fin]
      simp
    · have hl : ¬ (ws.length + 1 = vals.length ∧ (XVal.fin (sumFl fl' ws)).lt (.fin 1) = true) := by
        simpa [XVal.lt, XVal.val?] using hc
      rw [if_neg hl, if_neg hc]
      have hle : ∀ a b : K, (XVal.fin a).le (.fin b) = decide (a ≤ b) := by
        intro a b
        by_cases hab : b < a
        · simp [XVal.le, XVal.lt, XVal.val?, hab]
        · simp [XVal.le, XVal.lt, XVal.val?, hab, not_lt.1 hab]
      simp only [hle, decide_eq_true_eq, ge_iff_le]
      split_ifs
      · rfl
      · rfl
      · exact keepPositiveX_fin ws vals
  · rw [if_neg hs]
    rw [not_lt] at hs
    have hc : ¬ (ws.length + 1 = vals.length ∧ sumFl fl' ws < 1) := fun hc => by linarith [hc.2]
    have hc' : ¬ (ws.length + 1 = vals.length ∧ (XVal.pinf : XVal K).lt (.fin 1) = true) := by
      simp [XVal.lt, XVal.val?]
    rw [if_neg hc, if_neg hc', if_pos (Or.inr (by simp [XVal.le, XVal.lt, XVal.val?])),
      if_pos (Or.inr (by linarith))]
    rfl

omit [FloorRing K] [LinearOrder K] [IsStrictOrderedRing K] in
theorem nan_not_mem_fin (ws : List K) : (XVal.nan : XVal K) ∉ ws.map .fin := by
  simp

/-- **C171.** Weights that are given (not negative, of any size) are treated exactly as by an arithmetic with the same
digits and numbers of unlimited size: neither subnormal numbers nor overflow change which are accepted and what is kept. -/
theorem C171_same (hf : f.Usual) (h : RoundsDouble f fl) :
    ∃ fl' : K → K, RoundsTo f.p fl' ∧
      (∀ {ι : Type} (ws : List K) (vals : List ι), (∀ w ∈ ws, 0 ≤ w ∧ IsDouble f w) →
        processX f fl (.weights (ws.map .fin)) vals = (processFl fl' (.weights ws) vals).map finResult) ∧
      ∀ {ι : Type} (vals : List ι), vals.length * (2 : K) ^ (f.low + f.p - 1) ≤ 1 →
        processX f fl .absent vals = (processFl fl' .absent vals).map finResult := by
  have hp : 1 ≤ f.p := by have := hf.digits; omega
  obtain ⟨fl', h', he⟩ := h.unlimited hp
  refine ⟨fl', h', fun {ι} ws vals hw => ?_, fun {ι} vals hv => ?_⟩
  · unfold processX processFl
    by_cases hne : vals = []
    · simp [hne, Except.map]
    · simp only [hne, if_false]
      rw [if_neg (nan_not_mem_fin ws)]
      exact finishX_fin hf h h' he vals hw
  · unfold processX processFl
    by_cases hne : vals = []
    · simp [hne, Except.map]
    · simp only [hne, if_false]
      have hn : 0 < vals.length := List.length_pos_iff.2 hne
      have hn' : (0 : K) < vals.length := by exact_mod_cast hn
      have hpos : (0 : K) ≤ 1 / vals.length := by positivity
      have e : fl (1 / (vals.length : K)) = fl' (1 / vals.length) := by
        refine he _ (Or.inr ?_)
        rw [abs_of_nonneg hpos, le_div_iff₀ hn', mul_comm]
        exact hv
      have h2 : (2 : K) ≤ 2 ^ f.top := by
        calc (2 : K) = 2 ^ (1 : ℤ) := by norm_num
          _ ≤ 2 ^ f.top := zpow_le_zpow_right₀ one_le_two hf.large
      have hle : fl (1 / (vals.length : K)) ≤ 1 := by
        rw [e]
        refine h'.le_of_le (isFloat_one _) ?_
        rw [div_le_one hn']
        exact_mod_cast hn
      have hlt : fl (1 / (vals.length : K)) < 2 ^ f.top := by linarith
      have e2 : (XVal.fin (1 / (vals.length : K))).toDouble f fl = .fin (fl (1 / vals.length)) := by
        rw [toDouble_fin h hpos, if_pos hlt]
      rw [e2, ← List.map_replicate, ← e]
      refine finishX_fin hf h h' he vals fun w hw => ?_
      rw [List.eq_of_mem_replicate hw]
      refine ⟨h.nonneg hpos, h.format _, ?_⟩
      rwa [abs_of_nonneg (h.nonneg hpos)]

/-- **C171.** So weights of all values that sum to 1 up to rounding are accepted, and exactly the zeros are dropped. -/
theorem C171_accepted (hf : f.Usual) (h : RoundsDouble f fl) {ι : Type} {ws : List K} {vals : List ι}
    (hl : ws.length = vals.length) (hw : ∀ w ∈ ws, 0 ≤ w ∧ IsDouble f w)
    (hlo : 9901 / 10000 ≤ ws.sum) (hhi : ws.sum ≤ 10099 / 10000) (hn : vals.length * ulp f.p ≤ (1 / 100000 : K)) :
    processX f fl (.weights (ws.map .fin)) vals =
      .ok ((((ws.zip vals).filter (fun x => x.1 ≠ 0)).map Prod.fst).map .fin,
        ((ws.zip vals).filter (fun x => x.1 ≠ 0)).map Prod.snd) := by
  have hp : 1 ≤ f.p := by have := hf.digits; omega
  obtain ⟨fl', h', hs, -⟩ := C171_same hf h
  rw [hs ws vals hw, C116_accepted h' hp hl (fun w hw' => (hw w hw').1) hlo hhi hn]
  rfl

/-- A quotient in the format and in the arithmetic of unlimited size. -/
theorem unlimited_near (hp : 1 ≤ f.p) (h : RoundsDouble f fl) (h' : RoundsTo f.p fl')
    (he : ∀ x, Unharmed f x → fl x = fl' x) (q : K) : |fl q - fl' q| ≤ 2 ^ f.low := by
  have h2 : (0 : K) < 2 ^ f.low := by positivity
  rcases le_total ((2 : K) ^ (f.low + f.p - 1)) |q| with hq | hq
  · rw [he q (Or.inr hq), sub_self, abs_zero]
    exact h2.le
  · have h1 := h.small hp hq
    have h3 : |fl' q - q| ≤ 2 ^ f.low / 2 := by
      refine (h'.err q).trans ?_
      have e1 : (2 : K) ^ (f.low + f.p - 1) = 2 ^ f.p * (2 ^ f.low / 2) := by
        rw [show f.low + (f.p : ℤ) - 1 = f.p + f.low + (-1) by ring, zpow_add₀ two_ne_zero, zpow_add₀ two_ne_zero,
          zpow_natCast]
        norm_num
        ring
      rw [e1] at hq
      have hpp : (0 : K) < 2 ^ f.p := by positivity
      unfold ulp
      rw [div_mul_eq_mul_div, one_mul, div_le_iff₀ hpp]
      linarith
    have := abs_sub_le (fl q) q (fl' q)
    rw [abs_sub_comm q] at this
    linarith

/-- **C171.** `normalize` of floats that are not negative, not all zero and whose sum stays below half the largest float:
the shares lie between 0 and 1, each is accurate up to rounding and up to the smallest positive float, and they sum
to 1 as accurately. -/
theorem C171_normalize (hf : f.Usual) (h : RoundsDouble f fl) {xs : List K}
    (hx : ∀ x ∈ xs, 0 ≤ x ∧ IsDouble f x) (hpos : 0 < xs.sum) (htop : 2 * xs.sum < 2 ^ f.top)
    (hn : xs.length * ulp f.p ≤ (1 / 2 : K)) :
    ∃ ws : List K, normalizeX f fl (xs.map .fin) = .ok (ws.map .fin) ∧ ws.length = xs.length ∧
      (∀ w ∈ ws, 0 ≤ w ∧ w ≤ 1 ∧ IsDouble f w) ∧
      List.Forall₂ (fun x w => |w - x / xs.sum| ≤ 4 * (xs.length * ulp f.p) * (x / xs.sum) + 2 ^ f.low) xs ws ∧
      |ws.sum - 1| ≤ 4 * (xs.length * ulp f.p) + xs.length * 2 ^ f.low := by
  have hp : 1 ≤ f.p := by have := hf.digits; omega
  have h2 : (2 : K) ≤ 2 ^ f.top := by
    calc (2 : K) = 2 ^ (1 : ℤ) := by norm_num
      _ ≤ 2 ^ f.top := zpow_le_zpow_right₀ one_le_two hf.large
  obtain ⟨fl', h', he⟩ := h.unlimited hp
  have hx0 : ∀ x ∈ xs, 0 ≤ x := fun x hx' => (hx x hx').1
  have hxf : ∀ x ∈ xs, 0 ≤ x ∧ IsFloat f.p x := fun x hx' => ⟨(hx x hx').1, (hx x hx').2.1.1⟩
  obtain ⟨b1, b2⟩ := sumFl_bounds h' hp hx0 le_rfl hn
  obtain ⟨ws', e1, e2, e3, e4, e5⟩ := C115_normalize h' hp hxf hpos hn
  set S := sumFl fl' xs with hS
  have hSp : 0 < S := lt_of_lt_of_le (mul_pos (by linarith) hpos) b1
  have hSt : S < 2 ^ f.top := by
    refine lt_of_le_of_lt b2 (lt_of_le_of_lt ?_ htop)
    exact mul_le_mul_of_nonneg_right (by linarith) hpos.le
  have hws' : ws' = xs.map fun x => fl' (x / S) := by
    unfold normalizeFl at e1
    rw [← hS, if_neg (fun hc => hSp.ne' hc.2)] at e1
    exact (Except.ok.inj e1).symm
  have one : InFormat f (1 : K) := ⟨isFloat_one _, onGrid_one (usual_low hf)⟩
  have hw1 : ∀ x ∈ xs, 0 ≤ fl (x / S) ∧ fl (x / S) ≤ 1 ∧ IsDouble f (fl (x / S)) := by
    intro x hxm
    have hq : 0 ≤ x / S := div_nonneg (hx0 x hxm) hSp.le
    have hq1 : x / S ≤ 1 := by
      rw [div_le_one hSp]
      exact sumFl_ge_mem h' hxf hxm
    have u := h.mono hq1
    rw [h.exact one] at u
    exact ⟨h.nonneg hq, u, h.format _, by rw [abs_of_nonneg (h.nonneg hq)]; linarith⟩
  refine ⟨xs.map fun x => fl (x / S), ?_, by simp, ?_, ?_, ?_⟩
  · unfold normalizeX
    rw [sumX_fin h h' he hx, ← hS, if_pos hSt]
    simp only
    rw [if_neg (fun hc => hSp.ne' (by simpa [XVal.val?] using hc.2))]
    congr 1
    rw [List.map_map, List.map_map]
    refine List.map_congr_left fun x hxm => ?_
    have hq : 0 ≤ x / S := div_nonneg (hx0 x hxm) hSp.le
    have hd : (XVal.fin x).div (.fin S) = .fin (x / S) := by
      have n1 : decide (x < 0) = false := by simpa using hx0 x hxm
      have n2 : decide (S < 0) = false := by simpa using hSp.le
      simp only [XVal.div, XVal.val?, XVal.negative, n1, n2, hSp.ne', XVal.signed, XVal.zero]
      by_cases hz : x / S = 0
      · simp [hz]
      · simp [hz]
    simp only [Function.comp_apply, hd]
    rw [toDouble_fin h hq, if_pos (by linarith [(hw1 x hxm).2.1])]
  · intro w hw
    obtain ⟨x, hxm, rfl⟩ := List.mem_map.1 hw
    exact hw1 x hxm
  · rw [hws', List.forall₂_map_right_iff] at e4
    rw [List.forall₂_map_right_iff]
    refine List.forall₂_same.2 fun x hxm => ?_
    have e4' := List.forall₂_same.1 e4 x hxm
    have := unlimited_near hp h h' he (x / S)
    have := abs_sub_le (fl (x / S)) (fl' (x / S)) (x / xs.sum)
    linarith
  · have hdiff : ∀ l : List K, |(l.map fun x => fl (x / S)).sum - (l.map fun x => fl' (x / S)).sum| ≤
        l.length * 2 ^ f.low := by
      intro l
      induction l with
      | nil => simp
      | cons x l ih =>
        simp only [List.map_cons, List.sum_cons, List.length_cons]
        have := unlimited_near hp h h' he (x / S)
        have := abs_add_le (fl (x / S) - fl' (x / S))
          ((l.map fun x => fl (x / S)).sum - (l.map fun x => fl' (x / S)).sum)
        have e : fl (x / S) + (l.map fun x => fl (x / S)).sum - (fl' (x / S) + (l.map fun x => fl' (x / S)).sum) =
          fl (x / S) - fl' (x / S) + ((l.map fun x => fl (x / S)).sum - (l.map fun x => fl' (x / S)).sum) := by ring
        rw [e]
        push_cast
        linarith
    have d := hdiff xs
    rw [← hws'] at d
    have := abs_sub_le (xs.map fun x => fl (x / S)).sum ws'.sum 1
    linarith

/-- **C171.** Relative weights are accepted then, and what is kept are values whose weights come from `normalize`; every
value whose share of the sum is more than the smallest positive float is kept, in the given order. -/
theorem C171_relative (hf : f.Usual) (h : RoundsDouble f fl) {ι : Type} {xs : List K} {vals : List ι}
    (hl : xs.length = vals.length) (hx : ∀ x ∈ xs, 0 ≤ x ∧ IsDouble f x) (hpos : 0 < xs.sum)
    (htop : 2 * xs.sum < 2 ^ f.top) (hn : xs.length * ulp f.p ≤ (1 / 8 : K)) :
    ∃ ws : List K, normalizeX f fl (xs.map .fin) = .ok (ws.map .fin) ∧
      processX f fl (.relative (xs.map .fin)) vals =
        .ok ((((ws.zip vals).filter (fun x => x.1 ≠ 0)).map Prod.fst).map .fin,
          ((ws.zip vals).filter (fun x => x.1 ≠ 0)).map Prod.snd) ∧
      List.Forall₂ (fun x w => 2 * 2 ^ f.low < x / xs.sum → w ≠ 0) xs ws := by
  obtain ⟨ws, e1, e2, e3, e4, -⟩ := C171_normalize hf h hx hpos htop (hn.trans (by norm_num))
  have hne : vals ≠ [] := by
    rintro rfl
    rw [List.length_eq_zero_iff.1 hl] at hpos
    simp at hpos
  have hl' : ws.length = vals.length := e2.trans hl
  have hk := keepPositive_eq ws vals hl'
  rw [if_pos fun w hw => (e3 w hw).1] at hk
  refine ⟨ws, e1, ?_, ?_⟩
  · unfold processX
    rw [if_neg hne]
    simp only [if_neg (nan_not_mem_fin xs), e1, Bind.bind, Except.bind, List.length_map]
    rw [if_neg (fun hc => hc hl'), keepPositiveX_fin, hk]
    rfl
  · refine e4.imp fun x w hxw hb hw => ?_
    rw [hw, zero_sub, abs_neg] at hxw
    have h2 : (0 : K) < 2 ^ f.low := by positivity
    have hq : 0 < x / xs.sum := by linarith
    rw [abs_of_pos hq] at hxw
    nlinarith

/-- **C171** (not so when the sum is too large): relative weights, all finite and of any ratios, whose sum exceeds the
largest float are all turned into 0; the call succeeds and keeps no value at all. -/
theorem C171_overflow (hf : f.Usual) (h : RoundsDouble f fl) {ι : Type} {xs : List K} {vals : List ι}
    (hl : xs.length = vals.length) (hx : ∀ x ∈ xs, 0 ≤ x ∧ IsDouble f x) (hn : xs.length * ulp f.p ≤ (1 / 2 : K))
    (htop : (2 : K) ^ f.top ≤ (1 - xs.length * ulp f.p) * xs.sum) :
    processX f fl (.relative (xs.map .fin)) vals = .ok ([], []) := by
  have hp : 1 ≤ f.p := by have := hf.digits; omega
  obtain ⟨fl', h', he⟩ := h.unlimited hp
  obtain ⟨b1, -⟩ := sumFl_bounds h' hp (fun x hx' => (hx x hx').1) le_rfl hn
  have hs : sumX f fl (xs.map .fin) = .pinf := by
    rw [sumX_fin h h' he hx, if_neg (not_lt.2 (htop.trans b1))]
  have ht : (0 : K) < 2 ^ f.top := by positivity
  have hne : vals ≠ [] := by
    rintro rfl
    rw [List.length_eq_zero_iff.1 hl] at htop
    simp at htop
    linarith
  have hzero : ∀ x ∈ xs, ((XVal.fin x).div .pinf).toDouble f fl = .fin 0 := by
    intro x hxm
    have n1 : decide (x < 0) = false := by simpa using (hx x hxm).1
    have : (XVal.fin x).div .pinf = .fin 0 := by
      simp only [XVal.div, XVal.val?, XVal.negative, n1, XVal.zero]
      simp
    rw [this, toDouble_fin h le_rfl, h.exact inFormat_zero, if_pos ht]
  have hnorm : normalizeX f fl (xs.map .fin) = .ok ((List.replicate xs.length (0 : K)).map .fin) := by
    unfold normalizeX
    simp only [hs]
    rw [if_neg (fun hc => by simp [XVal.val?] at hc)]
    congr 1
    rw [List.map_map, List.map_replicate]
    exact List.eq_replicate_iff.2 ⟨by simp, fun y hy => by
      obtain ⟨x, hxm, rfl⟩ := List.mem_map.1 hy
      exact hzero x hxm⟩
  unfold processX
  rw [if_neg hne]
  simp only [if_neg (nan_not_mem_fin xs), hnorm, Bind.bind, Except.bind, List.length_map, List.length_replicate]
  rw [if_neg (fun hc => hc hl), keepPositiveX_fin, keepPositive_eq _ _ (by simpa using hl), if_pos (by
    intro w hw
    rw [List.eq_of_mem_replicate hw])]
  have hfil : ((List.replicate xs.length (0 : K)).zip vals).filter (fun x => x.1 ≠ 0) = [] := by
    rw [List.filter_eq_nil_iff]
    rintro ⟨a, b⟩ hab
    have := (List.of_mem_zip hab).1
    rw [List.eq_of_mem_replicate this]
    simp
  rw [hfil]
  rfl

omit [FloorRing K] in
theorem isDouble_half_top (hf : f.Usual) : IsDouble f ((2 : K) ^ (f.top - 1)) := by
  have h1 : IsFloat f.p ((2 : K) ^ (f.top - 1)) := by
    have := isFloat_mul_zpow (isFloat_one (K := K) f.p) (f.top - 1)
    rwa [one_mul] at this
  have hpos : (0 : K) < 2 ^ (f.top - 1) := by positivity
  have a := hf.large
  have b := hf.fine
  refine ⟨⟨h1, onGrid_of_large (by have := hf.digits; omega) h1 ?_⟩, ?_⟩
  · rw [abs_of_pos hpos]
    exact zpow_le_zpow_right₀ one_le_two (by omega)
  · rw [abs_of_pos hpos]
    exact zpow_lt_zpow_right₀ one_lt_two (by omega)

/-- **C171** (example): three values with the relative weights `2^1023` each are equally likely, but the call succeeds
and keeps none of them. -/
theorem C171_lost_fails (hf : f.Usual) (h8 : 8 ≤ f.p) (h : RoundsDouble f fl) {ι : Type} (a b c : ι) :
    IsDouble f ((2 : K) ^ (f.top - 1)) ∧
      processX f fl (.relative [.fin (2 ^ (f.top - 1)), .fin (2 ^ (f.top - 1)), .fin (2 ^ (f.top - 1))]) [a, b, c] =
        .ok ([], []) := by
  refine ⟨isDouble_half_top hf, ?_⟩
  have hu : (ulp f.p : K) ≤ 1 / 256 := by
    unfold ulp
    apply one_div_le_one_div_of_le (by norm_num)
    calc (256 : K) = 2 ^ 8 := by norm_num
      _ ≤ 2 ^ f.p := pow_le_pow_right₀ one_le_two h8
  have hpos : (0 : K) < 2 ^ (f.top - 1) := by positivity
  have e : (2 : K) ^ f.top = 2 * 2 ^ (f.top - 1) := by
    rw [show f.top = f.top - 1 + 1 by ring, zpow_add₀ two_ne_zero]
    norm_num
    ring
  have := C171_overflow hf h (ι := ι) (xs := [2 ^ (f.top - 1), 2 ^ (f.top - 1), 2 ^ (f.top - 1)]) (vals := [a, b, c])
    rfl (by
      intro x hx
      have : x = 2 ^ (f.top - 1) := by simpa using hx
      rw [this]
      exact ⟨hpos.le, isDouble_half_top hf⟩) (by
      simp only [List.length_cons, List.length_nil]
      push_cast
      linarith) (by
      simp only [List.length_cons, List.length_nil, List.sum_cons, List.sum_nil]
      push_cast
      rw [e]
      nlinarith)
  exact this

/-- Python floats, rounded to even, are such an arithmetic; and the example below meets the hypotheses of `C171_normalize`. -/
example : RoundsDouble binary64 (roundDouble (K := ℚ) binary64) ∧ binary64.Usual :=
  ⟨roundDouble_rounds (by decide), binary64_usual⟩

example : ∃ ws : List ℚ, normalizeX binary64 (roundDouble binary64) [.fin (2 ^ 200), .fin (2 ^ 200)] =
    .ok (ws.map .fin) ∧ ws.length = 2 := by
  have hd : IsDouble binary64 ((2 : ℚ) ^ 200) :=
    ⟨⟨⟨1, 200, by norm_num [binary64], by norm_num⟩, onGrid_of_large (by decide)
      ⟨1, 200, by norm_num [binary64], by norm_num⟩ (by
        rw [abs_of_pos (by positivity), ← zpow_natCast]
        exact zpow_le_zpow_right₀ (by norm_num) (by norm_num [binary64]))⟩, by
        rw [abs_of_pos (by positivity), ← zpow_natCast]
        exact zpow_lt_zpow_right₀ (by norm_num) (by norm_num [binary64])⟩
  obtain ⟨ws, h1, h2, -⟩ := C171_normalize binary64_usual (roundDouble_rounds (K := ℚ) (f := binary64) (by decide))
    (xs := [2 ^ 200, 2 ^ 200]) (by
      intro x hx
      have : x = 2 ^ 200 := by simpa using hx
      rw [this]
      exact ⟨by positivity, hd⟩) (by simp) (by
      have e : (2 : ℚ) * [(2 : ℚ) ^ 200, 2 ^ 200].sum = 2 ^ (202 : ℤ) := by norm_num
      rw [e]
      exact zpow_lt_zpow_right₀ (by norm_num) (by norm_num [binary64])) (by norm_num [ulp, binary64])
  exact ⟨ws, h1, h2⟩

end Verif
