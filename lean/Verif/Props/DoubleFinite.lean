import Verif.Props.DoubleMean
import Verif.Props.DoublePercentiles

/-!
# C181: percentiles that are finite are never outside the data
-/

namespace Verif

open Spec

variable {K : Type} [Field K] [LinearOrder K] [IsStrictOrderedRing K] [FloorRing K] {f : FloatFormat} {fl : K → K}

omit [IsStrictOrderedRing K] [FloorRing K] in
theorem finite_of_neg {a : XVal K} {y : K} (h : a.neg.Is y) : ∃ x, a.Is x := by
  cases a <;> simp [XVal.Is, XVal.neg, XVal.val?] at h ⊢

omit [IsStrictOrderedRing K] [FloorRing K] in
theorem finite_of_sub {a b : XVal K} {y : K} (h : (a.sub b).Is y) : (∃ x, a.Is x) ∧ ∃ x, b.Is x := by
  obtain ⟨h1, x, h2⟩ := finite_of_add h
  exact ⟨h1, finite_of_neg h2⟩

omit [IsStrictOrderedRing K] [FloorRing K] in
theorem finite_of_mul {a : XVal K} {t y : K} (h : (a.mul (.fin t)).Is y) : ∃ x, a.Is x := by
  have hi : ∀ b, (XVal.inf b : XVal K).val? = none := by
    intro b; cases b <;> rfl
  cases a with
  | fin x => exact ⟨x, rfl⟩
  | nzero => exact ⟨0, rfl⟩
  | pinf =>
    refine absurd h ?_
    by_cases h0 : t = 0
    · simp [XVal.Is, XVal.mul, XVal.val?, h0]
    · simp [XVal.Is, XVal.mul, show (XVal.pinf : XVal K).val? = none from rfl, show (XVal.fin t).val? = some t from rfl,
        h0, hi]
  | ninf =>
    refine absurd h ?_
    by_cases h0 : t = 0
    · simp [XVal.Is, XVal.mul, XVal.val?, h0]
    · simp [XVal.Is, XVal.mul, show (XVal.ninf : XVal K).val? = none from rfl, show (XVal.fin t).val? = some t from rfl,
        h0, hi]
  | nan => exact absurd h (by simp [XVal.Is, XVal.mul, XVal.val?])

omit [FloorRing K] in
theorem lt_of_finite (h : RoundsDouble f fl) {v : XVal K} {x y : K} (hv : v.Is x) (hy : (v.toDouble f fl).Is y) :
    |fl x| < (2 : K) ^ f.top := by
  rcases v.is_cases hv with rfl | ⟨rfl, rfl⟩
  · by_contra hc
    unfold XVal.Is XVal.toDouble XVal.inf at hy
    simp only [if_neg hc] at hy
    by_cases hx : x < 0 <;> simp [XVal.val?, hx] at hy
  · rw [h.exact inFormat_zero, abs_zero]
    positivity

omit [FloorRing K] in
theorem lerpX_finite (h : RoundsDouble f fl) {a b t x : K} (hx : (lerpX f fl a b t).val? = some x) :
    fl (b - a) < 2 ^ f.top := by
  have key : ∀ {u y : K}, (((((XVal.fin b).sub (.fin a)).toDouble f fl).mul (.fin u)).toDouble f fl).Is y →
      fl (b - a) < 2 ^ f.top := by
    intro u y hy
    obtain ⟨z, hz, -⟩ := finite_of_toDouble h hy
    obtain ⟨r, hr⟩ := finite_of_mul hz
    exact (le_abs_self _).trans_lt (lt_of_finite h (XVal.sub_is (a := .fin b) (b := .fin a) rfl rfl) hr)
  unfold lerpX at hx
  simp only at hx
  split at hx
  · obtain ⟨z, hz, -⟩ := finite_of_toDouble h hx
    obtain ⟨-, y, hy⟩ := finite_of_sub hz
    exact key hy
  · obtain ⟨z, hz, -⟩ := finite_of_toDouble h hx
    obtain ⟨-, y, hy⟩ := finite_of_add hz
    exact key hy

/-- **C181**: for all finite floats, a percentile that is finite is between the smallest and the largest of them: numpy's
interpolation never answers with a wrong number, only with an infinity or `nan`. -/
theorem C181_finite (hp : 1 ≤ f.p) (hlow : f.low + f.p ≤ 0) (h : RoundsDouble f fl) {data ps : List K}
    (hf : ∀ x ∈ data, IsDouble f x) (hne : data ≠ []) (hps : ∀ q ∈ ps, 0 ≤ q ∧ q ≤ 100)
    {lo hi : K} (hb : ∀ x ∈ data, lo ≤ x ∧ x ≤ hi) :
    ∃ out, npPercentileX f fl data ps = .ok out ∧ out.length = ps.length ∧
      ∀ v ∈ out, ∀ x, v.val? = some x → lo ≤ x ∧ x ≤ hi := by
  refine ⟨ps.map (percentileX f fl (data.insertionSort (· ≤ ·))), ?_, by simp, ?_⟩
  · unfold npPercentileX
    rw [if_neg (by push Not; exact hps), if_neg hne]
  intro v hv y hy
  obtain ⟨q, hq, rfl⟩ := List.mem_map.1 hv
  have hsort := sort_sorted data
  set s := data.insertionSort (· ≤ ·) with hs
  have hn : 0 < s.length := List.length_pos_of_ne_nil (sort_ne hne)
  have hm : ∀ i, i < s.length → s.getD i 0 ∈ data := fun i hi => by
    rw [List.getD_eq_getElem _ _ hi]
    exact (List.mem_insertionSort (· ≤ ·)).1 (List.getElem_mem _)
  unfold percentileX at hy
  simp only at hy
  split at hy
  · have := hb _ (hm (s.length - 1) (by omega))
    rwa [Option.some.inj hy] at this
  · rename_i hc
    push Not at hc
    have h0 : 0 ≤ positionFl fl s.length q := by
      have : (1 : K) ≤ s.length := by exact_mod_cast hn
      exact h.nonneg (mul_nonneg (h.nonneg (by linarith)) (h.nonneg (div_nonneg (hps q hq).1 (by norm_num))))
    obtain ⟨c1, -⟩ := position_cell h0 hc
    have f1 : InFormat f (1 : K) := by
      have := inFormat_two_zpow (K := K) (f := f) hp (k := 0) (by omega)
      simpa using this
    obtain ⟨t0, t1⟩ := h.unit f1 (Int.fract_nonneg (positionFl fl s.length q)) (Int.fract_lt_one _).le
    have m1 := hm (⌊positionFl fl s.length q⌋.toNat) (by omega)
    have m2 := hm (⌊positionFl fl s.length q⌋.toNat + 1) (by omega)
    have hab := sorted_getD hsort (Nat.le_succ ⌊positionFl fl s.length q⌋.toNat) (by omega)
    obtain ⟨x, e, x0, x1⟩ := lerpX_between hp hlow h (hf _ m1) (hf _ m2) hab (lerpX_finite h hy) t0 t1
    obtain rfl := Option.some.inj (hy.symm.trans e)
    exact ⟨(hb _ m1).1.trans x0, x1.trans (hb _ m2).2⟩

/-- Among data with an infinite difference, some percentiles are finite: the quartiles of `-2^1023`, `0` and `2^1023`; the
rounded difference of the first and the last is infinite. -/
example :
    npPercentileX binary64 (roundDouble binary64) [-2 ^ 1023, 2 ^ 1023, 0] [25, 50, 75] =
      .ok [.fin (-2 ^ 1022), .fin 0, .fin (2 ^ 1022 : ℚ)] ∧
    ¬ roundDouble binary64 ((2 : ℚ) ^ 1023 - -2 ^ 1023) < 2 ^ binary64.top :=
  ⟨by decide +kernel, by decide +kernel⟩

end Verif
