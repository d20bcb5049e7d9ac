import Verif.Lemmas.Weights
import Verif.Spec.Weights
import Mathlib.Tactic.Ring

/-!
# C01–C04, C08, C10: processing of weights
-/

namespace Verif

open Spec

set_option linter.unusedSectionVars false

variable {K : Type} [Field K] [LinearOrder K] [IsStrictOrderedRing K] {α : Type}

/-- The ways a caller can hand over a sequence of numbers `ws` as weights. -/
def weightForms (ws : List K) : List (WArg K) :=
  [.list (ws.map some), .ndarray (ws.map some), .tuple (ws.map some)]

/-- Were the weights passed as a numpy array? -/
def isNumpyArray : WArg K → Bool
  | .ndarray _ => true
  | _ => false

theorem resolve_forms {W : WArg K} {ws : List K} (h : W ∈ weightForms ws) :
    ∃ owner, resolveWeights W = .ok (some (ws.map some, owner)) := by
  simp only [weightForms, List.mem_cons, List.not_mem_nil, or_false] at h
  rcases h with rfl | rfl | rfl
  · exact ⟨.caller, rfl⟩
  · exact ⟨.numpy, rfl⟩
  · exact ⟨.tuple, rfl⟩

/-- **C01** (one weight per value): the complete outcome of the call.  It succeeds exactly when the
weights are acceptable, and then returns exactly the pairs with non-zero weight, in order and
unchanged; otherwise it raises `ValueError`. -/
theorem C01_weights_decision (na : α → Bool) (ws : List K) (vs : List α) (W : WArg K)
    (hW : W ∈ weightForms ws) (hlen : ws.length = vs.length) (hne : vs ≠ []) (dropNa : Bool)
    (hna : dropNa = true → ∀ v ∈ vs, na v = false) :
    (processWeightsValues na W .absent (.list (vs.map .plain)) dropNa).result =
      if Acceptable ws then
        .ok ((nonzeroPairs ws vs).map Prod.fst,
             (nonzeroPairs ws vs).map (fun p => VItem.plain p.2))
      else .error .valueError := by
  obtain ⟨owner, hres⟩ := resolve_forms hW
  rw [process_explicit na W owner ws vs dropNa hne hres hna]
  have h1 : ¬ (ws.length + 1 = (vs.map (VItem.plain (K := K))).length ∧ ws.sum < 1) := by
    simp; omega
  unfold finishWeights
  simp only [Bool.false_eq_true, if_false]
  rw [if_neg h1]
  by_cases hs : ws.sum ≤ 99 / 100 ∨ ws.sum ≥ 101 / 100
  · rw [if_pos hs, if_neg]
    rintro ⟨-, h2, h3⟩
    rcases hs with hs | hs
    · exact absurd h2 (not_lt.mpr hs)
    · exact absurd h3 (not_lt.mpr hs)
  · rw [if_neg hs]
    push Not at hs
    have hl : ¬ (ws.length ≠ (vs.map (VItem.plain (K := K))).length) := by simpa using hlen
    rw [if_neg hl]
    show keepPositive ws (vs.map VItem.plain) = _
    rw [keepPositive_eq _ _ (by simpa using hlen)]
    by_cases hall : ∀ w ∈ ws, 0 ≤ w
    · rw [if_pos hall, if_pos ⟨hall, hs.1, hs.2⟩, zip_map_right', List.filter_map, List.map_map,
        List.map_map]
      rfl
    · rw [if_neg hall, if_neg fun h => hall h.1]

/-- the hypotheses of `C01_weights_decision` are met, and both outcomes occur -/
example : Acceptable [(1/4 : ℚ), 0, 3/4] ∧ ¬ Acceptable [(1/4 : ℚ), 1/4] ∧
    WArg.list ([(1/4 : ℚ), 0, 3/4].map some) ∈ weightForms [(1/4 : ℚ), 0, 3/4] := by
  refine ⟨?_, ?_, List.mem_cons_self⟩
  · unfold Acceptable; norm_num
  · unfold Acceptable; norm_num

/-- **C01** (number of weights differs from the number of values, and it is not the case that just
the last weight is omitted with a sum below one): `ValueError`. -/
theorem C01_length_mismatch (na : α → Bool) (ws : List K) (vs : List α) (W : WArg K)
    (hW : W ∈ weightForms ws) (hlen : ws.length ≠ vs.length) (hne : vs ≠ [])
    (hnot : ¬ (ws.length + 1 = vs.length ∧ ws.sum < 1)) (dropNa : Bool)
    (hna : dropNa = true → ∀ v ∈ vs, na v = false) :
    (processWeightsValues na W .absent (.list (vs.map .plain)) dropNa).result =
      .error .valueError := by
  obtain ⟨owner, hres⟩ := resolve_forms hW
  rw [process_explicit na W owner ws vs dropNa hne hres hna]
  unfold finishWeights
  simp only [Bool.false_eq_true, if_false, List.length_map]
  rw [if_neg hnot]
  by_cases hs : ws.sum ≤ 99 / 100 ∨ ws.sum ≥ 101 / 100
  · rw [if_pos hs]
  · rw [if_neg hs, if_pos hlen]

example : ¬ ([(1/2 : ℚ), 1/2].length + 1 = [1, 2, 3].length ∧ ([(1/2 : ℚ), 1/2].sum < 1)) := by
  norm_num

/-- **C01** (refused argument shapes): an NA weight, an empty or missing list of values, both kinds
of weights, values or weights that are not iterable. -/
theorem C01_refused (na : α → Bool) (dropNa : Bool) :
    (∀ (w r : WArg K) v, w.isAbsent = false → r.isAbsent = false →
      (processWeightsValues na w r v dropNa).result = .error .valueError) ∧
    (∀ (w r : WArg K), (processWeightsValues na w r (.list ([] : List (VItem K α))) dropNa).result
      = .error .valueError) ∧
    (∀ (w r : WArg K), (processWeightsValues na w r (.absent : VArg K α) dropNa).result
      = .error .valueError) ∧
    (∀ v : VArg K α, (processWeightsValues na .other .absent v dropNa).result
      = .error .valueError) ∧
    (∀ (ws : List (Option K)) (vs : List α), none ∈ ws → vs ≠ [] →
      (∀ v ∈ vs, na v = false) →
      (processWeightsValues na (.list ws) .absent (.list (vs.map .plain)) dropNa).result
        = .error .valueError) := by
  refine ⟨?_, ?_, ?_, ?_, ?_⟩
  · intro w r v hw hr
    simp [processWeightsValues, hw, hr]
  · intro w r
    unfold processWeightsValues
    split
    · rfl
    · rfl
  · intro w r
    unfold processWeightsValues
    split
    · rfl
    · rfl
  · intro v
    unfold processWeightsValues
    have h1 : (WArg.absent : WArg K).isAbsent = true := rfl
    simp only [h1, Bool.not_true, Bool.and_false, Bool.false_eq_true, if_false]
    split
    · rfl
    · rfl
  · intro ws vs hmem hne hna
    have hreq : requireNumbers ws = .error .valueError := by
      induction ws with
      | nil => cases hmem
      | cons w ws ih =>
        cases w with
        | none => rfl
        | some w =>
          have := ih (by simpa using hmem)
          simp [requireNumbers, this, bind, Except.bind]
    have hany : (dropNa && (vs.map (VItem.plain (K := K))).any (itemNa na)) = false := by
      rw [any_itemNa_plain]
      have : vs.any na = false := by
        rw [List.any_eq_false]; intro x hx; simp [hna x hx]
      simp [this]
    have hemp : valuesEmpty (VArg.list (vs.map (VItem.plain (K := K)))) = false := by
      cases vs with
      | nil => exact absurd rfl hne
      | cons v vs => rfl
    have hfill : fillWeights na dropNa (some (ws, WOwner.caller)) (vs.map (VItem.plain (K := K))) =
        .ok ((ws, .caller), vs.map .plain) := by
      simp only [fillWeights, hany]; rfl
    have habs : (WArg.absent : WArg K).isAbsent = true := rfl
    simp only [processWeightsValues, habs, Bool.not_true, Bool.and_false, Bool.false_eq_true,
      if_false, hemp, resolveWeights, resolveValues, hfill, hreq]

/-- **C02**: with relative weights of non-zero sum the outcome is decided by the normalised weights
`rs / sum rs`: success exactly when all of them are non-negative; kept are the non-zero ones, in
order, each divided by the sum.  A zero sum raises, except that a numpy array of zeros is accepted and
drops every value. -/
theorem C02_relative_decision (na : α → Bool) (rs : List K) (vs : List α) (W : WArg K)
    (hW : W ∈ weightForms rs) (hlen : rs.length = vs.length) (hne : vs ≠ []) (dropNa : Bool)
    (hna : dropNa = true → ∀ v ∈ vs, na v = false) :
    (processWeightsValues na .absent W (.list (vs.map .plain)) dropNa).result =
      if rs.sum = 0 then
        (if isNumpyArray W = false then .error .zeroDivisionError
        else if ∀ r ∈ rs, r = 0 then .ok ([], []) else .error .valueError)
      else if ∀ r ∈ rs, 0 ≤ r / rs.sum then
        .ok ((nonzeroPairs rs vs).map (fun p => p.1 / rs.sum),
             (nonzeroPairs rs vs).map (fun p => VItem.plain p.2))
      else .error .valueError := by
  have hform : ∃ owner, resolveWeights W = .ok (some (rs.map some, owner)) ∧
      (owner = .numpy ↔ isNumpyArray W = true) := by
    simp only [weightForms, List.mem_cons, List.not_mem_nil, or_false] at hW
    rcases hW with rfl | rfl | rfl
    · exact ⟨.caller, rfl, by simp [isNumpyArray]⟩
    · exact ⟨.numpy, rfl, by simp [isNumpyArray]⟩
    · exact ⟨.tuple, rfl, by simp [isNumpyArray]⟩
  obtain ⟨owner, hres, howner⟩ := hform
  rw [process_relative na W owner rs vs dropNa hne hres hna]
  have hrne : rs ≠ [] := by rintro rfl; simp at hlen; exact hne (List.length_eq_zero_iff.mp hlen.symm)
  unfold finishWeights normalize
  simp only [if_true]
  by_cases hs : rs.sum = 0
  · by_cases ho : owner = .numpy
    · have hW' := howner.1 ho
      rw [if_pos ⟨ho, hrne, hs⟩, if_pos hs, if_neg (by rw [hW']; simp)]
      unfold normalizedByZero
      rw [if_neg (by simpa using hlen)]
      by_cases hall : ∀ r ∈ rs, r = 0
      · rw [if_pos hall, if_neg]
        rintro ⟨w, hw, h0⟩
        rw [hall w hw] at h0
        exact lt_irrefl _ h0
      · rw [if_neg hall, if_pos]
        by_contra hno
        push Not at hno
        exact hall fun r hr => le_antisymm (by
          have := List.single_le_sum hno r hr
          rwa [hs] at this) (hno r hr)
    · simp [hs, hrne, ho, show isNumpyArray W = false from Bool.eq_false_iff.2 fun h => ho (howner.2 h)]
  · rw [if_neg (fun h => hs h.2.2)]
    simp only [hs, and_false, if_false, List.length_map]
    rw [if_neg (by simpa using hlen)]
    show keepPositive (rs.map (· / rs.sum)) (vs.map VItem.plain) = _
    rw [keepPositive_eq _ _ (by simpa using hlen)]
    simp only [List.mem_map, forall_exists_index, and_imp, forall_apply_eq_imp_iff₂]
    by_cases hall : ∀ r ∈ rs, 0 ≤ r / rs.sum
    · rw [if_pos hall, if_pos hall, zip_map_left', zip_map_right', List.map_map, List.filter_map,
        List.map_map, List.map_map]
      have : (nonzeroPairs rs vs) = (rs.zip vs).filter
          ((fun p => decide (p.1 ≠ 0)) ∘ ((fun p : K × VItem K α => (p.1 / rs.sum, p.2)) ∘
            fun p : K × α => (p.1, VItem.plain p.2))) := by
        unfold nonzeroPairs
        apply List.filter_congr
        intro p _
        simp [hs]
      rw [this]
      rfl
    · rw [if_neg hall, if_neg hall]

/-- **C02**: relative weights with sum zero raise when they are passed as a list or tuple; passed as a numpy
array they raise unless all of them are zero.  (Missing: arrays of zeros, see `C02_numpy_zero_fails`.) -/
theorem C02_zero_raises_partial (na : α → Bool) (rs : List K) (vs : List α) (W : WArg K)
    (hW : W ∈ weightForms rs) (hlen : rs.length = vs.length) (hne : vs ≠ []) (hs : rs.sum = 0)
    (hnp : isNumpyArray W = false ∨ ∃ r ∈ rs, r ≠ 0) :
    ∃ e, (processWeightsValues na .absent W (.list (vs.map .plain)) false).result = .error e := by
  rw [C02_relative_decision na rs vs W hW hlen hne false (by simp), if_pos hs]
  rcases hnp with h | ⟨r, hr, h0⟩
  · exact ⟨_, if_pos h⟩
  · by_cases h : isNumpyArray W = false
    · exact ⟨_, if_pos h⟩
    · exact ⟨_, by rw [if_neg h, if_neg fun hall => h0 (hall r hr)]⟩

example : [(1 : ℚ), -1].sum = 0 ∧ ∃ r ∈ [(1 : ℚ), -1], r ≠ 0 := by norm_num

/-- **C02 fails** for numpy arrays: relative weights that are all zero do not raise when they are passed as a
numpy array; the division gives `nan`, which counts as neither negative nor positive, and every value is
dropped: nothing is left of the mixture. -/
theorem C02_numpy_zero_fails (na : α → Bool) (vs : List α) (hne : vs ≠ []) :
    (processWeightsValues (K := K) na .absent (.ndarray ((vs.map fun _ => (0 : K)).map some))
      (.list (vs.map .plain)) false).result = .ok ([], []) := by
  rw [C02_relative_decision na (vs.map fun _ => (0 : K)) vs _ (by simp [weightForms]) (by simp) hne false
    (by simp), if_pos (by simp), if_neg (by simp [isNumpyArray]), if_pos (by simp)]

/-- **C02**: non-negative relative weights of positive sum always succeed; the kept weights sum to
exactly one, are in the ratio of the given ones (each is the given one over the sum), and the kept
values are those with non-zero weight. -/
theorem C02_relative_normalised (na : α → Bool) (rs : List K) (vs : List α) (W : WArg K)
    (hW : W ∈ weightForms rs) (hlen : rs.length = vs.length) (hnn : ∀ r ∈ rs, 0 ≤ r)
    (hpos : 0 < rs.sum) :
    ∃ ws', (processWeightsValues na .absent W (.list (vs.map .plain)) false).result =
        .ok (ws', (nonzeroPairs rs vs).map (fun p => VItem.plain p.2)) ∧
      ws' = (nonzeroPairs rs vs).map (fun p => p.1 / rs.sum) ∧ ws'.sum = 1 ∧ (∀ w ∈ ws', 0 < w) := by
  have hne : vs ≠ [] := by
    rintro rfl
    have : rs = [] := List.length_eq_zero_iff.mp hlen
    subst this; simp at hpos
  refine ⟨_, ?_, rfl, ?_, ?_⟩
  · rw [C02_relative_decision na rs vs W hW hlen hne false (by simp), if_neg (ne_of_gt hpos), if_pos]
    intro r hr
    exact div_nonneg (hnn r hr) hpos.le
  · have : (nonzeroPairs rs vs).map (fun p => p.1 / rs.sum) =
        ((nonzeroPairs rs vs).map Prod.fst).map (· / rs.sum) := by rw [List.map_map]; rfl
    rw [this, sum_map_div]
    unfold nonzeroPairs
    rw [sum_filter_ne_zero, map_fst_zip' _ _ hlen, div_self (ne_of_gt hpos)]
  · intro w hw
    rw [List.mem_map] at hw
    obtain ⟨p, hp, rfl⟩ := hw
    unfold nonzeroPairs at hp
    rw [List.mem_filter] at hp
    have h1 : p.1 ∈ rs := (List.of_mem_zip (by simpa using hp.1)).1
    have h2 : p.1 ≠ 0 := by simpa using hp.2
    exact div_pos (lt_of_le_of_ne (hnn _ h1) h2.symm) hpos

example : (0 : ℚ) < [(3 : ℚ), 0, 5].sum ∧ ∀ r ∈ [(3 : ℚ), 0, 5], 0 ≤ r := by norm_num

/-- **C02**: only the ratios matter – multiplying all relative weights by the same non-zero constant
(in a sequence of the same type) does not change the outcome of the call at all. -/
theorem C02_scale_invariant (na : α → Bool) (rs : List K) (vs : List α) (c : K) (hc : c ≠ 0)
    (W W' : WArg K) (hWW : (W, W') ∈ (weightForms rs).zip (weightForms (rs.map (c * ·))))
    (hlen : rs.length = vs.length) (hne : vs ≠ []) (dropNa : Bool)
    (hna : dropNa = true → ∀ v ∈ vs, na v = false) :
    (processWeightsValues na .absent W' (.list (vs.map .plain)) dropNa).result =
      (processWeightsValues na .absent W (.list (vs.map .plain)) dropNa).result := by
  have hW := (List.of_mem_zip hWW).1
  have hW' := (List.of_mem_zip hWW).2
  have hnd : isNumpyArray W' = isNumpyArray W := by
    simp only [weightForms, List.zip_cons_cons, List.zip_nil_left, List.mem_cons, Prod.mk.injEq,
      List.not_mem_nil, or_false] at hWW
    rcases hWW with ⟨rfl, rfl⟩ | ⟨rfl, rfl⟩ | ⟨rfl, rfl⟩ <;> rfl
  rw [C02_relative_decision na rs vs W hW hlen hne dropNa hna,
    C02_relative_decision na (rs.map (c * ·)) vs W' hW' (by simpa using hlen) hne dropNa hna]
  have hsum : (rs.map (c * ·)).sum = c * rs.sum := by
    rw [List.sum_map_mul_left]; simp
  have hdiv : ∀ r : K, c * r / (c * rs.sum) = r / rs.sum := fun r => mul_div_mul_left _ _ hc
  have hpairs : nonzeroPairs (rs.map (c * ·)) vs = (nonzeroPairs rs vs).map (fun p => (c * p.1, p.2)) := by
    unfold nonzeroPairs
    rw [zip_map_left', List.filter_map]
    congr 1
    apply List.filter_congr
    intro p _
    simp [hc]
  rw [hsum, hpairs]
  simp only [mul_eq_zero, hc, false_or, List.mem_map, forall_exists_index, and_imp,
    forall_apply_eq_imp_iff₂, hdiv, List.map_map]
  by_cases h0 : rs.sum = 0
  · simp only [h0, if_true, hnd]
  · simp only [h0, if_false]
    congr 1
    congr 1
    congr 1
    apply List.map_congr_left
    intro p _
    exact hdiv p.1

/-- **C02**, a consequence the documentation does not mention: relative weights that are all
*negative* are accepted, because only their ratios matter. -/
theorem C02_negative_accepted (na : α → Bool) (rs : List K) (vs : List α)
    (hlen : rs.length = vs.length) (hneg : ∀ r ∈ rs, r < 0) (hne : vs ≠ []) :
    ∃ r, (processWeightsValues na .absent (.list (rs.map some)) (.list (vs.map .plain)) false).result
      = .ok r := by
  have hs : rs.sum < 0 := by
    have hrne : rs ≠ [] := by
      rintro rfl; simp at hlen; exact hne (List.length_eq_zero_iff.mp hlen.symm)
    have key : ∀ l : List K, (∀ r ∈ l, r < 0) → l ≠ [] → l.sum < 0 := by
      intro l
      induction l with
      | nil => intro _ h; exact absurd rfl h
      | cons a l ih =>
        intro h _
        by_cases hl : l = []
        · subst hl; simpa using h a (by simp)
        · have := ih (fun r hr => h r (by simp [hr])) hl
          have := h a (by simp)
          rw [List.sum_cons]; linarith
    exact key rs hneg hrne
  refine ⟨((nonzeroPairs rs vs).map (fun p => p.1 / rs.sum),
    (nonzeroPairs rs vs).map (fun p => VItem.plain p.2)), ?_⟩
  rw [C02_relative_decision na rs vs _ (by simp [weightForms]) hlen hne false (by simp),
    if_neg (ne_of_lt hs), if_pos]
  intro r hr
  exact div_nonneg_of_nonpos (hneg r hr).le hs.le

/-- **C03**: when exactly the last weight is omitted and the given ones are non-negative with sum
below one, the call succeeds, the last value gets the (positive) remainder, the other pairs are kept
as in C01, and the weights sum to exactly one.  (A tuple of weights has no `append`: it raises
`AttributeError`, see `C03_tuple_fails`.) -/
theorem C03_inferred_weight (na : α → Bool) (ws : List K) (vs : List α) (v : α) (W : WArg K)
    (hW : W = .list (ws.map some) ∨ W = .ndarray (ws.map some))
    (hlen : ws.length = vs.length) (hnn : ∀ w ∈ ws, 0 ≤ w) (hs : ws.sum < 1) :
    ∃ ws', (processWeightsValues na W .absent (.list ((vs ++ [v]).map .plain)) false).result =
        .ok (ws', (nonzeroPairs ws vs).map (fun p => VItem.plain p.2) ++ [.plain v]) ∧
      ws' = (nonzeroPairs ws vs).map Prod.fst ++ [1 - ws.sum] ∧ ws'.sum = 1 ∧ 0 < 1 - ws.sum := by
  have hpos : 0 < 1 - ws.sum := by linarith
  have hkeep : keepPositive (ws ++ [1 - ws.sum]) ((vs ++ [v]).map (VItem.plain (K := K))) =
      .ok ((nonzeroPairs ws vs).map Prod.fst ++ [1 - ws.sum],
        (nonzeroPairs ws vs).map (fun p => VItem.plain p.2) ++ [.plain v]) := by
    rw [keepPositive_eq _ _ (by simpa using hlen), if_pos]
    · rw [List.map_append, List.zip_append (by simpa using hlen), zip_map_right', List.filter_append,
        List.filter_map]
      simp only [List.map_append, List.map_map]
      have hne0 : (1 - ws.sum) ≠ 0 := ne_of_gt hpos
      simp [nonzeroPairs, hne0, Function.comp_def]
    · intro w hw
      rcases List.mem_append.mp hw with h | h
      · exact hnn w h
      · simp at h; rw [h]; exact hpos.le
  refine ⟨_, ?_, rfl, ?_, hpos⟩
  · have hcond : ws.length + 1 = ((vs ++ [v]).map (VItem.plain (K := K))).length ∧ ws.sum < 1 := by
      simp [hlen, hs]
    rcases hW with rfl | rfl
    · rw [process_explicit na _ .caller ws (vs ++ [v]) false (by simp) rfl (by simp)]
      unfold finishWeights
      simp only [Bool.false_eq_true, if_false]
      rw [if_pos hcond]
      exact hkeep
    · rw [process_explicit na _ .numpy ws (vs ++ [v]) false (by simp) rfl (by simp)]
      unfold finishWeights
      simp only [Bool.false_eq_true, if_false]
      rw [if_pos hcond]
      exact hkeep
  · rw [List.sum_append]
    unfold nonzeroPairs
    rw [sum_filter_ne_zero, map_fst_zip' _ _ hlen]
    simp

example : (∀ w ∈ [(1/3 : ℚ), 1/3], 0 ≤ w) ∧ [(1/3 : ℚ), 1/3].sum < 1 := by norm_num

/-- **C03** for a plain number as weight (as in `bayes.average(p, e, weights=w)`): for `0 < w < 1`
the two values get `w` and `1 - w`; for `w = 0` only the second value is kept. -/
theorem C03_single_number (na : α → Bool) (w : K) (a b : α) (h0 : 0 ≤ w) (h1 : w < 1) :
    (processWeightsValues na (.num w) .absent (.list [.plain a, .plain b]) false).result =
      if w = 0 then .ok ([1], [.plain b]) else .ok ([w, 1 - w], [.plain a, .plain b]) := by
  have := process_explicit na (.num w) .fresh [w] [a, b] false (by simp) rfl (by simp)
  simp only [List.map_cons, List.map_nil] at this
  rw [this]
  have hpos : 0 < 1 - w := by linarith
  unfold finishWeights
  simp only [Bool.false_eq_true, if_false, List.sum_cons, List.sum_nil, add_zero, List.length_cons,
    List.length_nil]
  rw [if_pos ⟨by trivial, h1⟩]
  simp only [List.cons_append, List.nil_append, keepPositive]
  rw [if_neg (not_lt.mpr h0), if_neg (not_lt.mpr hpos.le)]
  simp only [bind, Except.bind, if_pos hpos]
  by_cases hw : w = 0
  · subst hw; simp
  · have : 0 < w := lt_of_le_of_ne h0 (Ne.symm hw)
    simp [this, hw]

/-- **C03** fails for a tuple: a Python tuple has no `append`, so omitting the last weight of a tuple
raises `AttributeError` instead of inferring it. -/
theorem C03_tuple_fails (na : α → Bool) (ws : List K) (vs : List α)
    (hlen : ws.length + 1 = vs.length) (hs : ws.sum < 1) :
    (processWeightsValues na (.tuple (ws.map some)) .absent (.list (vs.map .plain)) false).result =
      .error .attributeError := by
  rw [process_explicit na _ .tuple ws vs false (by rintro rfl; simp at hlen) rfl (by simp)]
  unfold finishWeights
  simp only [Bool.false_eq_true, if_false]
  rw [if_pos (by simpa using ⟨hlen, hs⟩)]

/-- **C04**: without weights every value is kept, in order, each with weight `1 / len`, and the
weights sum to one. -/
theorem C04_uniform (na : α → Bool) (vs : List α) (hne : vs ≠ []) :
    (processWeightsValues (K := K) na .absent .absent (.list (vs.map .plain)) false).result =
      .ok (vs.map (fun _ => 1 / (vs.length : K)), vs.map .plain) ∧
    (vs.map (fun _ => 1 / (vs.length : K))).sum = 1 := by
  have hn : (0 : K) < (vs.length : K) := by
    have : 0 < vs.length := List.length_pos_iff.mpr hne
    exact_mod_cast this
  have hsum : (vs.map (fun _ => 1 / (vs.length : K))).sum = 1 := by
    rw [List.map_const', List.sum_replicate, nsmul_eq_mul, mul_one_div, div_self (ne_of_gt hn)]
  refine ⟨?_, hsum⟩
  have hpos : (0 : K) < 1 / (vs.length : K) := by positivity
  have hfill : fillWeights (K := K) na false none (vs.map (VItem.plain (K := K))) =
      .ok ((((vs.map (fun _ => 1 / (vs.length : K))).map some), .fresh), vs.map .plain) := by
    cases vs with
    | nil => exact absurd rfl hne
    | cons v vs =>
      simp only [fillWeights, List.map_cons, Bool.false_eq_true, if_false, List.length_cons,
        List.length_map, List.map_map]
      rfl
  have hemp : valuesEmpty (VArg.list (vs.map (VItem.plain (K := K)))) = false := by
    cases vs with
    | nil => exact absurd rfl hne
    | cons v vs => rfl
  have habs : (WArg.absent : WArg K).isAbsent = true := rfl
  simp only [processWeightsValues, habs, Bool.not_true, Bool.and_false, Bool.false_eq_true, if_false,
    hemp, resolveWeights, resolveValues, hfill, requireNumbers_some]
  unfold finishWeights
  simp only [Bool.false_eq_true, if_false, hsum, List.length_map]
  rw [if_neg (by norm_num), if_neg (by norm_num), if_neg (by simp)]
  show keepPositive _ (vs.map VItem.plain) = _
  rw [keepPositive_eq _ _ (by simp), if_pos]
  · rw [zip_map_left', zip_map_right', List.map_map, List.filter_map, List.map_map, List.map_map]
    have : (List.filter ((fun p => decide (p.1 ≠ 0)) ∘ ((fun p : α × VItem K α => ((1 : K) / (vs.length : K), p.2)) ∘
        fun p => (p.1, VItem.plain p.2))) (vs.zip vs)) = vs.zip vs := by
      rw [List.filter_eq_self]
      intro p _
      have hl : vs.length ≠ 0 := by simpa using hne
      simp [hl, hne]
    rw [this]
    congr 1
    congr 1
    · have : (Prod.fst ∘ (fun p : α × VItem K α => ((1 : K) / (vs.length : K), p.2)) ∘
          fun p : α × α => (p.1, VItem.plain p.2)) = fun _ => (1 : K) / (vs.length : K) := rfl
      rw [this, List.map_const', List.map_const']; simp
    · conv_rhs => rw [← map_snd_zip' vs vs rfl, List.map_map]
      rfl
  · intro w hw
    rw [List.mem_map] at hw
    obtain ⟨_, _, rfl⟩ := hw
    exact hpos.le

/-- **C01**: weights, relative or not, beside a dictionary (which has its own weights) are refused,
and so are values that are neither a list nor an array nor a dictionary. -/
theorem C01_dict_with_weights (na : α → Bool) (W R : WArg K) (kvs : List (α × Option K)) (dropNa : Bool)
    (h : W.isAbsent = false ∨ R.isAbsent = false) :
    (processWeightsValues na W R (.dict kvs) dropNa).result = .error .valueError ∧
    (processWeightsValues na W R (.other : VArg K α) dropNa).result = .error .valueError := by
  have key : ∀ X : WArg K, X.isAbsent = false →
      resolveWeights X = .error .valueError ∨ ∃ y, resolveWeights X = .ok (some y) := by
    intro X hX
    cases X with
    | absent => simp [WArg.isAbsent] at hX
    | num x => exact Or.inr ⟨_, rfl⟩
    | list x => exact Or.inr ⟨_, rfl⟩
    | ndarray x => exact Or.inr ⟨_, rfl⟩
    | tuple x => exact Or.inr ⟨_, rfl⟩
    | other => exact Or.inl rfl
  have hX : (if (!R.isAbsent) = true then R else W).isAbsent = false := by
    cases hr : R.isAbsent with
    | true => simpa [hr] using h
    | false => simpa using hr
  refine ⟨?_, ?_⟩
  all_goals
    unfold processWeightsValues
    split_ifs with h1 h2
    · rfl
    all_goals first | rfl | skip
    all_goals
      simp only
      rcases key _ hX with he | ⟨y, he⟩
      all_goals (try simp only [*]) <;> simp_all [resolveValues]

/-- **C01**: with `drop_na`, a missing value next to explicit weights is refused, whether the weights
come separately, as `[weight, value]` pairs or as the entries of a dictionary. -/
theorem C01_missing_value_with_weights (na : α → Bool) (ws : List K) (W : WArg K)
    (hW : W ∈ weightForms ws) (vs : List α) (hv : ∃ v ∈ vs, na v = true) (us : List (Option K))
    (hl : us.length = vs.length) :
    (processWeightsValues na W .absent (.list (vs.map .plain)) true).result = .error .valueError ∧
    (processWeightsValues na .absent W (.list (vs.map .plain)) true).result = .error .valueError ∧
    (processWeightsValues na .absent .absent
      (.list ((us.zip vs).map fun p => .pair p.1 p.2)) true).result = .error .valueError ∧
    (processWeightsValues na .absent .absent (.dict (vs.zip us)) true).result =
      .error .valueError := by
  obtain ⟨owner, hres⟩ := resolve_forms hW
  obtain ⟨v, hv1, hv2⟩ := hv
  have hne : vs ≠ [] := List.ne_nil_of_mem hv1
  have hemp : valuesEmpty (VArg.list (vs.map (VItem.plain (K := K)))) = false := by
    cases vs with
    | nil => exact absurd rfl hne
    | cons v vs => rfl
  have habs : (WArg.absent : WArg K).isAbsent = true := rfl
  have hWa : W.isAbsent = false := by
    simp only [weightForms, List.mem_cons, List.not_mem_nil, or_false] at hW
    rcases hW with rfl | rfl | rfl <;> rfl
  have hany : (vs.map (VItem.plain (K := K))).any (itemNa na) = true := by
    rw [List.any_map, List.any_eq_true]
    exact ⟨v, hv1, hv2⟩
  have hfill : ∀ ow, fillWeights na true (some (ws.map some, ow)) (vs.map (VItem.plain (K := K))) =
      .error .valueError := by
    intro ow
    simp only [fillWeights, hany, Bool.and_self, if_true]
  refine ⟨?_, ?_, ?_, ?_⟩
  · simp only [processWeightsValues, habs, hWa, Bool.not_true, Bool.and_false, Bool.false_eq_true,
      if_false, hemp, hres, resolveValues, hfill]
  · simp only [processWeightsValues, habs, hWa, Bool.not_true, Bool.false_and, Bool.false_eq_true,
      if_false, Bool.not_false, if_true, hemp, hres, resolveValues, hfill]
  · have hunz : ∀ (us : List (Option K)) (vs : List α), us.length = vs.length →
        unzipPairs ((us.zip vs).map fun p => VItem.pair p.1 p.2) = .ok (us, vs) := by
      intro us
      induction us with
      | nil =>
        intro vs h
        rw [List.length_eq_zero_iff.1 h.symm]
        rfl
      | cons u us ih =>
        intro vs h
        cases vs with
        | nil => simp at h
        | cons v vs =>
          simp only [List.zip_cons_cons, List.map_cons, unzipPairs, ih vs (by simpa using h)]
          rfl
    have hany2 : vs.any na = true := List.any_eq_true.2 ⟨v, hv1, hv2⟩
    have hu := hunz us vs hl
    match us, vs, hne, hl with
    | u :: us, w :: vs, _, _ =>
      simp only [List.zip_cons_cons, List.map_cons] at hu ⊢
      simp only [processWeightsValues, habs, Bool.not_true, Bool.and_false, Bool.false_eq_true,
        if_false, valuesEmpty, List.isEmpty_cons, resolveWeights, resolveValues, fillWeights, hu, bind,
        Except.bind, hany2, Bool.and_self, if_true]
  · have hd : (vs.zip us).map (fun kv => VItem.plain (K := K) kv.1) = vs.map .plain := by
      rw [show (fun kv : α × Option K => VItem.plain (K := K) kv.1) = VItem.plain ∘ Prod.fst from rfl,
        ← List.map_map, map_fst_zip' vs us hl.symm]
    simp only [processWeightsValues, habs, Bool.not_true, Bool.and_false, Bool.false_eq_true,
      if_false, valuesEmpty, resolveWeights, resolveValues, hd, fillWeights, hany, Bool.and_self, if_true]

example : ∃ v ∈ [some 1, none], Option.isNone (α := ℕ) v = true := ⟨none, by simp, rfl⟩

/-- **C04** with `drop_na`: the missing values are dropped first and the others get equal weights that
sum to one; if nothing is left the call raises ValueError. -/
theorem C04_uniform_drop_na (na : α → Bool) (vs : List α) (hne : vs ≠ []) :
    (processWeightsValues (K := K) na .absent .absent (.list (vs.map .plain)) true).result =
      if vs.filter (fun v => !na v) = [] then .error .valueError
      else .ok ((vs.filter (fun v => !na v)).map
          (fun _ => 1 / ((vs.filter (fun v => !na v)).length : K)),
        (vs.filter (fun v => !na v)).map .plain) := by
  have habs : (WArg.absent : WArg K).isAbsent = true := rfl
  have hfil : ∀ l : List α, (l.map (VItem.plain (K := K))).filter (fun v => !itemNa na v) =
      (l.filter (fun v => !na v)).map .plain := by
    intro l
    rw [List.filter_map]
    rfl
  have hfill : ∀ l : List α, l ≠ [] → fillWeights (K := K) na true none (l.map (VItem.plain (K := K))) =
      .ok ((((l.filter (fun v => !na v)).map
          (fun _ => some (1 / ((l.filter (fun v => !na v)).length : K)))), .fresh),
        (l.filter (fun v => !na v)).map .plain) := by
    intro l hl
    cases l with
    | nil => exact absurd rfl hl
    | cons v l =>
      have := hfil (v :: l)
      simp only [fillWeights, List.map_cons, if_true] at this ⊢
      rw [this]
      simp only [List.map_map, List.length_map]
      rfl
  have hemp : ∀ l : List α, l ≠ [] → valuesEmpty (VArg.list (l.map (VItem.plain (K := K)))) = false := by
    intro l hl
    cases l with
    | nil => exact absurd rfl hl
    | cons v l => rfl
  by_cases hf : vs.filter (fun v => !na v) = []
  · rw [if_pos hf]
    simp only [processWeightsValues, habs, Bool.not_true, Bool.and_false, Bool.false_eq_true, if_false,
      hemp vs hne, resolveWeights, resolveValues, hfill vs hne, hf, List.map_nil, requireNumbers]
    unfold finishWeights
    have h1 : ¬ (([] : List K).length + 1 = ([] : List (VItem K α)).length ∧ ([] : List K).sum < 1) := by
      simp
    have h2 : ([] : List K).sum ≤ 99 / 100 ∨ ([] : List K).sum ≥ 101 / 100 := by
      left
      simp only [List.sum_nil]
      norm_num
    rw [if_neg (by simp), if_neg h1, if_pos h2]
  · rw [if_neg hf]
    have h0 := (C04_uniform (K := K) na _ hf).1
    rw [← h0]
    have hfill2 : fillWeights (K := K) na false none
        ((vs.filter (fun v => !na v)).map (VItem.plain (K := K))) =
        fillWeights (K := K) na true none (vs.map (VItem.plain (K := K))) := by
      rw [hfill vs hne]
      revert hf
      generalize vs.filter (fun v => !na v) = l
      intro hl
      cases l with
      | nil => exact absurd rfl hl
      | cons v l =>
        simp only [fillWeights, List.map_cons, Bool.false_eq_true, if_false, List.length_cons,
          List.length_map, List.map_map]
        rfl
    simp only [processWeightsValues, habs, Bool.not_true, Bool.and_false, Bool.false_eq_true, if_false,
      hemp vs hne, hemp _ hf, resolveWeights, resolveValues, hfill2]

example : (processWeightsValues (K := ℚ) Option.isNone .absent .absent
    (.list ([some 1, none, some 3].map VItem.plain)) true).result =
      .ok ([1/2, 1/2], [.plain (some (1 : ℕ)), .plain (some 3)]) := by
  rw [C04_uniform_drop_na _ _ (by simp), if_neg (by decide)]
  norm_num

/-- **C10** is false of the code: omitting the last weight changes the caller's own list (here
`[0.5]` becomes `[0.5, 0.5]`). -/
theorem C10_caller_list_fails :
    ∃ (ws : List ℚ) (vs : List ℕ),
      (processWeightsValues (fun _ => false) (.list (ws.map some)) .absent
        (.list (vs.map .plain)) false).callerList = some (ws ++ [1/2]) := by
  refine ⟨[1/2], [7, 8], ?_⟩
  rw [process_explicit _ _ .caller [1/2] [7, 8] false (by simp) rfl (by simp)]
  unfold finishWeights
  norm_num

/-- **C10**, what does hold: for *every* argument combination the caller's list is changed only in
one situation – a Python list of numbers passed as `weights` – and then by exactly one appended
number, which makes the sum one. -/
theorem C10_caller_list_partial (na : α → Bool) (w r : WArg K) (v : VArg K α) (dropNa : Bool)
    (l : List K) (h : (processWeightsValues na w r v dropNa).callerList = some l) :
    ∃ ws : List K, w = .list (ws.map some) ∧ r = .absent ∧ ws.sum < 1 ∧ l = ws ++ [1 - ws.sum] ∧
      l.sum = 1 := by
  have hreq : ∀ (os : List (Option K)) (ws : List K), requireNumbers os = .ok ws → os = ws.map some := by
    intro os
    induction os with
    | nil => intro ws h; simp [requireNumbers] at h; simp [← h]
    | cons o os ih =>
      intro ws h
      cases o with
      | none => simp [requireNumbers] at h
      | some x =>
        simp only [requireNumbers, bind, Except.bind] at h
        split at h
        · cases h
        · rename_i ws' hw'
          cases h
          simp [ih _ hw']
  have hfin : ∀ rel ws owner vs, (finishWeights (α := α) rel ws owner vs).callerList = some l →
      rel = false ∧ owner = .caller ∧ ws.sum < 1 ∧ l = ws ++ [1 - ws.sum] := by
    intro rel ws owner vs h
    unfold finishWeights at h
    cases rel with
    | true =>
      simp only [if_true] at h
      split at h
      · cases h
      · split at h
        · cases h
        · split at h <;> cases h
    | false =>
      simp only [Bool.false_eq_true, if_false] at h
      split at h
      · rename_i hc
        cases owner with
        | caller => simp at h; exact ⟨rfl, rfl, hc.2, h.symm⟩
        | fresh => cases h
        | numpy => cases h
        | tuple => cases h
      · split at h
        · cases h
        · split at h <;> cases h
  unfold processWeightsValues at h
  split at h
  · cases h
  split at h
  · cases h
  simp only at h
  split at h
  · cases h
  rename_i w1 hw1
  split at h
  · cases h
  rename_i w2 vs hw2
  split at h
  · cases h
  rename_i ws owner vs' hfill
  split at h
  · cases h
  rename_i ws' hws'
  obtain ⟨hrel, hown, hlt, hl⟩ := hfin _ _ _ _ h
  subst hown
  have hr : r = .absent := by cases r <;> simp_all [WArg.isAbsent]
  subst hr
  refine ⟨ws', ?_, rfl, hlt, hl, by rw [hl]; simp⟩
  have hos := hreq _ _ hws'
  subst hos
  -- the owner is the caller only when `w` is a list and it reached the end unchanged
  have h2 : w2 = some (ws'.map some, .caller) := by
    unfold fillWeights at hfill
    cases w2 with
    | none =>
      simp only at hfill
      split at hfill
      · cases hfill
      · simp only [bind, Except.bind] at hfill
        split at hfill
        · cases hfill
        · split at hfill
          · cases hfill
          · simp at hfill
      · simp at hfill
    | some p =>
      simp only at hfill
      split at hfill
      · cases hfill
      · simp at hfill; rw [hfill.1]
  subst h2
  have h1 : w1 = some (ws'.map some, .caller) := by
    unfold resolveValues at hw2
    cases v with
    | absent => cases hw2
    | list vs => cases hw2; rfl
    | ndarray vs => cases hw2; rfl
    | other => cases hw2
    | dict kvs =>
      cases w1 with
      | none => simp at hw2
      | some p => cases hw2
  subst h1
  simp only [WArg.isAbsent, Bool.not_true, Bool.false_eq_true, if_false] at hw1
  cases w <;> simp_all [resolveWeights]

/-! ### C08: `discrete` on an unweighted list -/

theorem weightOf_const_filter [DecidableEq α] (as : List α) (c : K) (v : α) :
    weightOf (as.map (fun _ => c)) as v = (as.count v : K) * c := by
  induction as with
  | nil => simp [weightOf]
  | cons a as ih =>
    unfold weightOf at ih ⊢
    simp only [List.map_cons, List.zip_cons_cons, List.filter_cons]
    by_cases h : a = v
    · subst h
      simp only [decide_true, if_true, List.map_cons, List.sum_cons, ih, List.count_cons_self]
      push_cast; ring
    · simp only [h, decide_false, Bool.false_eq_true, if_false, ih]
      rw [List.count_cons_of_ne h]

theorem weightOf_map_inj {β : Type} [DecidableEq α] [DecidableEq β] (ws : List K) (as : List α) (f : α → β)
    (hf : Function.Injective f) (v : α) : weightOf ws (as.map f) (f v) = weightOf ws as v := by
  unfold weightOf
  rw [zip_map_right', List.filter_map, List.map_map]
  congr 1
  have : ((fun p : K × β => decide (p.2 = f v)) ∘ fun p : K × α => (p.1, f p.2)) =
      fun p : K × α => decide (p.2 = v) := by
    funext p; simp [hf.eq_iff]
  rw [this]; rfl

/-- In an association list with distinct keys, the weight of a key is its entry. -/
theorem weightOf_assoc [DecidableEq α] (l : List (α × K)) (hnd : (l.map Prod.fst).Nodup) (v : α) (c : K)
    (h : (v, c) ∈ l) : weightOf (l.map Prod.snd) (l.map Prod.fst) v = c := by
  induction l with
  | nil => cases h
  | cons p l ih =>
    obtain ⟨a, b⟩ := p
    rw [List.map_cons, List.nodup_cons] at hnd
    unfold weightOf at ih ⊢
    simp only [List.map_cons, List.zip_cons_cons, List.filter_cons]
    rcases List.mem_cons.mp h with h | h
    · cases h
      have : ((l.map Prod.snd).zip (l.map Prod.fst)).filter (fun p => p.2 = v) = [] := by
        rw [List.filter_eq_nil_iff]
        intro q hq
        have := (List.of_mem_zip (by simpa using hq) : q.1 ∈ _ ∧ q.2 ∈ _).2
        simp
        intro hqa
        exact hnd.1 (hqa ▸ this)
      simp only [decide_true, if_true, List.map_cons, List.sum_cons, this, List.map_nil, List.sum_nil, add_zero]
    · have hne : a ≠ v := by
        rintro rfl
        exact hnd.1 (List.mem_map.mpr ⟨_, h, rfl⟩)
      simp only [hne, decide_false, Bool.false_eq_true, if_false]
      exact ih hnd.2 h

theorem weightOf_not_mem [DecidableEq α] (ws : List K) (as : List α) (v : α)
    (h : v ∉ as) : weightOf ws as v = 0 := by
  unfold weightOf
  have : (ws.zip as).filter (fun p => p.2 = v) = [] := by
    rw [List.filter_eq_nil_iff]
    intro q hq
    have := (List.of_mem_zip (by simpa using hq) : q.1 ∈ _ ∧ q.2 ∈ _).2
    simp
    rintro rfl
    exact h this
  rw [this]; simp

/-- **C08**: for every non-empty list of plain items, of any length and multiplicity, `discrete`
succeeds and gives every value `v` total weight (number of occurrences of `v`) / (length), whether or
not the list is compressed by counting; all weights sum to one and are positive. -/
theorem C08_empirical [DecidableEq α] (vs : List α) (hne : vs ≠ []) :
    ∃ ws xs, (processDiscrete (K := K) (.list (vs.map .plain))).result = .ok (ws, xs.map .plain) ∧
      ws.length = xs.length ∧ ws.sum = 1 ∧ (∀ w ∈ ws, 0 < w) ∧
      ∀ v : α, weightOf ws xs v = (vs.count v : K) / (vs.length : K) := by
  have hn : (0 : K) < (vs.length : K) := by
    have : 0 < vs.length := List.length_pos_iff.mpr hne
    exact_mod_cast this
  by_cases hc : compresses (vs.map (VItem.plain (K := K))) = true
  · -- counted
    set l : List (α × K) := (counter vs).map (fun p => (p.1, (p.2 : K) / (vs.length : K))) with hl
    have hfm : (vs.map (VItem.plain (K := K))).filterMap VItem.plain? = vs := by
      rw [List.filterMap_map]
      have : (VItem.plain? ∘ (VItem.plain (K := K)) : α → Option α) = some := rfl
      rw [this, List.filterMap_some]
    have hproc : (processDiscrete (K := K) (.list (vs.map .plain))).result =
        (processWeightsValues (K := K) (fun _ => false) .absent .absent
          (.dict (l.map (fun p => (p.1, some p.2)))) false).result := by
      unfold processDiscrete
      simp only [hc, if_true, hfm, counter_sum, hl, List.map_map]
      rfl
    have hkeys : l.map Prod.fst = (counter vs).map Prod.fst := by
      rw [hl, List.map_map]; rfl
    have hnd : (l.map Prod.fst).Nodup := hkeys ▸ counter_keys_nodup vs
    have hlne : l ≠ [] := by
      cases vs with
      | nil => exact absurd rfl hne
      | cons v vs => simp [hl, counter]
    have hsum : (l.map Prod.snd).sum = 1 := by
      have : l.map Prod.snd = ((counter vs).map (fun p => (p.2 : K))).map (· / (vs.length : K)) := by
        rw [hl, List.map_map, List.map_map]; rfl
      rw [this, sum_map_div]
      have : ((counter vs).map (fun p => (p.2 : K))).sum = ((((counter vs).map Prod.snd).sum : ℕ) : K) := by
        induction (counter vs) with
        | nil => simp
        | cons a l ih => simp [ih]
      rw [this, counter_sum, div_self (ne_of_gt hn)]
    have hposl : ∀ w ∈ l.map Prod.snd, 0 < w := by
      intro w hw
      obtain ⟨p, hp, rfl⟩ := List.mem_map.mp hw
      rw [hl] at hp
      obtain ⟨q, hq, rfl⟩ := List.mem_map.mp hp
      have h1 := (counter_mem vs q).mp hq
      have h2 : 0 < q.2 := by rw [h1.2]; exact List.count_pos_iff.mpr h1.1
      have h3 : (0 : K) < (q.2 : K) := by exact_mod_cast h2
      exact div_pos h3 hn
    refine ⟨l.map Prod.snd, l.map Prod.fst, ?_, by simp, hsum, hposl, ?_⟩
    · rw [hproc]
      have habs : (WArg.absent : WArg K).isAbsent = true := rfl
      have hres : resolveValues (K := K) none (.dict (l.map (fun p => (p.1, some p.2)))) =
          .ok (some ((l.map Prod.snd).map some, .fresh), (l.map Prod.fst).map .plain) := by
        simp [resolveValues, List.map_map, Function.comp_def]
      have hfill : fillWeights (K := K) (fun _ => false) false (some ((l.map Prod.snd).map some, .fresh))
          ((l.map Prod.fst).map .plain) =
          .ok (((l.map Prod.snd).map some, .fresh), (l.map Prod.fst).map .plain) := rfl
      simp only [processWeightsValues, habs, Bool.not_true, Bool.and_false, Bool.false_eq_true, if_false,
        valuesEmpty, resolveWeights, hres, hfill, requireNumbers_some]
      unfold finishWeights
      simp only [Bool.false_eq_true, if_false, hsum, List.length_map]
      rw [if_neg (by norm_num), if_neg (by norm_num), if_neg (by simp)]
      show keepPositive _ _ = _
      rw [keepPositive_eq _ _ (by simp), if_pos (fun w hw => (hposl w hw).le)]
      have : ((l.map Prod.snd).zip ((l.map Prod.fst).map (VItem.plain (K := K)))).filter (fun p => p.1 ≠ 0) =
          (l.map Prod.snd).zip ((l.map Prod.fst).map (VItem.plain (K := K))) := by
        rw [List.filter_eq_self]
        intro q hq
        have := (List.of_mem_zip (by simpa using hq) : q.1 ∈ _ ∧ q.2 ∈ _).1
        simpa using ne_of_gt (hposl _ this)
      rw [this, map_fst_zip' _ _ (by simp), map_snd_zip' _ _ (by simp)]
    · intro v
      by_cases hv : v ∈ vs
      · apply weightOf_assoc l hnd
        rw [hl, List.mem_map]
        exact ⟨(v, vs.count v), (counter_mem vs _).mpr ⟨hv, rfl⟩, rfl⟩
      · rw [weightOf_not_mem, List.count_eq_zero.mpr hv]
        · simp
        · rw [hkeys]
          intro hm
          obtain ⟨p, hp, hpv⟩ := List.mem_map.mp hm
          exact hv (hpv ▸ ((counter_mem vs p).mp hp).1)
  · have hproc : (processDiscrete (K := K) (.list (vs.map .plain))).result =
        (processWeightsValues (K := K) (fun _ => false) .absent .absent (.list (vs.map .plain)) false).result := by
      unfold processDiscrete
      simp only [hc]
      rfl
    obtain ⟨h1, h2⟩ := C04_uniform (K := K) (fun _ => false) vs hne
    refine ⟨_, _, hproc.trans h1, by simp, h2, ?_, ?_⟩
    · intro w hw
      obtain ⟨_, _, rfl⟩ := List.mem_map.mp hw
      positivity
    · intro v
      rw [weightOf_const_filter]
      ring

/-- both code paths of C08 are reachable -/
example : compresses (K := ℚ) (((List.range 100).map (fun i => i % 7)).map VItem.plain) = true ∧
    compresses (K := ℚ) ([1, 1, 2].map VItem.plain) = false := by
  constructor <;> decide +kernel

end Verif
