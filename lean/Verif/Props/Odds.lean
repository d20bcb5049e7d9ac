import Verif.Props.Weights
import Verif.Lemmas.Geo
import Mathlib.Data.List.ReduceOption

/-!
# Properties of `p_to_odds`, `odds_to_p`, `geomean` and `geomean_odds` (C55, C56, C57, C69)
-/

namespace Verif
open Verif.Spec

section Odds
variable {K : Type} [Field K] [LinearOrder K] [IsStrictOrderedRing K]

open scoped Classical in
/-- **C55/C69**: the complete outcome of `p_to_odds`: every given probability must be strictly between
0 and 1 (otherwise ValueError); the results come in order, missing values stay missing, one number
gives one number and a list of several numbers a list of the same length. -/
theorem C55_p_to_odds (p : OneMany (Option K)) :
    pToOdds p =
      if ∀ x, some x ∈ p.enlist → 0 < x ∧ x < 1 then
        .ok (OneMany.simplify (p.enlist.map (Option.map fun x => x / (1 - x))))
      else .error .valueError := by
  unfold pToOdds
  split_ifs with h
  · rw [mapExcept_map (g := Option.map fun x => x / (1 - x))]
    · rfl
    · intro a ha
      cases a with
      | none => rfl
      | some x =>
        obtain ⟨h1, h2⟩ := h x ha
        simp only [oddsOf, Option.map_some]
        rw [if_neg (by push Not; exact ⟨h1, h2⟩)]
  · push Not at h
    obtain ⟨x, hx, hx2⟩ := h
    rw [mapExcept_error (e := .valueError)]
    · rfl
    · intro a _
      cases a with
      | none => exact Or.inl ⟨none, rfl⟩
      | some y =>
        simp only [oddsOf]
        split_ifs
        · exact Or.inr rfl
        · exact Or.inl ⟨_, rfl⟩
    · refine ⟨some x, hx, ?_⟩
      simp only [oddsOf]
      rw [if_pos]
      by_cases h0 : x ≤ 0
      · exact Or.inl h0
      · exact Or.inr (hx2 (not_le.1 h0))

open scoped Classical in
/-- **C55/C69**: the complete outcome of `odds_to_p`: every given odds must be positive. -/
theorem C55_odds_to_p (o : OneMany (Option K)) :
    oddsToP o =
      if ∀ x, some x ∈ o.enlist → 0 < x then
        .ok (OneMany.simplify (o.enlist.map (Option.map fun x => x / (1 + x))))
      else .error .valueError := by
  unfold oddsToP
  split_ifs with h
  · rw [mapExcept_map (g := Option.map fun x => x / (1 + x))]
    · rfl
    · intro a ha
      cases a with
      | none => rfl
      | some x =>
        simp only [probOf, Option.map_some]
        rw [if_neg (not_le.2 (h x ha))]
  · push Not at h
    obtain ⟨x, hx, hx2⟩ := h
    rw [mapExcept_error (e := .valueError)]
    · rfl
    · intro a _
      cases a with
      | none => exact Or.inl ⟨none, rfl⟩
      | some y =>
        simp only [probOf]
        split_ifs
        · exact Or.inr rfl
        · exact Or.inl ⟨_, rfl⟩
    · refine ⟨some x, hx, ?_⟩
      simp only [probOf]
      rw [if_pos hx2]

theorem enlist_simplify {α : Type} (l : List α) : (OneMany.simplify l).enlist = l := by
  unfold OneMany.simplify
  split <;> rfl

/-- **C55** (one number): odds and back is the identity. -/
theorem C55_number (p : K) (h0 : 0 < p) (h1 : p < 1) :
    ∃ o, pToOdds (.one (some p)) = .ok (.one (some o)) ∧ 0 < o ∧
      oddsToP (.one (some o)) = .ok (.one (some p)) := by
  have hd : 0 < 1 - p := by linarith
  refine ⟨p / (1 - p), ?_, by positivity, ?_⟩
  · rw [C55_p_to_odds, if_pos]
    · rfl
    · intro x hx
      simp only [OneMany.enlist, List.mem_singleton, Option.some.injEq] at hx
      rw [hx]
      exact ⟨h0, h1⟩
  · rw [C55_odds_to_p, if_pos]
    · simp only [OneMany.enlist, List.map_cons, List.map_nil, Option.map_some, OneMany.simplify]
      congr 3
      field_simp
      ring
    · intro x hx
      simp only [OneMany.enlist, List.mem_singleton, Option.some.injEq] at hx
      rw [hx]
      positivity

/-- **C55** (any argument): for probabilities strictly between 0 and 1, with any missing entries,
`odds_to_p(p_to_odds(p))` is `p` (a list of one comes back as the number). -/
theorem C55_round_trip (p : OneMany (Option K)) (h : ∀ x, some x ∈ p.enlist → 0 < x ∧ x < 1) :
    ∃ o, pToOdds p = .ok o ∧ oddsToP o = .ok (OneMany.simplify p.enlist) := by
  refine ⟨_, by rw [C55_p_to_odds, if_pos h], ?_⟩
  rw [C55_odds_to_p, enlist_simplify, if_pos]
  · rw [List.map_map]
    congr 2
    conv_rhs => rw [← List.map_id p.enlist]
    apply List.map_congr_left
    intro a ha
    cases a with
    | none => rfl
    | some x =>
      obtain ⟨h1, h2⟩ := h x ha
      have hd : (1 : K) - x ≠ 0 := by linarith
      simp only [Function.comp, Option.map_some, id]
      congr 1
      field_simp
      ring
  · intro x hx
    rw [List.mem_map] at hx
    obtain ⟨a, ha, hax⟩ := hx
    cases a with
    | none => simp at hax
    | some y =>
      obtain ⟨h1, h2⟩ := h y ha
      simp only [Option.map_some, Option.some.injEq] at hax
      rw [← hax]
      exact div_pos h1 (by linarith)

/-- **C55** (the other direction): for positive odds, `p_to_odds(odds_to_p(o))` is `o`. -/
theorem C55_round_trip_odds (o : OneMany (Option K)) (h : ∀ x, some x ∈ o.enlist → 0 < x) :
    ∃ p, oddsToP o = .ok p ∧ pToOdds p = .ok (OneMany.simplify o.enlist) := by
  refine ⟨_, by rw [C55_odds_to_p, if_pos h], ?_⟩
  rw [C55_p_to_odds, enlist_simplify, if_pos]
  · rw [List.map_map]
    congr 2
    conv_rhs => rw [← List.map_id o.enlist]
    apply List.map_congr_left
    intro a ha
    cases a with
    | none => rfl
    | some x =>
      have h1 := h x ha
      have hd : (1 : K) + x ≠ 0 := by linarith
      have hd2 : (1 : K) - x / (1 + x) = 1 / (1 + x) := by field_simp; ring
      simp only [Function.comp, Option.map_some, id]
      congr 1
      rw [hd2]
      field_simp
  · intro x hx
    rw [List.mem_map] at hx
    obtain ⟨a, ha, hax⟩ := hx
    cases a with
    | none => simp at hax
    | some y =>
      have h1 := h y ha
      simp only [Option.map_some, Option.some.injEq] at hax
      rw [← hax]
      have hd : (0 : K) < 1 + y := by linarith
      exact ⟨div_pos h1 hd, by rw [div_lt_one hd]; linarith⟩

example : pToOdds (.many [some (1/2 : ℚ), none, some (3/4)]) = .ok (.many [some 1, none, some 3]) := by
  rw [C55_p_to_odds, if_pos]
  · norm_num [OneMany.enlist, OneMany.simplify]
  · intro x hx
    simp only [OneMany.enlist, List.mem_cons, Option.some.injEq, reduceCtorEq, List.not_mem_nil,
      or_false, false_or] at hx
    rcases hx with rfl | rfl <;> norm_num

/-- **C69**: a list of two or more probabilities gives a list of the same length, the `i`-th result
belonging to the `i`-th probability; one probability, alone or in a list, gives one number. -/
theorem C69_shape_partial (l : List (Option K)) (r : OneMany (Option K)) (h : pToOdds (.many l) = .ok r) :
    (2 ≤ l.length → ∃ os, r = .many os ∧ os.length = l.length ∧
      ∀ (i : ℕ) p, l[i]? = some (some p) → os[i]? = some (some (p / (1 - p)))) ∧
    (∀ p, l = [some p] → r = .one (some (p / (1 - p))) ∧ pToOdds (.one (some p)) = .ok r) := by
  rw [C55_p_to_odds] at h
  split_ifs at h with hok
  simp only [Except.ok.injEq] at h
  refine ⟨?_, ?_⟩
  · intro hl
    refine ⟨l.map (Option.map fun x => x / (1 - x)), ?_, by simp, ?_⟩
    · rw [← h]
      match l, hl with
      | a :: b :: l, _ => rfl
    · intro i p hp
      simp [hp]
  · rintro p rfl
    refine ⟨by rw [← h]; rfl, ?_⟩
    rw [C55_p_to_odds, ← h]
    exact if_pos hok

example : (2 ≤ [some (1/2 : ℚ), some (1/3)].length) ∧
    ∃ r, pToOdds (.many [some (1/2 : ℚ), some (1/3)]) = .ok r :=
  ⟨by simp, _, by
    rw [C55_p_to_odds, if_pos]
    intro x hx
    simp only [OneMany.enlist, List.mem_cons, Option.some.injEq, List.not_mem_nil, or_false] at hx
    rcases hx with rfl | rfl <;> norm_num⟩

/-- **C69** (the other direction): a list of two or more odds gives a list of the same length, the `i`-th
result belonging to the `i`-th odds; one odds, alone or in a list, gives one number. -/
theorem C69_odds_shape_partial (l : List (Option K)) (r : OneMany (Option K)) (h : oddsToP (.many l) = .ok r) :
    (2 ≤ l.length → ∃ ps, r = .many ps ∧ ps.length = l.length ∧
      ∀ (i : ℕ) o, l[i]? = some (some o) → ps[i]? = some (some (o / (1 + o)))) ∧
    (∀ o, l = [some o] → r = .one (some (o / (1 + o))) ∧ oddsToP (.one (some o)) = .ok r) := by
  rw [C55_odds_to_p] at h
  split_ifs at h with hok
  simp only [Except.ok.injEq] at h
  refine ⟨?_, ?_⟩
  · intro hl
    refine ⟨l.map (Option.map fun x => x / (1 + x)), ?_, by simp, ?_⟩
    · rw [← h]
      match l, hl with
      | a :: b :: l, _ => rfl
    · intro i o ho
      simp [ho]
  · rintro o rfl
    refine ⟨by rw [← h]; rfl, ?_⟩
    rw [C55_odds_to_p, ← h]
    exact if_pos hok

example : ∃ r, oddsToP (.many [some (2 : ℚ), none, some 3]) = .ok r :=
  ⟨_, by
    rw [C55_odds_to_p, if_pos]
    intro x hx
    simp only [OneMany.enlist, List.mem_cons, Option.some.injEq, reduceCtorEq, List.not_mem_nil, or_false,
      false_or] at hx
    rcases hx with rfl | rfl <;> norm_num⟩

end Odds

/-! ### Geometric mean -/

/-- A list of numbers as the argument of `geomean`. -/
def numbers (vs : List ℝ) : VArg ℝ (Option ℝ) := .list ((vs.map some).map .plain)

theorem geomean_core {a : VArg ℝ (Option ℝ)} {W R : WArg ℝ} {d : Bool} {ws vs : List ℝ}
    (hp : (processWeightsValues Option.isNone W R a d).result =
      .ok (ws, vs.map fun v => VItem.plain (some v)))
    (hlen : ws.length = vs.length) (hpos : ∀ v ∈ vs, 0 < v) (hs : ws.sum ≠ 0) :
    geomean a W R d = .ok (wgeo ws vs) := by
  have hlog : logValues (vs.map fun v => VItem.plain (some v)) = .ok (vs.map Real.log) := by
    unfold logValues
    rw [mapExcept_map (g := fun v => match v with
      | .plain (some x) => Real.log x
      | _ => 0)]
    · rw [List.map_map]
      rfl
    · intro x hx
      obtain ⟨v, hv, rfl⟩ := List.mem_map.1 hx
      simp only
      rw [if_pos (hpos v hv)]
  have hsum : ((ws.zip vs).map Prod.fst).sum = ws.sum := by rw [map_fst_zip' ws vs hlen]
  have hz : List.zipWith (fun x y => x * y) ws (vs.map Real.log) =
      (ws.zip vs).map fun p => p.1 * Real.log p.2 := by
    rw [List.zipWith_map_right, List.zip_eq_zipWith, List.map_zipWith]
  unfold geomean
  rw [hp]
  simp only [bind, Except.bind, hlog, npAverage]
  rw [if_neg hs, wgeo_eq _ _ hpos, hsum, hz]

/-- **C56** (weights): with positive values and one weight per value, `geomean` is
`(∏ vᵢ ^ wᵢ) ^ (1 / ∑ wᵢ)` when the weights are acceptable, and raises ValueError otherwise. -/
theorem C56_weights (ws vs : List ℝ) (W : WArg ℝ) (hW : W ∈ weightForms ws)
    (hlen : ws.length = vs.length) (hne : vs ≠ []) (hpos : ∀ v ∈ vs, 0 < v) (d : Bool) :
    geomean (numbers vs) W .absent d =
      if Acceptable ws then .ok (wgeo ws vs) else .error .valueError := by
  have hp := C01_weights_decision Option.isNone ws (vs.map some) W hW (by simpa using hlen)
    (by simpa using hne) d (by
      intro _ v hv
      obtain ⟨x, _, rfl⟩ := List.mem_map.1 hv
      rfl)
  have hzip : nonzeroPairs ws (vs.map some) =
      ((ws.zip vs).filter fun p => p.1 ≠ 0).map fun p => (p.1, some p.2) := by
    unfold nonzeroPairs
    rw [zip_map_right', List.filter_map]
    rfl
  split_ifs at hp ⊢ with hacc
  · have hsum : (((ws.zip vs).filter fun p => p.1 ≠ 0).map Prod.fst).sum = ws.sum := by
      have := sum_filter_ne_zero (ws.zip vs)
      rw [map_fst_zip' ws vs hlen] at this
      simpa using this
    rw [geomean_core (ws := ((ws.zip vs).filter fun p => p.1 ≠ 0).map Prod.fst)
      (vs := ((ws.zip vs).filter fun p => p.1 ≠ 0).map Prod.snd)]
    · rw [wgeo_filter]
    · unfold numbers
      rw [hp, hzip, List.map_map, List.map_map, List.map_map]
      rfl
    · simp
    · intro v hv
      obtain ⟨p, hp, rfl⟩ := List.mem_map.1 hv
      exact hpos _ (List.of_mem_zip (List.mem_of_mem_filter hp)).2
    · rw [hsum]
      have := hacc.2.1
      intro h
      rw [h] at this
      norm_num at this
  · unfold geomean numbers
    rw [hp]
    rfl

/-- **C56** (relative weights): any non-negative relative weights that are not all zero. -/
theorem C56_relative_weights (rs vs : List ℝ) (W : WArg ℝ) (hW : W ∈ weightForms rs)
    (hlen : rs.length = vs.length) (hnn : ∀ r ∈ rs, 0 ≤ r) (hs : 0 < rs.sum)
    (hpos : ∀ v ∈ vs, 0 < v) (d : Bool) :
    geomean (numbers vs) .absent W d = .ok (wgeo rs vs) := by
  have hne : vs ≠ [] := by
    rintro rfl
    have : rs = [] := List.length_eq_zero_iff.mp hlen
    subst this; simp at hs
  have hp := C02_relative_decision Option.isNone rs (vs.map some) W hW (by simpa using hlen)
    (by simpa using hne) d (by
      intro _ v hv
      obtain ⟨x, _, rfl⟩ := List.mem_map.1 hv
      rfl)
  rw [if_neg hs.ne', if_pos fun r hr => div_nonneg (hnn r hr) hs.le] at hp
  have hzip : nonzeroPairs rs (vs.map some) =
      ((rs.zip vs).filter fun p => p.1 ≠ 0).map fun p => (p.1, some p.2) := by
    unfold nonzeroPairs
    rw [zip_map_right', List.filter_map]
    rfl
  have hsum : (((rs.zip vs).filter fun p => p.1 ≠ 0).map Prod.fst).sum = rs.sum := by
    have := sum_filter_ne_zero (rs.zip vs)
    rw [map_fst_zip' rs vs hlen] at this
    simpa using this
  have hvpos : ∀ v ∈ ((rs.zip vs).filter fun p => p.1 ≠ 0).map Prod.snd, 0 < v := by
    intro v hv
    obtain ⟨p, hp, rfl⟩ := List.mem_map.1 hv
    exact hpos _ (List.of_mem_zip (List.mem_of_mem_filter hp)).2
  rw [geomean_core (ws := (((rs.zip vs).filter fun p => p.1 ≠ 0).map Prod.fst).map (· / rs.sum))
    (vs := ((rs.zip vs).filter fun p => p.1 ≠ 0).map Prod.snd)]
  · rw [wgeo_scale_weights _ _ _ hs.ne' hvpos, wgeo_filter]
  · unfold numbers
    rw [hp, hzip, List.map_map, List.map_map, List.map_map, List.map_map]
    rfl
  · simp
  · exact hvpos
  · rw [sum_map_div, hsum, div_self hs.ne']
    exact one_ne_zero

/-- **C56** (no weights): missing values are dropped and the others count equally; if nothing is left
the call raises ValueError. -/
theorem C56_unweighted (os : List (Option ℝ)) (hne : os ≠ []) (hpos : ∀ v, some v ∈ os → 0 < v) :
    geomean (.list (os.map .plain)) =
      if os.reduceOption = [] then .error .valueError
      else .ok (os.reduceOption.prod ^ (1 / (os.reduceOption.length : ℝ))) := by
  have hp := C04_uniform_drop_na (K := ℝ) Option.isNone os hne
  have hfil : ∀ l : List (Option ℝ), l.filter (fun v => !Option.isNone v) = l.reduceOption.map some := by
    intro l
    induction l with
    | nil => rfl
    | cons a l ih =>
      cases a with
      | none => simpa [List.reduceOption_cons_of_none] using ih
      | some x => simpa [List.reduceOption_cons_of_some] using ih
  rw [hfil] at hp
  simp only [List.map_eq_nil_iff] at hp
  split_ifs at hp ⊢ with h
  · unfold geomean
    rw [hp]
    rfl
  · have hn : (0 : ℝ) < (os.reduceOption.length : ℝ) := by
      exact_mod_cast List.length_pos_iff.mpr h
    have hrp : ∀ v ∈ os.reduceOption, 0 < v := by
      intro v hv
      exact hpos v (List.reduceOption_mem_iff.1 hv)
    rw [geomean_core (ws := os.reduceOption.map fun _ => 1 / (os.reduceOption.length : ℝ))
      (vs := os.reduceOption)]
    · congr 1
      have hone : (os.reduceOption.map fun _ => 1 / (os.reduceOption.length : ℝ)) =
          (os.reduceOption.map fun _ => (1 : ℝ)).map (· / (os.reduceOption.length : ℝ)) := by
        rw [List.map_map]
        rfl
      rw [hone, wgeo_scale_weights _ _ _ hn.ne' hrp]
      unfold wgeo
      have h1 : ((os.reduceOption.map fun _ => (1 : ℝ)).zip os.reduceOption) =
          os.reduceOption.map fun v => (1, v) := by
        generalize os.reduceOption = l
        induction l with
        | nil => rfl
        | cons a l ih => simp only [List.map_cons, List.zip_cons_cons, ih]
      rw [h1, List.map_map, List.map_map]
      have h2 : ((fun p : ℝ × ℝ => p.2 ^ p.1) ∘ fun v => ((1 : ℝ), v)) = id := by
        funext v
        simp
      have h3 : ((os.reduceOption).map (Prod.fst ∘ fun v : ℝ => ((1 : ℝ), v))).sum =
          os.reduceOption.length := by
        have : (Prod.fst ∘ fun v : ℝ => ((1 : ℝ), v)) = fun _ => 1 := rfl
        rw [this]
        simp
      rw [h2, h3, List.map_id]
    · rw [hp, List.map_map, List.map_map, List.length_map]
      rfl
    · simp
    · exact hrp
    · rw [List.map_const', List.sum_replicate, nsmul_eq_mul, mul_one_div, div_self hn.ne']
      exact one_ne_zero

/-- **C56**: however the values and weights are given, a result lies between any bounds on the values. -/
theorem C56_between (a : VArg ℝ (Option ℝ)) (W R : WArg ℝ) (d : Bool) (g lo hi : ℝ) (hlo : 0 < lo)
    (h : geomean a W R d = .ok g) (hb : ∀ v, some v ∈ a.vals → lo ≤ v ∧ v ≤ hi) : lo ≤ g ∧ g ≤ hi := by
  unfold geomean at h
  cases hp : (processWeightsValues Option.isNone W R a d).result with
  | error e => rw [hp] at h; simp [bind, Except.bind] at h
  | ok r =>
    obtain ⟨ws, vs⟩ := r
    rw [hp] at h
    simp only [bind, Except.bind] at h
    obtain ⟨k1, k2, k3, k4⟩ := process_sound hp
    cases hl : logValues vs with
    | error e => rw [hl] at h; simp at h
    | ok logs =>
      rw [hl] at h
      simp only [npAverage] at h
      rcases k4 with ⟨k4, k5⟩ | rfl
      swap
      · simp at h
      have hs : 0 < ws.sum := lt_trans (by norm_num) k4
      rw [if_neg hs.ne'] at h
      simp only [Except.ok.injEq] at h
      have hlen := mapExcept_length hl
      have hne : vs ≠ [] := by
        rintro rfl
        rw [List.length_eq_zero_iff.1 k2] at hs
        simp at hs
      have hval : ∀ x ∈ vs, ∀ y, (match x with
          | .plain (some x) => if 0 < x then .ok (Real.log x) else .error .unmodelled
          | _ => .error .unmodelled : Except PyErr ℝ) = .ok y →
          ∃ v, some v ∈ a.vals ∧ y = Real.log v := by
        intro x hx y hy
        have := k3 x hx
        match x, this, hy with
        | .plain (some v), hm, hy =>
          simp only at hy
          split_ifs at hy with h0
          simp only [Except.ok.injEq] at hy
          exact ⟨v, hm, hy.symm⟩
        | .plain none, _, hy => simp at hy
        | .pair _ _, _, hy => simp at hy
      have hx : ∀ y ∈ logs, Real.log lo ≤ y ∧ y ≤ Real.log hi := by
        intro y hy
        obtain ⟨i, hi'⟩ := List.mem_iff_getElem?.1 hy
        obtain ⟨x, hx1, hx2⟩ := mapExcept_get hl i y hi'
        obtain ⟨v, hv, rfl⟩ := hval x (List.mem_of_getElem? hx1) y hx2
        obtain ⟨b1, b2⟩ := hb v hv
        exact ⟨Real.log_le_log hlo b1, Real.log_le_log (hlo.trans_le b1) b2⟩
      have hhi : 0 < hi := by
        obtain ⟨x, hx0⟩ := List.exists_mem_of_ne_nil vs hne
        have : logs ≠ [] := by
          rintro rfl
          simp only [List.length_nil] at hlen
          exact hne (List.length_eq_zero_iff.1 hlen.symm)
        obtain ⟨y, hy⟩ := List.exists_mem_of_ne_nil logs this
        obtain ⟨i, hi'⟩ := List.mem_iff_getElem?.1 hy
        obtain ⟨x, hx1, hx2⟩ := mapExcept_get hl i y hi'
        obtain ⟨v, hv, _⟩ := hval x (List.mem_of_getElem? hx1) y hx2
        obtain ⟨b1, b2⟩ := hb v hv
        exact hlo.trans_le (b1.trans b2)
      obtain ⟨m1, m2⟩ := average_between ws logs (by rw [hlen, k2]) k1 hx
      rw [← h]
      constructor
      · rw [← Real.exp_log hlo]
        apply Real.exp_le_exp.2
        rw [le_div_iff₀ hs]
        exact m1
      · rw [← Real.exp_log hhi]
        apply Real.exp_le_exp.2
        rw [div_le_iff₀ hs]
        exact m2

/-- **C56**: values that are all the same give that value. -/
theorem C56_constant (a : VArg ℝ (Option ℝ)) (W R : WArg ℝ) (d : Bool) (g c : ℝ) (hc : 0 < c)
    (h : geomean a W R d = .ok g) (hb : ∀ v, some v ∈ a.vals → v = c) : g = c := by
  have := C56_between a W R d g c c hc h fun v hv => by rw [hb v hv]; exact ⟨le_rfl, le_rfl⟩
  exact le_antisymm this.2 this.1

/-- **C56**: however the values and weights are given, multiplying all values by `c > 0` multiplies
the result by `c`, and keeps an exception. -/
theorem C56_homogeneous (a : VArg ℝ (Option ℝ)) (W R : WArg ℝ) (d : Bool) (c : ℝ) (hc : 0 < c) :
    geomean (a.map (Option.map (c * ·))) W R d = (geomean a W R d).map (c * ·) := by
  unfold geomean
  rw [process_map (Option.map (c * ·)) (na := Option.isNone) (na' := Option.isNone)
    (by intro a; cases a <;> rfl)]
  cases hp : (processWeightsValues Option.isNone W R a d).result with
  | error e => rfl
  | ok r =>
    obtain ⟨ws, vs⟩ := r
    obtain ⟨k1, k2, k3, k4⟩ := process_sound hp
    simp only [Except.map, bind, Except.bind]
    have hlog : logValues (vs.map (VItem.map (Option.map (c * ·)))) =
        (logValues vs).map (List.map (Real.log c + ·)) := by
      unfold logValues
      clear hp k2 k3
      induction vs with
      | nil => rfl
      | cons v vs ih =>
        rw [List.map_cons, mapExcept, mapExcept, ih]
        match v with
        | .plain (some x) =>
          simp only [VItem.map, Option.map_some]
          by_cases hx : 0 < x
          · rw [if_pos hx, if_pos (mul_pos hc hx), Real.log_mul hc.ne' hx.ne']
            simp only [bind, Except.bind]
            generalize mapExcept _ vs = r
            cases r <;> rfl
          · rw [if_neg hx, if_neg (by rw [mul_pos_iff_of_pos_left hc]; exact hx)]
            rfl
        | .plain none => rfl
        | .pair w x => rfl
    rw [hlog]
    cases hl : logValues vs with
    | error e => rfl
    | ok logs =>
      simp only [Except.map, npAverage]
      rcases k4 with ⟨k4, -⟩ | rfl
      swap
      · simp
      have hs : 0 < ws.sum := lt_trans (by norm_num) k4
      rw [if_neg hs.ne', if_neg hs.ne']
      simp only [Except.ok.injEq]
      have hlen : ws.length = logs.length := by rw [mapExcept_length hl, k2]
      have key : ∀ (us ls : List ℝ), us.length = ls.length →
          (List.zipWith (fun x y => x * y) us (ls.map (Real.log c + ·))).sum =
            us.sum * Real.log c + (List.zipWith (fun x y => x * y) us ls).sum := by
        intro us
        induction us with
        | nil => intro ls _; simp
        | cons u us ih =>
          intro ls h
          cases ls with
          | nil => simp at h
          | cons l ls =>
            simp only [List.map_cons, List.zipWith_cons_cons, List.sum_cons]
            rw [ih ls (by simpa using h)]
            ring
      rw [key ws logs hlen, add_div, mul_div_assoc, mul_comm, div_mul_eq_mul_div, mul_div_assoc,
        div_self hs.ne', mul_one, Real.exp_add, Real.exp_log hc]

/-- **C56**: the order of the (weight, value) pairs does not matter. -/
theorem C56_permutation (ws vs ws' vs' : List ℝ) (W W' : WArg ℝ) (hW : W ∈ weightForms ws)
    (hW' : W' ∈ weightForms ws') (hlen : ws.length = vs.length) (hlen' : ws'.length = vs'.length)
    (hpos : ∀ v ∈ vs, 0 < v) (hperm : (ws.zip vs).Perm (ws'.zip vs')) (d : Bool) :
    geomean (numbers vs') W' .absent d = geomean (numbers vs) W .absent d ∧
    ((∀ r ∈ ws, 0 ≤ r) → 0 < ws.sum →
      geomean (numbers vs') .absent W' d = geomean (numbers vs) .absent W d) := by
  have hw : ws.Perm ws' := by
    have := hperm.map Prod.fst
    rwa [map_fst_zip' ws vs hlen, map_fst_zip' ws' vs' hlen'] at this
  have hv : vs.Perm vs' := by
    have := hperm.map Prod.snd
    rwa [map_snd_zip' ws vs hlen, map_snd_zip' ws' vs' hlen'] at this
  have hpos' : ∀ v ∈ vs', 0 < v := fun v h => hpos v (hv.mem_iff.2 h)
  have hg : wgeo ws' vs' = wgeo ws vs := by
    unfold wgeo
    rw [(hperm.map _).prod_eq, (hperm.map _).sum_eq]
  refine ⟨?_, ?_⟩
  · by_cases hne : vs = []
    · have hne' : vs' = [] := by
        have := hv.length_eq
        rw [hne] at this
        exact List.length_eq_zero_iff.1 this.symm
      subst hne hne'
      have h1 := (C01_refused (K := ℝ) (α := Option ℝ) Option.isNone d).2.1
      unfold geomean numbers
      simp only [List.map_nil, h1]
    · have hne' : vs' ≠ [] := by
        intro h
        have := hv.length_eq
        rw [h] at this
        exact hne (List.length_eq_zero_iff.1 this)
      rw [C56_weights ws vs W hW hlen hne hpos d, C56_weights ws' vs' W' hW' hlen' hne' hpos' d, hg]
      have : Acceptable ws' ↔ Acceptable ws := by
        unfold Acceptable
        rw [hw.sum_eq]
        constructor
        · rintro ⟨h, h2⟩
          exact ⟨fun w hw' => h w (hw.mem_iff.1 hw'), h2⟩
        · rintro ⟨h, h2⟩
          exact ⟨fun w hw' => h w (hw.mem_iff.2 hw'), h2⟩
      simp only [this]
  · intro hnn hs
    rw [C56_relative_weights ws vs W hW hlen hnn hs hpos d,
      C56_relative_weights ws' vs' W' hW' hlen' (fun r hr => hnn r (hw.mem_iff.2 hr))
        (by rw [← hw.sum_eq]; exact hs) hpos' d, hg]

example : geomean (numbers [1, 4]) (.list ([1/2, 1/2].map some)) = .ok (1 ^ (1/2 : ℝ) * 4 ^ (1/2 : ℝ)) := by
  rw [C56_weights [1/2, 1/2] [1, 4] _ (by simp [weightForms]) rfl (by simp) (by
    intro v hv
    simp only [List.mem_cons, List.not_mem_nil, or_false] at hv
    rcases hv with rfl | rfl <;> norm_num) true, if_pos]
  · norm_num [wgeo]
  · unfold Acceptable
    norm_num

/-! ### Geometric mean of odds -/

theorem process_ndarray {α : Type} (na : α → Bool) (W R : WArg ℝ) (vs : List (VItem ℝ α)) (d : Bool) :
    processWeightsValues na W R (.ndarray vs) d = processWeightsValues na W R (.list vs) d := rfl

/-- The kept weights and probabilities determine the outcome. -/
theorem geomeanOdds_core {a : VArg ℝ (Option ℝ)} {W R : WArg ℝ} {d : Bool} {ws ps : List ℝ}
    (hp : (processWeightsValues Option.isNone W R a d).result =
      .ok (ws, ps.map fun v => VItem.plain (some v)))
    (h01 : ∀ p ∈ ps, 0 < p ∧ p < 1) :
    (2 ≤ ps.length → ∃ r, geomeanOdds a W R d = .ok r ∧ 0 < r ∧ r < 1 ∧
      r / (1 - r) = wgeo ws (ps.map fun p => p / (1 - p))) ∧
    (ps.length = 1 → geomeanOdds a W R d = .error .valueError) := by
  obtain ⟨k1, k2, k3, k4⟩ := process_sound hp
  rw [List.length_map] at k2
  have hplain : plainValues (ps.map fun v => VItem.plain (some v)) = .ok (ps.map some) := by
    unfold plainValues
    rw [mapExcept_map (g := fun v => match v with
      | .plain x => x
      | .pair _ x => x)]
    · rw [List.map_map]
      rfl
    · intro x hx
      obtain ⟨v, _, rfl⟩ := List.mem_map.1 hx
      rfl
  have hodds : pToOdds (.many (ps.map some)) =
      .ok (OneMany.simplify ((ps.map fun p => p / (1 - p)).map some)) := by
    rw [C55_p_to_odds, if_pos]
    · simp only [OneMany.enlist, List.map_map]
      rfl
    · intro x hx
      simp only [OneMany.enlist, List.mem_map, Option.some.injEq, exists_eq_right] at hx
      exact h01 x hx
  unfold geomeanOdds
  rw [hp]
  simp only [bind, Except.bind, hplain, hodds]
  refine ⟨?_, ?_⟩
  · intro hl
    rcases k4 with ⟨k4, k5⟩ | rfl
    swap
    · rw [List.length_nil] at k2
      omega
    have hmany : (OneMany.simplify ((ps.map fun p => p / (1 - p)).map some)).asValues =
        .ndarray (((ps.map fun p => p / (1 - p)).map some).map .plain) := by
      match ps, hl with
      | a :: b :: l, _ => rfl
    have hopos : ∀ v ∈ ps.map (fun p => p / (1 - p)), 0 < v := by
      intro v hv
      obtain ⟨p, hp', rfl⟩ := List.mem_map.1 hv
      obtain ⟨h1, h2⟩ := h01 p hp'
      exact div_pos h1 (by linarith)
    have hg : geomean (.ndarray (((ps.map fun p => p / (1 - p)).map some).map .plain))
        (.list (ws.map some)) = .ok (wgeo ws (ps.map fun p => p / (1 - p))) := by
      have := C56_weights ws (ps.map fun p => p / (1 - p)) (.list (ws.map some))
        (by simp [weightForms]) (by simpa using k2) (by
          intro h
          rw [List.map_eq_nil_iff] at h
          subst h
          simp at hl) hopos true
      rw [if_pos ⟨fun w hw => (k1 w hw).le, k4, k5⟩] at this
      rw [← this]
      unfold geomean numbers
      rw [process_ndarray]
    rw [hmany, hg]
    simp only
    have hgpos : 0 < wgeo ws (ps.map fun p => p / (1 - p)) := by
      rw [wgeo_eq _ _ hopos]
      exact Real.exp_pos _
    generalize wgeo ws (ps.map fun p => p / (1 - p)) = g at hgpos
    have h1g : (0 : ℝ) < 1 + g := by linarith
    rw [C55_odds_to_p, if_pos]
    · simp only [OneMany.enlist, List.map_cons, List.map_nil, Option.map_some, OneMany.simplify]
      refine ⟨g / (1 + g), rfl, div_pos hgpos h1g, by rw [div_lt_one h1g]; linarith, ?_⟩
      have : 1 - g / (1 + g) = 1 / (1 + g) := by field_simp; ring
      rw [this]
      field_simp
    · intro x hx
      simp only [OneMany.enlist, List.mem_singleton, Option.some.injEq] at hx
      rw [hx]
      exact hgpos
  · intro hl
    match ps, hl with
    | [p], _ =>
      simp only [List.map_cons, List.map_nil, OneMany.simplify, OneMany.asValues]
      have : geomean (.other : VArg ℝ (Option ℝ)) (.list (ws.map some)) = .error .valueError := by
        unfold geomean processWeightsValues
        rfl
      rw [this]

/-- **C57** (several probabilities, no weights): the odds of the result are the geometric mean of the
odds of the given probabilities, missing ones being dropped. -/
theorem C57_unweighted_partial (os : List (Option ℝ)) (h01 : ∀ p, some p ∈ os → 0 < p ∧ p < 1)
    (h2 : 2 ≤ os.reduceOption.length) :
    ∃ r, geomeanOdds (.list (os.map .plain)) = .ok r ∧ 0 < r ∧ r < 1 ∧
      r / (1 - r) = ((os.reduceOption.map fun p => p / (1 - p)).prod) ^ (1 / (os.reduceOption.length : ℝ)) := by
  have hne : os ≠ [] := by
    rintro rfl
    simp at h2
  have hrne : os.reduceOption ≠ [] := by
    intro h
    rw [h] at h2
    simp at h2
  have hp := C04_uniform_drop_na (K := ℝ) Option.isNone os hne
  have hfil : ∀ l : List (Option ℝ), l.filter (fun v => !Option.isNone v) = l.reduceOption.map some := by
    intro l
    induction l with
    | nil => rfl
    | cons a l ih =>
      cases a with
      | none => simpa [List.reduceOption_cons_of_none] using ih
      | some x => simpa [List.reduceOption_cons_of_some] using ih
  rw [hfil, if_neg (by simpa using hrne), List.map_map, List.map_map] at hp
  obtain ⟨r, h1, h3, h4, h5⟩ := (geomeanOdds_core hp fun p hp =>
    h01 p (List.reduceOption_mem_iff.1 hp)).1 h2
  refine ⟨r, h1, h3, h4, ?_⟩
  rw [h5]
  have hopos : ∀ v, some v ∈ (os.reduceOption.map fun p => p / (1 - p)).map some → 0 < v := by
    intro v hv
    simp only [List.mem_map, Option.some.injEq, exists_eq_right] at hv
    obtain ⟨p, hp', rfl⟩ := hv
    obtain ⟨h1, h2⟩ := h01 p (List.reduceOption_mem_iff.1 hp')
    exact div_pos h1 (by linarith)
  have hred : ((os.reduceOption.map fun p => p / (1 - p)).map some).reduceOption =
      os.reduceOption.map fun p => p / (1 - p) := by
    generalize os.reduceOption.map (fun p => p / (1 - p)) = l
    induction l with
    | nil => rfl
    | cons a l ih => simpa using ih
  -- compare with the unweighted geometric mean of the odds
  have hu := C56_unweighted ((os.reduceOption.map fun p => p / (1 - p)).map some) (by simpa using hrne)
    hopos
  rw [hred, if_neg (by simpa using hrne), List.length_map] at hu
  have hq := C04_uniform_drop_na (K := ℝ) Option.isNone
    ((os.reduceOption.map fun p => p / (1 - p)).map some) (by simpa using hrne)
  rw [hfil, hred, if_neg (by simpa using hrne)] at hq
  have hn : (0 : ℝ) < (os.reduceOption.length : ℝ) := by
    exact_mod_cast List.length_pos_iff.mpr hrne
  have hc := geomean_core (ws := (os.reduceOption.map fun p => p / (1 - p)).map
      fun _ => 1 / (os.reduceOption.length : ℝ)) (vs := os.reduceOption.map fun p => p / (1 - p))
    (a := .list (((os.reduceOption.map fun p => p / (1 - p)).map some).map .plain)) (W := .absent)
    (R := .absent) (d := true) (by
      rw [hq]
      simp only [List.map_map, List.length_map]
      rfl) (by simp) (by
      intro v hv
      exact hopos v (by simpa using hv)) (by
      rw [List.map_const', List.sum_replicate, nsmul_eq_mul, List.length_map, mul_one_div,
        div_self hn.ne']
      exact one_ne_zero)
  rw [hu] at hc
  simp only [Except.ok.injEq] at hc
  rw [hc]
  congr 1
  rw [List.map_map, List.length_map]
  rfl

/-- **C57** (weights): with acceptable weights of which at least two are non-zero. -/
theorem C57_weights_partial (ws ps : List ℝ) (W : WArg ℝ) (hW : W ∈ weightForms ws)
    (hlen : ws.length = ps.length) (hacc : Acceptable ws) (h01 : ∀ p ∈ ps, 0 < p ∧ p < 1)
    (h2 : 2 ≤ (nonzeroPairs ws ps).length) (d : Bool) :
    ∃ r, geomeanOdds (numbers ps) W .absent d = .ok r ∧ 0 < r ∧ r < 1 ∧
      r / (1 - r) = wgeo ws (ps.map fun p => p / (1 - p)) := by
  have hne : ps ≠ [] := by
    rintro rfl
    simp [nonzeroPairs] at h2
  have hp := C01_weights_decision Option.isNone ws (ps.map some) W hW (by simpa using hlen)
    (by simpa using hne) d (by
      intro _ v hv
      obtain ⟨x, _, rfl⟩ := List.mem_map.1 hv
      rfl)
  have hzip : nonzeroPairs ws (ps.map some) =
      ((ws.zip ps).filter fun p => p.1 ≠ 0).map fun p => (p.1, some p.2) := by
    unfold nonzeroPairs
    rw [zip_map_right', List.filter_map]
    rfl
  rw [if_pos hacc, hzip] at hp
  have hp' : (processWeightsValues Option.isNone W .absent (numbers ps) d).result =
      .ok (((ws.zip ps).filter fun p => p.1 ≠ 0).map Prod.fst,
        (((ws.zip ps).filter fun p => p.1 ≠ 0).map Prod.snd).map fun v => VItem.plain (some v)) := by
    unfold numbers
    rw [hp, List.map_map, List.map_map, List.map_map]
    rfl
  obtain ⟨r, h1, h3, h4, h5⟩ := (geomeanOdds_core hp' fun p hp => by
    obtain ⟨q, hq, rfl⟩ := List.mem_map.1 hp
    exact h01 _ (List.of_mem_zip (List.mem_of_mem_filter hq)).2).1 (by simpa [nonzeroPairs] using h2)
  refine ⟨r, h1, h3, h4, ?_⟩
  rw [h5, ← wgeo_filter ws (ps.map fun p => p / (1 - p)), zip_map_right', List.filter_map,
    List.map_map, List.map_map, List.map_map]
  rfl

/-- **C57**: however probabilities and weights are given, a result lies between any bounds on the
probabilities. -/
theorem C57_between (a : VArg ℝ (Option ℝ)) (W R : WArg ℝ) (d : Bool) (r lo hi : ℝ) (hlo : 0 < lo)
    (hhi : hi < 1) (h : geomeanOdds a W R d = .ok r) (hb : ∀ v, some v ∈ a.vals → lo ≤ v ∧ v ≤ hi) :
    lo ≤ r ∧ r ≤ hi := by
  unfold geomeanOdds at h
  cases hp : (processWeightsValues Option.isNone W R a d).result with
  | error e => rw [hp] at h; simp [bind, Except.bind] at h
  | ok q =>
    obtain ⟨ws, vs⟩ := q
    obtain ⟨k1, k2, k3, k4⟩ := process_sound hp
    rw [hp] at h
    simp only [bind, Except.bind] at h
    cases hpl : plainValues vs with
    | error e => rw [hpl] at h; simp at h
    | ok xs =>
      rw [hpl] at h
      have hx : ∀ x, some x ∈ (OneMany.many xs).enlist → 0 < x ∧ x < 1 := by
        by_contra hx
        simp only [C55_p_to_odds, if_neg hx] at h
        simp at h
      simp only [C55_p_to_odds, if_pos hx] at h
      simp only [OneMany.enlist] at h hx
      have hmem : ∀ x, some x ∈ xs → some x ∈ a.vals := by
        intro x hx
        obtain ⟨i, hi'⟩ := List.mem_iff_getElem?.1 hx
        obtain ⟨y, hy1, hy2⟩ := mapExcept_get hpl i _ hi'
        have := k3 y (List.mem_of_getElem? hy1)
        match y, this, hy2 with
        | .plain z, hm, hy2 =>
          simp only [Except.ok.injEq] at hy2
          rw [← hy2]
          exact hm
        | .pair _ _, _, hy2 => simp at hy2
      cases hg : geomean (OneMany.simplify (xs.map (Option.map fun x => x / (1 - x)))).asValues
          (.list (ws.map some)) with
      | error e => rw [hg] at h; simp at h
      | ok g =>
        rw [hg] at h
        simp only at h
        have hg0 : ∀ x, some x ∈ (OneMany.one (some g)).enlist → 0 < x := by
          by_contra hg0
          rw [C55_odds_to_p, if_neg hg0] at h
          simp at h
        rw [C55_odds_to_p, if_pos hg0] at h
        simp only [OneMany.enlist, List.map_cons, List.map_nil, Option.map_some, OneMany.simplify, Except.ok.injEq] at h
        have hgpos : 0 < g := hg0 g (by simp [OneMany.enlist])
        have hvals : ∀ v, some v ∈ (OneMany.simplify
            (xs.map (Option.map fun x => x / (1 - x)))).asValues.vals →
            ∃ x, some x ∈ xs ∧ v = x / (1 - x) := by
          intro v hv
          have : some v ∈ xs.map (Option.map fun x => x / (1 - x)) := by
            revert hv
            generalize xs.map (Option.map fun x => x / (1 - x)) = l
            unfold OneMany.simplify
            split
            · intro hv; simp [OneMany.asValues, VArg.vals] at hv
            · intro hv
              simpa [OneMany.asValues, VArg.vals, VItem.val, Function.comp_def] using hv
          obtain ⟨o, ho, hov⟩ := List.mem_map.1 this
          cases o with
          | none => simp at hov
          | some x => exact ⟨x, ho, by simpa using hov.symm⟩
        have h1hi : (0 : ℝ) < 1 - hi := by linarith
        have hlohi : lo ≤ hi := by
          by_contra hc
          -- then there are no values at all, and the call cannot have succeeded
          have : ∀ v, some v ∉ (OneMany.simplify
              (xs.map (Option.map fun x => x / (1 - x)))).asValues.vals := by
            intro v hv
            obtain ⟨x, hx1, _⟩ := hvals v hv
            obtain ⟨b1, b2⟩ := hb x (hmem x hx1)
            exact hc (b1.trans b2)
          have e1 := C56_between _ _ _ _ g 2 2 (by norm_num) hg (fun v hv => absurd hv (this v))
          have e2 := C56_between _ _ _ _ g 3 3 (by norm_num) hg (fun v hv => absurd hv (this v))
          linarith [e1.2, e2.1]
        have h1lo : (0 : ℝ) < 1 - lo := by linarith
        obtain ⟨e1, e2⟩ := C56_between _ _ _ _ g (lo / (1 - lo)) (hi / (1 - hi)) (div_pos hlo h1lo) hg
          (by
            intro v hv
            obtain ⟨x, hx1, rfl⟩ := hvals v hv
            obtain ⟨b1, b2⟩ := hb x (hmem x hx1)
            have : (0 : ℝ) < 1 - x := by linarith
            constructor
            · rw [div_le_div_iff₀ h1lo this]; nlinarith
            · rw [div_le_div_iff₀ this h1hi]; nlinarith)
        have h1g : (0 : ℝ) < 1 + g := by linarith
        rw [← h]
        rw [div_le_iff₀ h1lo] at e1
        rw [le_div_iff₀ h1hi] at e2
        constructor
        · rw [le_div_iff₀ h1g]; nlinarith
        · rw [div_le_iff₀ h1g]; nlinarith

/-- **C57** is false of the code for a single probability: `geomean_odds([p])` raises ValueError, as
does every call that keeps just one probability (for example weights `[1, 0]`). -/
theorem C57_single_fails (p : ℝ) (h0 : 0 < p) (h1 : p < 1) :
    geomeanOdds (numbers [p]) = .error .valueError := by
  refine (geomeanOdds_core (ws := [1]) (ps := [p]) ?_ ?_).2 rfl
  · have := (C04_uniform (K := ℝ) Option.isNone [some p] (by simp)).1
    have h2 := C04_uniform_drop_na (K := ℝ) Option.isNone [some p] (by simp)
    unfold numbers
    simp only [List.map_cons, List.map_nil]
    simp only [List.map_cons, List.map_nil] at h2
    rw [h2, if_neg (by simp)]
    simp
  · intro q hq
    simp only [List.mem_singleton] at hq
    rw [hq]
    exact ⟨h0, h1⟩

example : ∃ r, geomeanOdds (.list ([some (1/2), none, some (1/3)].map .plain)) = .ok r := by
  obtain ⟨r, h, _⟩ := C57_unweighted_partial [some (1/2), none, some (1/3)] (by
    intro p hp
    simp only [List.mem_cons, Option.some.injEq, reduceCtorEq, List.not_mem_nil, or_false, false_or] at hp
    rcases hp with rfl | rfl <;> norm_num) (by simp)
  exact ⟨r, h⟩

example : geomeanOdds (numbers [1/2]) = .error .valueError :=
  C57_single_fails _ (by norm_num) (by norm_num)

end Verif
