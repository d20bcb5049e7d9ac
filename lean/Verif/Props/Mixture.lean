import Verif.Lemmas.Mixture
import Verif.Props.Weights
import Verif.Model.ZeroInflated
import Mathlib.MeasureTheory.Measure.Lebesgue.Basic

/-!
# C05, C06, C07, C09: component selection of mixtures

Probabilities are Lebesgue measures of sets of uniform draws `u ∈ [0, 1)` (numpy's `uniform(0, 1)`).
-/

namespace Verif

open MeasureTheory Spec

/-- Lebesgue measure of the set of draws `u ∈ [0,1)` satisfying `P`: the probability of `P`. -/
noncomputable def prob (P : ℝ → Prop) : ENNReal := volume {u : ℝ | 0 ≤ u ∧ u < 1 ∧ P u}

/-- The measure of a set between the open and the closed interval. -/
theorem volume_sandwich (S : Set ℝ) (a b : ℝ) (h1 : Set.Ioo a b ⊆ S) (h2 : S ⊆ Set.Icc a b) :
    volume S = ENNReal.ofReal (b - a) := by
  apply le_antisymm
  · calc volume S ≤ volume (Set.Icc a b) := measure_mono h2
      _ = _ := Real.volume_Icc
  · calc ENNReal.ofReal (b - a) = volume (Set.Ioo a b) := Real.volume_Ioo.symm
      _ ≤ _ := measure_mono h1

/-- Up to 100 samples, any accepted weights: component `i` is picked with probability
`min 1 c(i+1) - min 1 c(i)` where `c(i)` is the sum of the first `i` weights, except that the last
component also receives whatever is missing to one. -/
theorem C05_small_n_general (ws : List ℝ) (hnn : ∀ w ∈ ws, 0 ≤ w) (i : ℕ) (hi : i < ws.length) :
    prob (fun u => pickSmall ws u = i) =
      ENNReal.ofReal ((if i + 1 = ws.length then 1 else min 1 (ws.take (i + 1)).sum)
        - min 1 (ws.take i).sum) := by
  have hne : ws ≠ [] := by rintro rfl; simp at hi
  have h0 : 0 ≤ (ws.take i).sum := List.sum_nonneg fun x hx => hnn x (List.mem_of_mem_take hx)
  have hmono := take_sum_mono ws hnn (Nat.le_succ i)
  unfold prob
  apply volume_sandwich
  · rintro u ⟨hl, hr⟩
    have hr1 : u < 1 := by
      refine lt_of_lt_of_le hr ?_
      split
      · exact le_rfl
      · exact min_le_left _ _
    have hl' : (ws.take i).sum < u := by
      rcases min_lt_iff.mp hl with h | h
      · linarith
      · exact h
    refine ⟨by linarith, hr1, ?_⟩
    show pickSmall ws u = i
    rw [pickSmall_iff ws hnn hne]
    refine ⟨hi, ?_, Or.inr hl'⟩
    split at hr
    · right; assumption
    · left
      exact (lt_of_lt_of_le hr (min_le_right _ _)).le
  · rintro u ⟨hu0, hu1, hp⟩
    rw [pickSmall_iff ws hnn hne] at hp
    obtain ⟨_, hr, hl⟩ := hp
    constructor
    · rcases hl with rfl | hl
      · simpa using hu0
      · exact (lt_of_le_of_lt (min_le_right _ _) hl).le
    · split
      · exact hu1.le
      · rename_i hlast
        rcases hr with hr | hr
        · exact le_min hu1.le hr
        · exact absurd hr hlast

/-- More than 100 samples, any accepted weights. -/
theorem C05_large_n_general (ws : List ℝ) (hnn : ∀ w ∈ ws, 0 ≤ w) (i : ℕ) (hi : i < ws.length) :
    prob (fun u => pickLarge ws u = .ok i) =
      ENNReal.ofReal (min 1 (ws.take (i + 1)).sum - min 1 (ws.take i).sum) := by
  have h0 : 0 ≤ (ws.take i).sum := List.sum_nonneg fun x hx => hnn x (List.mem_of_mem_take hx)
  unfold prob
  apply volume_sandwich
  · rintro u ⟨hl, hr⟩
    have hr1 : u < 1 := lt_of_lt_of_le hr (min_le_left _ _)
    have hl' : (ws.take i).sum < u := by
      rcases min_lt_iff.mp hl with h | h
      · linarith
      · exact h
    refine ⟨by linarith, hr1, ?_⟩
    show pickLarge ws u = .ok i
    rw [pickLarge_iff ws hnn]
    exact ⟨hi, (lt_of_lt_of_le hr (min_le_right _ _)).le, Or.inr hl'⟩
  · rintro u ⟨hu0, hu1, hp⟩
    rw [pickLarge_iff ws hnn] at hp
    obtain ⟨_, hr, hl⟩ := hp
    constructor
    · rcases hl with rfl | hl
      · simpa using hu0
      · exact (lt_of_le_of_lt (min_le_right _ _) hl).le
    · exact le_min hu1.le hr

theorem take_succ_sum (ws : List ℝ) (i : ℕ) (hi : i < ws.length) :
    (ws.take (i + 1)).sum = (ws.take i).sum + ws[i] := by
  rw [List.take_add_one, List.sum_append, List.getElem?_eq_getElem hi]
  simp

theorem take_sum_le_sum (ws : List ℝ) (hnn : ∀ w ∈ ws, 0 ≤ w) (i : ℕ) :
    (ws.take i).sum ≤ ws.sum := by
  by_cases h : i ≤ ws.length
  · have := take_sum_mono ws hnn h
    rwa [List.take_length] at this
  · rw [List.take_of_length_le (by omega)]

/-- **C05**: for non-negative weights summing to one, each strategy picks component `i` with
probability exactly its weight. -/
theorem C05_component_probability (ws : List ℝ) (hnn : ∀ w ∈ ws, 0 ≤ w) (hsum : ws.sum = 1)
    (i : ℕ) (hi : i < ws.length) :
    prob (fun u => pickSmall ws u = i) = ENNReal.ofReal ws[i] ∧
    prob (fun u => pickLarge ws u = .ok i) = ENNReal.ofReal ws[i] := by
  have h1 : (ws.take (i + 1)).sum ≤ 1 := hsum ▸ take_sum_le_sum ws hnn _
  have h2 : (ws.take i).sum ≤ 1 := hsum ▸ take_sum_le_sum ws hnn _
  have h3 := take_succ_sum ws i hi
  rw [C05_small_n_general ws hnn i hi, C05_large_n_general ws hnn i hi, min_eq_right h1,
    min_eq_right h2]
  have h4 : (ws.take (i + 1)).sum - (ws.take i).sum = ws[i] := by rw [h3]; ring
  constructor
  · congr 1
    split
    · rename_i hl
      rw [← h4, hl, List.take_length, hsum]
    · exact h4
  · rw [h4]

example : (∀ w ∈ [(1/4 : ℝ), 1/4, 1/2], 0 ≤ w) ∧ [(1/4 : ℝ), 1/4, 1/2].sum = 1 := by norm_num

/-- **C05** for weights that are accepted but do not sum to one exactly: the probability of every
component differs from its weight by less than 0.01 (small-n strategy). -/
theorem C05_accepted_within_tolerance (ws : List ℝ) (hacc : Acceptable ws) (i : ℕ)
    (hi : i < ws.length) :
    ∃ p : ℝ, prob (fun u => pickSmall ws u = i) = ENNReal.ofReal p ∧ 0 ≤ p ∧ |p - ws[i]| < 1 / 100 := by
  obtain ⟨hnn, hlo, hhi⟩ := hacc
  refine ⟨_, C05_small_n_general ws hnn i hi, ?_, ?_⟩
  · have := take_sum_mono ws hnn (Nat.le_succ i)
    split
    · linarith [min_le_left 1 (ws.take i).sum]
    · have := min_le_min_left 1 this
      linarith
  · have h1 := take_sum_le_sum ws hnn (i + 1)
    have h2 := take_sum_le_sum ws hnn i
    have h3 := take_succ_sum ws i hi
    have hw : 0 ≤ ws[i] := hnn _ (List.getElem_mem hi)
    split
    · rename_i hl
      rw [hl, List.take_length] at h3
      rw [abs_lt]
      rcases min_cases 1 (ws.take i).sum with ⟨h, _⟩ | ⟨h, _⟩ <;> rw [h] <;> constructor <;> linarith
    · rw [abs_lt]
      rcases min_cases 1 (ws.take i).sum with ⟨h, _⟩ | ⟨h, _⟩ <;>
        rcases min_cases 1 (ws.take (i + 1)).sum with ⟨h', _⟩ | ⟨h', _⟩ <;>
        rw [h, h'] <;> constructor <;> linarith

example : Acceptable [(1/2 : ℝ), 0.495] := by unfold Acceptable; norm_num

/-- **C06** is false of the code: the weights `[0.5, 0.495]` are accepted, but for `u = 0.999` the
strategy for more than 100 samples raises `IndexError` while the other one returns the last
component. -/
theorem C06_strategies_fails :
    ∃ (ws : List ℝ) (u : ℝ), Acceptable ws ∧ 0 ≤ u ∧ u < 1 ∧
      pickLarge ws u = .error .indexError ∧ pickSmall ws u = 1 := by
  have hnn : ∀ w ∈ [(1/2 : ℝ), 0.495], 0 ≤ w := by
    intro w hw; simp at hw; rcases hw with rfl | rfl <;> norm_num
  refine ⟨[1/2, 0.495], 0.999, ⟨hnn, by norm_num, by norm_num⟩, by norm_num, by norm_num, ?_, ?_⟩
  · rw [pickLarge_error_iff _ hnn (by simp)]; norm_num
  · rw [pickSmall_iff _ hnn (by simp)]
    refine ⟨by simp, Or.inr (by simp), Or.inr ?_⟩
    norm_num

/-- The large-n failure of C06 has positive probability: exactly `1 - sum` when the accepted weights
sum to less than one. -/
theorem C06_failure_probability (ws : List ℝ) (hacc : Acceptable ws) (h1 : ws.sum ≤ 1) :
    prob (fun u => pickLarge ws u = .error .indexError) = ENNReal.ofReal (1 - ws.sum) := by
  obtain ⟨hnn, hlo, hhi⟩ := hacc
  have hne : ws ≠ [] := by rintro rfl; norm_num at hlo
  unfold prob
  apply volume_sandwich
  · rintro u ⟨hl, hr⟩
    exact ⟨by linarith, hr, (pickLarge_error_iff ws hnn hne u).mpr hl⟩
  · rintro u ⟨_, hu1, hp⟩
    exact ⟨((pickLarge_error_iff ws hnn hne u).mp hp).le, hu1.le⟩

/-- **C06**, what does hold, over any ordered field: whenever the draw does not exceed the total
weight (in particular for every `u < 1` if the weights sum to at least one) both strategies succeed
and pick the same component. -/
theorem C06_strategies_partial {K : Type} [Field K] [LinearOrder K] [IsStrictOrderedRing K]
    (ws : List K) (hnn : ∀ w ∈ ws, 0 ≤ w) (hne : ws ≠ []) (u : K) (hu : u ≤ ws.sum) :
    pickLarge ws u = .ok (pickSmall ws u) ∧ pickSmall ws u < ws.length := by
  obtain ⟨h1, h2, h3⟩ := (pickSmall_iff ws hnn hne u (pickSmall ws u)).mp rfl
  refine ⟨(pickLarge_iff ws hnn u _).mpr ⟨h1, ?_, h3⟩, h1⟩
  rcases h2 with h2 | h2
  · exact h2
  · rw [h2, List.take_length]; exact hu

example : (1/3 : ℚ) ≤ [(1/4 : ℚ), 3/4].sum := by norm_num

/-- **C06**: the strategy for up to 100 samples never fails: it always returns a component. -/
theorem C06_small_total {K : Type} [Field K] [LinearOrder K] [IsStrictOrderedRing K]
    (ws : List K) (hnn : ∀ w ∈ ws, 0 ≤ w) (hne : ws ≠ []) (u : K) :
    pickSmall ws u < ws.length :=
  ((pickSmall_iff ws hnn hne u (pickSmall ws u)).mp rfl).1

/-- **C07**: whatever weights (all argument shapes) a mixture was built with, a component with
weight zero is not among the components kept, so it can never be picked: every kept weight is
positive. -/
theorem C07_zero_weight_never_kept {K : Type} [Field K] [LinearOrder K] [IsStrictOrderedRing K]
    {α : Type} (w r : WArg K) (v : VArg K α) (ws : List K) (vs : List (VItem K α))
    (h : mixtureInit w r v = .ok (ws, vs)) : (∀ x ∈ ws, 0 < x) ∧ ws.length = vs.length := by
  have hkp : ∀ (l : List K) (m : List (VItem K α)) ws' vs', keepPositive l m = .ok (ws', vs') →
      (∀ x ∈ ws', 0 < x) ∧ ws'.length = vs'.length := by
    intro l
    induction l with
    | nil => intro m ws' vs' h; simp [keepPositive] at h; rcases h with ⟨rfl, rfl⟩; simp
    | cons a l ih =>
      intro m ws' vs' h
      cases m with
      | nil => simp [keepPositive] at h
      | cons b m =>
        unfold keepPositive at h
        split at h
        · cases h
        · simp only [bind, Except.bind] at h
          split at h
          · cases h
          · rename_i p hp
            obtain ⟨p1, p2⟩ := p
            have := ih m p1 p2 hp
            simp only at h
            split at h
            · rename_i hpos
              cases h
              refine ⟨?_, by simp [this.2]⟩
              intro x hx
              rcases List.mem_cons.mp hx with rfl | hx
              · exact hpos
              · exact this.1 x hx
            · cases h; exact this
  unfold mixtureInit processWeightsValues at h
  split at h
  · cases h
  split at h
  · cases h
  simp only at h
  split at h
  · cases h
  split at h
  · cases h
  split at h
  · cases h
  split at h
  · cases h
  unfold finishWeights at h
  split at h
  · split at h
    · simp only [normalizedByZero] at h
      split_ifs at h
      cases h
      simp
    split at h
    · cases h
    · split at h
      · cases h
      · exact hkp _ _ _ _ h
  · simp only at h
    split at h
    · split at h
      · cases h
      all_goals exact hkp _ _ _ _ h
    · split at h
      · cases h
      · split at h
        · cases h
        · exact hkp _ _ _ _ h

/-- **C07**, probability form: given one weight per component, a component of weight zero is
dropped – with positive weights the kept components are exactly those of non-zero weight (C01). -/
theorem C07_kept_exactly_nonzero {K : Type} [Field K] [LinearOrder K] [IsStrictOrderedRing K]
    {α : Type} (wts : List K) (vs : List α) (hlen : wts.length = vs.length) (hne : vs ≠ [])
    (hacc : Acceptable wts) :
    mixtureInit (.list (wts.map some)) .absent (.list (vs.map .plain)) =
      .ok ((nonzeroPairs wts vs).map Prod.fst, (nonzeroPairs wts vs).map (fun p => .plain p.2)) := by
  unfold mixtureInit
  rw [C01_weights_decision _ wts vs _ (by simp [weightForms]) hlen hne false (by simp), if_pos hacc]

/-- Sampling a mixture processes its stored weights again (samplers.py:833); for weights that came
out of the constructor this changes nothing. -/
theorem C07_reprocessing_is_identity {K : Type} [Field K] [LinearOrder K] [IsStrictOrderedRing K]
    {α : Type} (ws : List K) (vs : List α) (hlen : ws.length = vs.length) (hne : vs ≠ [])
    (hpos : ∀ w ∈ ws, 0 < w) (hlo : 99 / 100 < ws.sum) (hhi : ws.sum < 101 / 100) :
    mixtureInit (.list (ws.map some)) .absent (.list (vs.map .plain)) =
      .ok (ws, vs.map .plain) := by
  rw [C07_kept_exactly_nonzero ws vs hlen hne ⟨fun w hw => (hpos w hw).le, hlo, hhi⟩]
  have : nonzeroPairs ws vs = ws.zip vs := by
    unfold nonzeroPairs
    rw [List.filter_eq_self]
    intro p hp
    have := (List.of_mem_zip (by simpa using hp) : p.1 ∈ _ ∧ p.2 ∈ _).1
    simpa using ne_of_gt (hpos _ this)
  rw [this, map_fst_zip' _ _ hlen]
  conv_rhs => rw [← map_snd_zip' ws vs hlen, List.map_map]
  rfl

/-! ### C09: zero inflation -/

/-- **C09**: `zero_inflated(p, d)` is accepted exactly for numbers `p` in `[0, 1]`. -/
theorem C09_accepted_iff {K : Type} [Field K] [LinearOrder K] [IsStrictOrderedRing K] {α : Type}
    (a : PArg K) (z d : α) :
    (∃ r, zeroInflated a z d = .ok r) ↔ ∃ p, a = .num p ∧ 0 ≤ p ∧ p ≤ 1 := by
  constructor
  · rintro ⟨r, h⟩
    cases a with
    | bool b => cases h
    | other => cases h
    | num p =>
      refine ⟨p, rfl, ?_⟩
      by_contra hc
      simp [zeroInflated, hc] at h
  · rintro ⟨p, rfl, h0, h1⟩
    unfold zeroInflated
    simp only [h0, h1, and_self, not_true, if_false]
    have hone : ∀ x : α, mixtureInit (K := K) (.list [some 1]) .absent (.list [.plain x]) =
        .ok ([1], [.plain x]) := by
      intro x
      have := C07_reprocessing_is_identity (K := K) [1] [x] rfl (by simp) (by simp) (by norm_num)
        (by norm_num)
      simpa using this
    by_cases hp1 : p = 1
    · rw [if_pos hp1]; exact ⟨_, hone z⟩
    · rw [if_neg hp1]
      by_cases hp0 : p = 0
      · rw [if_pos hp0]; exact ⟨_, hone d⟩
      · rw [if_neg hp0]
        have hlt : p < 1 := lt_of_le_of_ne h1 hp1
        have := C03_single_number (fun _ : α => false) p z d h0 hlt
        unfold mixtureInit
        rw [this, if_neg hp0]
        exact ⟨_, rfl⟩

/-- **C09**: a rejected `p` raises `ValueError`. -/
theorem C09_rejected {K : Type} [Field K] [LinearOrder K] {α : Type}
    (p : K) (z d : α) (h : ¬ (0 ≤ p ∧ p ≤ 1)) :
    zeroInflated (.num p) z d = .error .valueError := by
  simp [zeroInflated, h]

/-- **C09**: for every `p` in `[0, 1]` the zero component is picked with probability exactly `p` and
the distribution with probability exactly `1 - p`, by both sampling strategies. -/
theorem C09_probability {α : Type} (p : ℝ) (z d : α) (hzd : z ≠ d) (h0 : 0 ≤ p) (h1 : p ≤ 1) :
    ∃ ws vs, zeroInflated (.num p) z d = .ok (ws, vs) ∧
      prob (fun u => vs[pickSmall ws u]? = some (.plain z)) = ENNReal.ofReal p ∧
      prob (fun u => vs[pickSmall ws u]? = some (.plain d)) = ENNReal.ofReal (1 - p) ∧
      prob (fun u => ∃ i, pickLarge ws u = .ok i ∧ vs[i]? = some (.plain z)) = ENNReal.ofReal p ∧
      prob (fun u => ∃ i, pickLarge ws u = .ok i ∧ vs[i]? = some (.plain d))
        = ENNReal.ofReal (1 - p) := by
  have hone : ∀ x : α, mixtureInit (K := ℝ) (.list [some 1]) .absent (.list [.plain x]) =
      .ok ([1], [.plain x]) := by
    intro x
    have := C07_reprocessing_is_identity (K := ℝ) [1] [x] rfl (by simp) (by simp) (by norm_num)
      (by norm_num)
    simpa using this
  have hS : ∀ u : ℝ, pickSmall [1] u = 0 := by
    intro u
    rw [pickSmall_iff _ (by norm_num) (by simp)]
    simp
  have hL : ∀ u : ℝ, u < 1 → pickLarge [1] u = .ok 0 := by
    intro u hu
    rw [pickLarge_iff _ (by norm_num)]
    simp [hu.le]
  have htrue : prob (fun _ => True) = 1 := by
    unfold prob
    rw [volume_sandwich _ 0 1]
    · simp
    · rintro u ⟨h, h'⟩; exact ⟨h.le, h', trivial⟩
    · rintro u ⟨h, h', _⟩; exact ⟨h, h'.le⟩
  have hfalse : prob (fun _ => False) = 0 := by unfold prob; simp
  have hcongr : ∀ P Q : ℝ → Prop, (∀ u, 0 ≤ u → u < 1 → (P u ↔ Q u)) → prob P = prob Q := by
    intro P Q h
    unfold prob
    congr 1
    ext u
    constructor
    · rintro ⟨a, b, c⟩; exact ⟨a, b, (h u a b).mp c⟩
    · rintro ⟨a, b, c⟩; exact ⟨a, b, (h u a b).mpr c⟩
  have hinj : ∀ x y : α, (VItem.plain x : VItem ℝ α) = .plain y ↔ x = y := by
    intro x y; constructor
    · intro h; cases h; rfl
    · rintro rfl; rfl
  by_cases hp1 : p = 1
  · refine ⟨[1], [.plain z], ?_, ?_, ?_, ?_, ?_⟩
    · simp [zeroInflated, hp1, hone]
    · rw [hcongr _ (fun _ => True) (by intro u _ _; simp [hS]), htrue, hp1]; simp
    · rw [hcongr _ (fun _ => False) (by intro u _ _; simp [hS, hzd]), hfalse, hp1]; simp
    · rw [hcongr _ (fun _ => True) (by intro u _ h; simp [hL u h]), htrue, hp1]; simp
    · rw [hcongr _ (fun _ => False) (by intro u _ h; simp [hL u h, hzd]), hfalse, hp1]; simp
  by_cases hp0 : p = 0
  · refine ⟨[1], [.plain d], ?_, ?_, ?_, ?_, ?_⟩
    · simp [zeroInflated, hp0, hone]
    · rw [hcongr _ (fun _ => False) (by intro u _ _; simp [hS, hzd.symm]), hfalse, hp0]; simp
    · rw [hcongr _ (fun _ => True) (by intro u _ _; simp [hS]), htrue, hp0]; simp
    · rw [hcongr _ (fun _ => False) (by intro u _ h; simp [hL u h, hzd.symm]), hfalse, hp0]; simp
    · rw [hcongr _ (fun _ => True) (by intro u _ h; simp [hL u h]), htrue, hp0]; simp
  have hlt : p < 1 := lt_of_le_of_ne h1 hp1
  have hpos : 0 < p := lt_of_le_of_ne h0 (Ne.symm hp0)
  have hnn : ∀ w ∈ [p, 1 - p], 0 ≤ w := by
    intro w hw; simp at hw; rcases hw with rfl | rfl <;> linarith
  have hsum : [p, 1 - p].sum = 1 := by simp
  obtain ⟨a1, a2⟩ := C05_component_probability [p, 1 - p] hnn hsum 0 (by simp)
  obtain ⟨b1, b2⟩ := C05_component_probability [p, 1 - p] hnn hsum 1 (by simp)
  have hS2 := fun u : ℝ => C06_small_total [p, 1 - p] hnn (by simp) u
  refine ⟨[p, 1 - p], [.plain z, .plain d], ?_, ?_, ?_, ?_, ?_⟩
  · unfold zeroInflated mixtureInit
    simp only [h0, h1, and_self, not_true, if_false, hp1, hp0]
    rw [C03_single_number (fun _ : α => false) p z d h0 hlt, if_neg hp0]
  · refine Eq.trans (hcongr _ _ ?_) a1
    intro u _ _
    have := hS2 u
    simp only [List.length_cons, List.length_nil] at this
    have h2 : pickSmall [p, 1 - p] u = 0 ∨ pickSmall [p, 1 - p] u = 1 := by omega
    rcases h2 with h2 | h2 <;> simp [h2, hzd.symm]
  · refine Eq.trans (hcongr _ _ ?_) b1
    intro u _ _
    have := hS2 u
    simp only [List.length_cons, List.length_nil] at this
    have h2 : pickSmall [p, 1 - p] u = 0 ∨ pickSmall [p, 1 - p] u = 1 := by omega
    rcases h2 with h2 | h2 <;> simp [h2, hzd]
  · refine Eq.trans (hcongr _ _ ?_) a2
    intro u _ hu
    constructor
    · rintro ⟨i, hi, hv⟩
      have := ((pickLarge_iff _ hnn u i).mp hi).1
      simp only [List.length_cons, List.length_nil] at this
      have h2 : i = 0 ∨ i = 1 := by omega
      rcases h2 with rfl | rfl
      · exact hi
      · simp [hzd.symm] at hv
    · intro h; exact ⟨0, h, by simp⟩
  · refine Eq.trans (hcongr _ _ ?_) b2
    intro u _ hu
    constructor
    · rintro ⟨i, hi, hv⟩
      have := ((pickLarge_iff _ hnn u i).mp hi).1
      simp only [List.length_cons, List.length_nil] at this
      have h2 : i = 0 ∨ i = 1 := by omega
      rcases h2 with rfl | rfl
      · simp [hzd] at hv
      · exact hi
    · intro h; exact ⟨1, h, by simp⟩

example : (0 : ℝ) ≤ 0.3 ∧ (0.3 : ℝ) ≤ 1 ∧ (0 : ℕ) ≠ 1 := by norm_num

end Verif
