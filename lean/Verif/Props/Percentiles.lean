import Verif.Lemmas.Percentiles
import Verif.Lemmas.Round
import Mathlib.Data.Rat.Floor
import Mathlib.Algebra.Order.Ring.Rat

/-! # Percentiles: C63, C64, C65, C66 -/

namespace Verif
open Verif.Spec

variable {K : Type} [Field K] [LinearOrder K] [IsStrictOrderedRing K] [FloorRing K]

/-! ### C63: unweighted percentiles -/

omit [IsStrictOrderedRing K] in
theorem npPercentile_ok {data ps : List K} {vs : List K} :
    npPercentile data ps = .ok vs ↔ data ≠ [] ∧ (∀ p ∈ ps, 0 ≤ p ∧ p ≤ 100) ∧
      vs = ps.map (percentileAt (data.insertionSort (· ≤ ·))) := by
  unfold npPercentile
  split_ifs with h1 h2
  · constructor
    · rintro ⟨⟩
    · rintro ⟨-, h, -⟩
      obtain ⟨p, hp, h1 | h1⟩ := h1
      · exact absurd (h p hp).1 (not_le.2 h1)
      · exact absurd (h p hp).2 (not_le.2 h1)
  · simp [h2]
  · push Not at h1
    simp only [Except.ok.injEq]
    constructor
    · rintro rfl; exact ⟨h2, h1, rfl⟩
    · rintro ⟨-, -, rfl⟩; rfl

omit [IsStrictOrderedRing K] in
theorem mapExcept_flt (xs : List K) : mapExcept (roundOpt none) xs = .ok (xs.map .flt) := by
  induction xs with
  | nil => rfl
  | cons x xs ih => simp only [mapExcept, roundOpt, ih, List.map_cons]; rfl

omit [IsStrictOrderedRing K] in
theorem getPercentiles_one (argsort : List K → List ℕ) (data : List K) (p : K) (rev : Bool) (r : PctResult K) :
    getPercentiles argsort data (.one p) none rev none = .ok r ↔
      data ≠ [] ∧ 0 ≤ p ∧ p ≤ 100 ∧
        r = .one (.flt (percentileAt (data.insertionSort (· ≤ ·)) p)) := by
  unfold getPercentiles
  simp only [PctArg.toList, List.reverse_singleton, ite_self]
  cases h : npPercentile data [p] with
  | error e =>
    constructor
    · rintro ⟨⟩
    · rintro ⟨h1, h2, h3, -⟩
      have := npPercentile_ok.2 ⟨h1, fun q hq => by rw [List.mem_singleton.1 hq]; exact ⟨h2, h3⟩, rfl⟩
      rw [h] at this
      cases this
  | ok vs =>
    obtain ⟨h1, h2, rfl⟩ := npPercentile_ok.1 h
    have h2 := h2 p (by simp)
    show (do
      let rs ← mapExcept (roundOpt none) [percentileAt (data.insertionSort (· ≤ ·)) p]
      if [p].length = 1 then
        match rs with
        | r :: _ => .ok (.one r)
        | [] => .error .indexError
      else .ok (.dict (dictOf ([p].zip rs))) : Except PyErr (PctResult K)) = .ok r ↔ _
    rw [mapExcept_flt]
    show Except.ok (PctResult.one (.flt (percentileAt (data.insertionSort (· ≤ ·)) p))) = .ok r ↔ _
    rw [Except.ok.injEq]
    exact ⟨fun h => ⟨h1, h2.1, h2.2, h.symm⟩, fun h => h.2.2.2.symm⟩

/-- **C63** (one percentile): the result is a number, the percentile by linear interpolation; exactly
for a percentile between 0 and 100 and at least one data point. -/
theorem C63_value (argsort : List K → List ℕ) (data : List K) (p : K) (rev : Bool) (v : K) :
    getPercentiles argsort data (.one p) none rev none = .ok (.one (.flt v)) ↔
      data ≠ [] ∧ 0 ≤ p ∧ p ≤ 100 ∧ IsPercentile data p v := by
  rw [getPercentiles_one]
  constructor
  · rintro ⟨h1, h2, h3, h4⟩
    injection h4 with h4
    injection h4 with h4
    subst h4
    exact ⟨h1, h2, h3, isPercentile_percentileAt data h1 p h2 h3⟩
  · rintro ⟨h1, h2, h3, h4⟩
    exact ⟨h1, h2, h3, by rw [isPercentile_unique h4 (isPercentile_percentileAt data h1 p h2 h3)]⟩

omit [IsStrictOrderedRing K] in
/-- **C63**: a percentile exists for all data and every `p` in [0,100]; outside, ValueError. -/
theorem C63_total (argsort : List K → List ℕ) (data : List K) (p : K) (rev : Bool) :
    (data ≠ [] → 0 ≤ p → p ≤ 100 →
      ∃ v, getPercentiles argsort data (.one p) none rev none = .ok (.one (.flt v))) ∧
    ((p < 0 ∨ 100 < p) → ∀ digits,
      getPercentiles argsort data (.one p) none rev digits = .error .valueError) := by
  constructor
  · intro h1 h2 h3
    exact ⟨_, (getPercentiles_one ..).2 ⟨h1, h2, h3, rfl⟩⟩
  · intro h digits
    have hn : npPercentile data [p] = .error .valueError := if_pos ⟨p, by simp, h⟩
    unfold getPercentiles
    simp only [PctArg.toList, hn]
    rfl

omit [FloorRing K] in
theorem isPercentile_bounds {data : List K} {p v : K} (h : IsPercentile data p v) :
    (∀ m, (∀ x ∈ data, m ≤ x) → m ≤ v) ∧ (∀ M, (∀ x ∈ data, x ≤ M) → v ≤ M) := by
  obtain ⟨s, k, t, hp, hs, hk, h0, h1, hor, -, rfl⟩ := h
  have hmem : ∀ j, j < s.length → s.getD j 0 ∈ data := fun j hj => by
    rw [List.getD_eq_getElem _ _ hj]
    exact hp.subset (List.getElem_mem hj)
  have hk' := hmem k hk
  constructor
  · intro m hm
    have := hm _ hk'
    rcases hor with rfl | hor
    · linarith
    · have := hm _ (hmem _ hor)
      nlinarith
  · intro m hm
    have := hm _ hk'
    rcases hor with rfl | hor
    · linarith
    · have := hm _ (hmem _ hor)
      nlinarith

/-- **C63**: percentiles lie between the smallest and the largest data point. -/
theorem C63_bounds (argsort : List K → List ℕ) (data : List K) (p v : K)
    (h : getPercentiles argsort data (.one p) = .ok (.one (.flt v))) :
    (∃ x ∈ data, x ≤ v) ∧ ∃ x ∈ data, v ≤ x := by
  obtain ⟨hd, -, -, hv⟩ := (C63_value ..).1 h
  obtain ⟨h1, h2⟩ := isPercentile_bounds hv
  have hne : data.toFinset.Nonempty := by
    obtain ⟨a, ha⟩ := List.exists_mem_of_ne_nil _ hd
    exact ⟨a, by simpa using ha⟩
  constructor
  · refine ⟨data.toFinset.min' hne, by simpa using data.toFinset.min'_mem hne, h1 _ fun x hx => ?_⟩
    exact data.toFinset.min'_le x (by simpa using hx)
  · refine ⟨data.toFinset.max' hne, by simpa using data.toFinset.max'_mem hne, h2 _ fun x hx => ?_⟩
    exact data.toFinset.le_max' x (by simpa using hx)

/-- **C63**: a higher percentile is not smaller. -/
theorem C63_monotone (argsort : List K → List ℕ) (data : List K) (p q v w : K) (hpq : p ≤ q)
    (h : getPercentiles argsort data (.one p) = .ok (.one (.flt v)))
    (h' : getPercentiles argsort data (.one q) = .ok (.one (.flt w))) : v ≤ w :=
  isPercentile_mono hpq ((C63_value ..).1 h).2.2.2 ((C63_value ..).1 h').2.2.2

/-- **C63**: the 0th percentile is the smallest data point, the 100th the largest. -/
theorem C63_ends (argsort : List K → List ℕ) (data : List K) (v : K) :
    (getPercentiles argsort data (.one 0) = .ok (.one (.flt v)) ↔ v ∈ data ∧ ∀ x ∈ data, v ≤ x) ∧
    (getPercentiles argsort data (.one 100) = .ok (.one (.flt v)) ↔ v ∈ data ∧ ∀ x ∈ data, x ≤ v) := by
  have hs := List.pairwise_insertionSort (· ≤ ·) data
  have hp : (data.insertionSort (· ≤ ·)).Perm data := List.perm_insertionSort _ _
  constructor
  · rw [C63_value]
    constructor
    · rintro ⟨hd, -, -, h⟩
      have hb := isPercentile_bounds h
      obtain ⟨s, k, t, a1, a2, a3, a4, a5, a6, a7, rfl⟩ := h
      rw [zero_div, zero_mul] at a7
      have hk0 : (0 : K) ≤ k := Nat.cast_nonneg k
      have ht : t = 0 := by linarith
      have hk : (k : K) = 0 := by linarith
      have hk : k = 0 := by exact_mod_cast hk
      subst ht hk
      rw [List.getD_eq_getElem _ _ a3]
      simp only [sub_zero, one_mul, zero_mul, add_zero]
      refine ⟨a1.subset (List.getElem_mem a3), fun x hx => ?_⟩
      obtain ⟨j, hj, rfl⟩ := List.mem_iff_getElem.1 (a1.symm.subset hx)
      have := getD_mono a2 (Nat.zero_le j) hj
      rwa [List.getD_eq_getElem _ _ a3, List.getD_eq_getElem _ _ hj] at this
    · rintro ⟨hv, hmin⟩
      have hd : data ≠ [] := by rintro rfl; simp at hv
      refine ⟨hd, le_rfl, by norm_num, ?_⟩
      set s := data.insertionSort (· ≤ ·)
      have hpos : 0 < s.length := by rw [hp.length_eq]; exact List.length_pos_iff.2 hd
      refine ⟨s, 0, 0, hp, hs, hpos, le_rfl, zero_le_one, Or.inl rfl, by simp, ?_⟩
      rw [List.getD_eq_getElem _ _ hpos]
      simp only [sub_zero, one_mul, zero_mul, add_zero]
      apply le_antisymm
      · exact hmin _ (hp.subset (List.getElem_mem hpos))
      · obtain ⟨j, hj, hjv⟩ := List.mem_iff_getElem.1 (hp.symm.subset hv)
        have := getD_mono hs (Nat.zero_le j) hj
        rwa [List.getD_eq_getElem _ _ hpos, List.getD_eq_getElem _ _ hj, hjv] at this
  · rw [C63_value]
    constructor
    · rintro ⟨hd, -, -, h⟩
      obtain ⟨s, k, t, a1, a2, a3, a4, a5, a6, a7, rfl⟩ := h
      rw [div_self (by norm_num), one_mul] at a7
      have key : (1 - t) * s.getD k 0 + t * s.getD (k + 1) 0 = s.getD (s.length - 1) 0 := by
        rcases a6 with rfl | h6
        · have : (s.length : K) = (k + 1 : ℕ) := by push_cast; linarith
          have : s.length = k + 1 := by exact_mod_cast this
          rw [this]; simp
        · have hle : ((k + 2 : ℕ) : K) ≤ s.length := by exact_mod_cast h6
          push_cast at hle
          have ht : t = 1 := by linarith
          subst ht
          have : (s.length : K) = (k + 2 : ℕ) := by push_cast; linarith
          have : s.length = k + 2 := by exact_mod_cast this
          rw [this]; simp
      have hl : s.length - 1 < s.length := by omega
      rw [key, List.getD_eq_getElem _ _ hl]
      refine ⟨a1.subset (List.getElem_mem hl), fun x hx => ?_⟩
      obtain ⟨j, hj, rfl⟩ := List.mem_iff_getElem.1 (a1.symm.subset hx)
      have := getD_mono a2 (show j ≤ s.length - 1 by omega) hl
      rwa [List.getD_eq_getElem _ _ hl, List.getD_eq_getElem _ _ hj] at this
    · rintro ⟨hv, hmax⟩
      have hd : data ≠ [] := by rintro rfl; simp at hv
      refine ⟨hd, by norm_num, le_rfl, ?_⟩
      set s := data.insertionSort (· ≤ ·)
      have hpos : 0 < s.length := by rw [hp.length_eq]; exact List.length_pos_iff.2 hd
      have hl : s.length - 1 < s.length := by omega
      refine ⟨s, s.length - 1, 0, hp, hs, hl, le_rfl, zero_le_one, Or.inl rfl, ?_, ?_⟩
      · rw [div_self (by norm_num), one_mul, add_zero, Nat.cast_sub (by omega)]; simp
      · rw [List.getD_eq_getElem _ _ hl]
        simp only [sub_zero, one_mul, zero_mul, add_zero]
        apply le_antisymm
        · obtain ⟨j, hj, hjv⟩ := List.mem_iff_getElem.1 (hp.symm.subset hv)
          have := getD_mono hs (show j ≤ s.length - 1 by omega) hl
          rwa [List.getD_eq_getElem _ _ hl, List.getD_eq_getElem _ _ hj, hjv] at this
        · exact hmax _ (hp.subset (List.getElem_mem hl))

omit [IsStrictOrderedRing K] in
/-- **C63**: the order of the data does not matter, for any arguments. -/
theorem C63_permutation (argsort : List K → List ℕ) (data data' : List K) (h : data.Perm data')
    (ps : PctArg K) (rev : Bool) (digits : Option ℤ) :
    getPercentiles argsort data ps none rev digits = getPercentiles argsort data' ps none rev digits := by
  have hs : data.insertionSort (· ≤ ·) = data'.insertionSort (· ≤ ·) :=
    (((List.perm_insertionSort _ _).trans h).trans (List.perm_insertionSort _ _).symm).eq_of_pairwise
      (fun _ _ _ _ h1 h2 => le_antisymm h1 h2) (List.pairwise_insertionSort _ _)
      (List.pairwise_insertionSort _ _)
  have hn : data = [] ↔ data' = [] := by
    constructor
    · rintro rfl; exact h.nil_eq.symm
    · rintro rfl; exact h.symm.nil_eq.symm
  have : ∀ qs, npPercentile data qs = npPercentile data' qs := by
    intro qs
    unfold npPercentile
    simp only [hs, hn]
  unfold getPercentiles
  simp only [this]

/-- **C63** (meaning as ranks): with `n` data points and the `p`-th percentile `v`, more than
`(n-1)·p/100` of them are at most `v`, and more than `(n-1)·(1-p/100)` are at least `v`. -/
theorem C63_rank (argsort : List K → List ℕ) (data : List K) (p v : K)
    (h : getPercentiles argsort data (.one p) = .ok (.one (.flt v))) :
    p / 100 * ((data.length : K) - 1) < (data.countP (· ≤ v) : ℕ) ∧
    (1 - p / 100) * ((data.length : K) - 1) < (data.countP (v ≤ ·) : ℕ) := by
  obtain ⟨hd, -, -, hv⟩ := (C63_value ..).1 h
  obtain ⟨s, k, t, a1, a2, a3, a4, a5, a6, a7, rfl⟩ := hv
  set v := (1 - t) * s.getD k 0 + t * s.getD (k + 1) 0 with hvdef
  rw [← a1.countP_eq, ← a1.countP_eq, ← a1.length_eq]
  have hlow : ∀ j, j ≤ k → s.getD j 0 ≤ v := by
    intro j hj
    have h1 := getD_mono a2 hj a3
    rcases a6 with h6 | h6
    · rw [hvdef, h6]; linarith
    · have := getD_mono a2 (Nat.le_succ k) h6
      nlinarith
  have hhigh : ∀ j, j < s.length → k < j → v ≤ s.getD j 0 := by
    intro j hj hkj
    have h1 := getD_mono a2 (show k + 1 ≤ j by omega) hj
    have := getD_mono a2 (Nat.le_succ k) (show k + 1 < s.length by omega)
    nlinarith
  have count1 : ∀ (P : K → Bool) (l : List K) (m : ℕ), m ≤ l.length →
      (∀ j (hj : j < l.length), j < m → P l[j]) → m ≤ l.countP P := by
    intro P l m hm hP
    calc m = (l.take m).length := by simp [hm]
      _ = (l.take m).countP P := by
        rw [eq_comm, List.countP_eq_length]
        intro a ha
        obtain ⟨j, hj, rfl⟩ := List.mem_iff_getElem.1 ha
        simp only [List.length_take] at hj
        rw [List.getElem_take]
        exact hP j (by omega) (by omega)
      _ ≤ l.countP P := (List.take_sublist m l).countP_le
  have count2 : ∀ (P : K → Bool) (l : List K) (m : ℕ),
      (∀ j (hj : j < l.length), m ≤ j → P l[j]) → l.length - m ≤ l.countP P := by
    intro P l m hP
    calc l.length - m = (l.drop m).length := by simp
      _ = (l.drop m).countP P := by
        rw [eq_comm, List.countP_eq_length]
        intro a ha
        obtain ⟨j, hj, rfl⟩ := List.mem_iff_getElem.1 ha
        simp only [List.length_drop] at hj
        rw [List.getElem_drop]
        exact hP _ (by omega) (by omega)
      _ ≤ l.countP P := (List.drop_sublist m l).countP_le
  rcases eq_or_lt_of_le a5 with ht1 | ht1
  · -- the fraction is 1: the value is the next data point
    have h6 : k + 1 < s.length := by
      rcases a6 with h6 | h6
      · rw [h6] at ht1; exact absurd ht1 (by norm_num)
      · exact h6
    have hveq : v = s.getD (k + 1) 0 := by rw [hvdef, ht1]; ring
    constructor
    · rw [a7, ht1]
      have := count1 (· ≤ v) s (k + 2) h6 (fun j hj hjm => by
        have := getD_mono a2 (show j ≤ k + 1 by omega) h6
        rw [List.getD_eq_getElem _ _ hj] at this
        simp only [decide_eq_true_eq, hveq]; exact this)
      have : ((k + 2 : ℕ) : K) ≤ (s.countP (· ≤ v) : ℕ) := by exact_mod_cast this
      push_cast at this
      linarith
    · have e : (1 - p / 100) * ((s.length : K) - 1) = s.length - 1 - (k + t) := by rw [← a7]; ring
      rw [e, ht1]
      have := count2 (v ≤ ·) s (k + 1) (fun j hj hjm => by
        have := hhigh j hj (by omega)
        rw [List.getD_eq_getElem _ _ hj] at this
        simpa using this)
      have : ((s.length - (k + 1) : ℕ) : K) ≤ (s.countP (v ≤ ·) : ℕ) := by exact_mod_cast this
      rw [Nat.cast_sub (by omega)] at this
      push_cast at this
      linarith
  · constructor
    · rw [a7]
      have := count1 (· ≤ v) s (k + 1) a3 (fun j hj hjm => by
        have := hlow j (by omega)
        rw [List.getD_eq_getElem _ _ hj] at this
        simpa using this)
      have : ((k + 1 : ℕ) : K) ≤ (s.countP (· ≤ v) : ℕ) := by exact_mod_cast this
      push_cast at this
      linarith
    · have e : (1 - p / 100) * ((s.length : K) - 1) = s.length - 1 - (k + t) := by rw [← a7]; ring
      rw [e]
      rcases eq_or_lt_of_le a4 with ht0 | ht0
      · have hveq : v = s.getD k 0 := by rw [hvdef, ← ht0]; ring
        have := count2 (v ≤ ·) s k (fun j hj hjm => by
          have := getD_mono a2 hjm hj
          rw [List.getD_eq_getElem _ _ hj] at this
          simp only [decide_eq_true_eq, hveq]; exact this)
        have : ((s.length - k : ℕ) : K) ≤ (s.countP (v ≤ ·) : ℕ) := by exact_mod_cast this
        rw [Nat.cast_sub (by omega)] at this
        linarith
      · have := count2 (v ≤ ·) s (k + 1) (fun j hj hjm => by
          have := hhigh j hj (by omega)
          rw [List.getD_eq_getElem _ _ hj] at this
          simpa using this)
        have : ((s.length - (k + 1) : ℕ) : K) ≤ (s.countP (v ≤ ·) : ℕ) := by exact_mod_cast this
        rw [Nat.cast_sub (by omega)] at this
        push_cast at this
        linarith

omit [FloorRing K] in
theorem isPercentile_affine {data : List K} {p v : K} (a b : K) (ha : 0 ≤ a) (h : IsPercentile data p v) :
    IsPercentile (data.map fun x => a * x + b) p (a * v + b) := by
  obtain ⟨s, k, t, a1, a2, a3, a4, a5, a6, a7, rfl⟩ := h
  refine ⟨s.map fun x => a * x + b, k, t, a1.map _, ?_, by simpa using a3, a4, a5, by simpa using a6,
    by simpa using a7, ?_⟩
  · rw [List.pairwise_map]
    refine a2.imp fun h => ?_
    have := mul_le_mul_of_nonneg_left h ha
    linarith
  · have hget : ∀ j, j < s.length →
        (s.map fun x => a * x + b).getD j 0 = a * s.getD j 0 + b := by
      intro j hj
      rw [List.getD_eq_getElem _ _ (by simpa using hj), List.getD_eq_getElem _ _ hj, List.getElem_map]
    rw [hget k a3]
    rcases a6 with rfl | h6
    · ring
    · rw [hget _ h6]
      ring

omit [FloorRing K] in
theorem isPercentile_neg {data : List K} {p v : K} (h : IsPercentile data p v) :
    IsPercentile (data.map fun x => -x) (100 - p) (-v) := by
  obtain ⟨s, k, t, a1, a2, a3, a4, a5, a6, a7, rfl⟩ := h
  have hperm : (s.reverse.map fun x => -x).Perm (data.map fun x => -x) :=
    (s.reverse_perm.trans a1).map _
  have hsort : (s.reverse.map fun x => -x).Pairwise (· ≤ ·) := by
    rw [List.pairwise_map, List.pairwise_reverse]
    exact a2.imp fun h => neg_le_neg h
  have hrev : (100 - p) / 100 * ((s.length : K) - 1) = s.length - 1 - (k + t) := by
    rw [← a7]
    have : (100 : K) ≠ 0 := by norm_num
    field_simp
  have hget : ∀ j, j < s.length →
      (s.reverse.map fun x => -x).getD j 0 = -s.getD (s.length - 1 - j) 0 := by
    intro j hj
    rw [List.getD_eq_getElem _ _ (by simpa using hj), List.getD_eq_getElem _ _ (by omega)]
    simp
  rcases eq_or_lt_of_le a4 with ht0 | ht0
  · subst ht0
    refine ⟨s.reverse.map fun x => -x, s.length - 1 - k, 0, hperm, hsort, by simp; omega, le_rfl,
      zero_le_one, Or.inl rfl, ?_, ?_⟩
    · rw [List.length_map, List.length_reverse, hrev, Nat.cast_sub (by omega), Nat.cast_sub (by omega)]
      push_cast; ring
    · rw [hget _ (by omega), show s.length - 1 - (s.length - 1 - k) = k by omega]
      ring
  · have h6 : k + 1 < s.length := by
      rcases a6 with h6 | h6
      · exact absurd h6 ht0.ne'
      · exact h6
    refine ⟨s.reverse.map fun x => -x, s.length - 2 - k, 1 - t, hperm, hsort, by simp; omega,
      by linarith, by linarith, Or.inr (by simp; omega), ?_, ?_⟩
    · rw [List.length_map, List.length_reverse, hrev, Nat.cast_sub (by omega), Nat.cast_sub (by omega)]
      push_cast; ring
    · rw [hget _ (by omega), hget _ (by omega),
        show s.length - 1 - (s.length - 2 - k) = k + 1 by omega,
        show s.length - 1 - (s.length - 2 - k + 1) = k by omega]
      ring

/-- **C63** (change of units): `a·x + b` for `a ≥ 0` carries percentiles along; changing the sign swaps
the `p`-th and the `(100-p)`-th percentile. -/
theorem C63_affine (argsort : List K → List ℕ) (data : List K) (p v : K)
    (h : getPercentiles argsort data (.one p) = .ok (.one (.flt v))) :
    (∀ a b, 0 ≤ a → getPercentiles argsort (data.map fun x => a * x + b) (.one p) =
      .ok (.one (.flt (a * v + b)))) ∧
    getPercentiles argsort (data.map fun x => -x) (.one (100 - p)) = .ok (.one (.flt (-v))) := by
  obtain ⟨hd, h0, h1, hv⟩ := (C63_value ..).1 h
  refine ⟨fun a b ha => ?_, ?_⟩
  · exact (C63_value ..).2 ⟨by simpa using hd, h0, h1, isPercentile_affine a b ha hv⟩
  · exact (C63_value ..).2 ⟨by simpa using hd, by linarith, by linarith, isPercentile_neg hv⟩

omit [IsStrictOrderedRing K] in
theorem getPercentiles_dict (argsort : List K → List ℕ) (data ps : List K) (rev : Bool) (hl : ps.length ≠ 1)
    (hd : data ≠ []) (hp : ∀ p ∈ ps, 0 ≤ p ∧ p ≤ 100) :
    getPercentiles argsort data (.list ps) none rev none = .ok (.dict (dictOf
      ((if rev then ps.reverse else ps).zip
        (ps.map fun p => .flt (percentileAt (data.insertionSort (· ≤ ·)) p))))) := by
  unfold getPercentiles
  simp only [PctArg.toList]
  rw [npPercentile_ok.2 ⟨hd, hp, rfl⟩]
  have h1 : (if rev = true then ps.reverse else ps).length ≠ 1 := by split <;> simpa using hl
  show (do
      let rs ← mapExcept (roundOpt none) _
      if (if rev = true then ps.reverse else ps).length = 1 then
        match rs with
        | r :: _ => .ok (.one r)
        | [] => .error .indexError
      else .ok (.dict (dictOf ((if rev = true then ps.reverse else ps).zip rs))) :
        Except PyErr (PctResult K)) = _
  rw [mapExcept_flt]
  show (if (if rev = true then ps.reverse else ps).length = 1 then _ else _) = _
  rw [if_neg h1, List.map_map]
  rfl

/-- **C63** (several percentiles): a dictionary with exactly the requested percentiles as keys.  Without
`reverse` each key has its percentile; with `reverse` (and no percentile listed twice) the values are
those of the list read from the other end. -/
theorem C63_labels (argsort : List K → List ℕ) (data ps : List K) (rev : Bool) (hl : ps.length ≠ 1)
    (hd : data ≠ []) (hp : ∀ p ∈ ps, 0 ≤ p ∧ p ≤ 100) :
    ∃ d, getPercentiles argsort data (.list ps) none rev none = .ok (.dict d) ∧
      (d.map Prod.fst).Nodup ∧ (∀ k, k ∈ d.map Prod.fst ↔ k ∈ ps) ∧
      (rev = false → ∀ p ∈ ps, ∃ v, dictGet d p = .ok (.flt v) ∧ IsPercentile data p v) ∧
      (rev = true → ps.Nodup → ∀ i j (hi : i < ps.length) (hj : j < ps.length), i + j + 1 = ps.length →
        ∃ v, dictGet d ps[i] = .ok (.flt v) ∧ IsPercentile data ps[j] v) := by
  refine ⟨_, getPercentiles_dict argsort data ps rev hl hd hp, (dictOf_keys _).1, ?_, ?_, ?_⟩
  · intro k
    rw [(dictOf_keys _).2, List.map_fst_zip]
    · split <;> simp
    · split <;> simp
  · rintro rfl p hpm
    obtain ⟨i, hi, rfl⟩ := List.mem_iff_getElem.1 hpm
    refine ⟨_, dictGet_dictOf _ _ _ i (by simpa using hi) (by simp) ?_,
      isPercentile_percentileAt data hd _ (hp _ hpm).1 (hp _ hpm).2⟩
    intro j hj hij hk
    simp only [Bool.false_eq_true, if_false, List.getElem_zip, List.getElem_map] at hk ⊢
    rw [hk]
  · rintro rfl hnd i j hi hj hij
    have hpm := List.getElem_mem hj
    have hji : ps.length - 1 - j = i := by omega
    refine ⟨_, dictGet_dictOf _ _ _ j (by simpa using hj) (by simp [hji]) ?_,
      isPercentile_percentileAt data hd _ (hp _ hpm).1 (hp _ hpm).2⟩
    intro m hm hjm hk
    simp only [if_true, List.getElem_zip, List.getElem_map, List.getElem_reverse] at hk ⊢
    have hm' : m < ps.length := by simpa using hm
    have := (hnd.getElem_inj_iff).1 hk
    omega

theorem roundScalar_close (d : ℤ) (x : K) : ∃ s r, roundScalar d (.flt x) = .ok s ∧
    s.val? = some r ∧ |r - x| ≤ 1 / 2 * (10 : K) ^ (-d) ∧ (∃ z : ℤ, r * (10 : K) ^ d = z) ∧
    (d ≤ 0 → ∃ z, s = .int z) ∧ (0 < d → s = .flt r) := by
  have hp : (0 : K) < (10 : K) ^ d := by positivity
  have hr := abs_roundEven_sub_le (x * (10 : K) ^ d)
  set z := roundEven (x * (10 : K) ^ d) with hz
  have hclose : |(z : K) / (10 : K) ^ d - x| ≤ 1 / 2 * (10 : K) ^ (-d) := by
    have : (z : K) / (10 : K) ^ d - x = ((z : K) - x * (10 : K) ^ d) * (10 : K) ^ (-d) := by
      rw [zpow_neg, sub_mul, mul_assoc, mul_inv_cancel₀ hp.ne', mul_one, div_eq_mul_inv]
    rw [this, abs_mul, abs_of_pos (show (0 : K) < (10 : K) ^ (-d) by positivity)]
    exact mul_le_mul_of_nonneg_right hr (by positivity)
  have hmul : (z : K) / (10 : K) ^ d * (10 : K) ^ d = z := div_mul_cancel₀ _ hp.ne'
  by_cases hd : d ≤ 0
  · -- the rounded number is an integer
    obtain ⟨n, rfl⟩ : ∃ n : ℕ, d = -n := ⟨(-d).toNat, by omega⟩
    have hint : (z : K) / (10 : K) ^ (-(n : ℤ)) = ((z * 10 ^ n : ℤ) : K) := by
      rw [zpow_neg, div_inv_eq_mul, zpow_natCast]; push_cast; rfl
    have htr : truncZ ((z : K) / (10 : K) ^ (-(n : ℤ))) = z * 10 ^ n := by
      rw [hint]; unfold truncZ; split_ifs
      · exact Int.floor_intCast _
      · exact Int.ceil_intCast _
    refine ⟨.int (truncZ ((z : K) / (10 : K) ^ (-(n : ℤ)))), (z : K) / (10 : K) ^ (-(n : ℤ)), ?_, ?_,
      hclose, ⟨z, hmul⟩, fun _ => ⟨_, rfl⟩, fun h => absurd hd (not_le.2 h)⟩
    · simp only [roundScalar, Scalar.num?, if_pos hd, Num.val]
      rfl
    · rw [htr, hint]
      rfl
  · refine ⟨.flt ((z : K) / (10 : K) ^ d), (z : K) / (10 : K) ^ d, ?_, rfl, hclose, ⟨z, hmul⟩,
      fun h => absurd h hd, fun _ => rfl⟩
    simp only [roundScalar, Scalar.num?, if_neg hd, Num.val]
    rfl

/-- **C63** (`digits`): the percentile is rounded to a multiple of `10^-digits` at most half a unit
away; an integer if `digits ≤ 0`, a float otherwise. -/
theorem C63_digits (argsort : List K → List ℕ) (data : List K) (p v : K) (rev : Bool) (d : ℤ)
    (h : getPercentiles argsort data (.one p) none rev none = .ok (.one (.flt v))) :
    ∃ s r, getPercentiles argsort data (.one p) none rev (some d) = .ok (.one s) ∧
      s.val? = some r ∧ |r - v| ≤ 1 / 2 * (10 : K) ^ (-d) ∧ (∃ z : ℤ, r * (10 : K) ^ d = z) ∧
      (d ≤ 0 → ∃ z, s = .int z) ∧ (0 < d → s = .flt r) := by
  obtain ⟨hd, h0, h1, hv⟩ := (getPercentiles_one ..).1 h
  injection hv with hv
  injection hv with hv
  obtain ⟨s, r, hs, hrest⟩ := roundScalar_close d v
  refine ⟨s, r, ?_, hrest⟩
  have hn : npPercentile data [p] = .ok [v] := npPercentile_ok.2
    ⟨hd, fun q hq => by rw [List.mem_singleton.1 hq]; exact ⟨h0, h1⟩, by simp [hv]⟩
  unfold getPercentiles
  simp only [PctArg.toList, hn, List.reverse_singleton, ite_self]
  show (do
      let rs ← mapExcept (roundOpt (some d)) [v]
      if [p].length = 1 then
        match rs with
        | r :: _ => .ok (.one r)
        | [] => .error .indexError
      else .ok (.dict (dictOf ([p].zip rs))) : Except PyErr (PctResult K)) = .ok (.one s)
  simp only [mapExcept, roundOpt, hs]
  rfl

/-! #### The hypotheses are met -/

/-- `get_percentiles([3, 1, 2, 10], 50)` is 2.5. -/
example : getPercentiles (fun _ => []) [(3 : ℚ), 1, 2, 10] (.one 50) = .ok (.one (.flt (5 / 2))) :=
  (C63_value ..).2 ⟨by simp, by norm_num, by norm_num,
    ⟨[1, 2, 3, 10], 1, 1 / 2, by decide, by decide, by simp, by norm_num, by norm_num, by simp,
      by norm_num, by norm_num⟩⟩

example := C63_bounds (fun _ => []) [(3 : ℚ), 1, 2, 10] 50 (5 / 2)
  ((C63_value ..).2 ⟨by simp, by norm_num, by norm_num,
    ⟨[1, 2, 3, 10], 1, 1 / 2, by decide, by decide, by simp, by norm_num, by norm_num, by simp,
      by norm_num, by norm_num⟩⟩)

/-- Labels 10, 50, 90 with `reverse`. -/
example : ∃ d, getPercentiles (fun _ => []) [(3 : ℚ), 1, 2, 10] (.list [10, 50, 90]) none true none =
    .ok (.dict d) ∧ ∃ v, dictGet d 10 = .ok (.flt v) ∧ IsPercentile [(3 : ℚ), 1, 2, 10] 90 v := by
  obtain ⟨d, h1, -, -, -, h2⟩ := C63_labels (fun _ => []) [(3 : ℚ), 1, 2, 10] [10, 50, 90] true
    (by simp) (by simp) (by intro p hp; fin_cases hp <;> norm_num)
  exact ⟨d, h1, h2 rfl (by decide) 0 2 (by simp) (by simp) (by simp)⟩

end Verif
