import Verif.Props.CredibleIntervals

/-!
# C151: percentiles and intervals when the data change

Data in other units, turned upside down, or with some values raised.
-/

namespace Verif
open Verif.Spec

variable {K : Type} [Field K] [LinearOrder K] [IsStrictOrderedRing K] [FloorRing K]

/-! ### The specification -/

omit [FloorRing K] in
theorem isPercentile_units {data : List K} {p v : K} (h : IsPercentile data p v) {a : K} (ha : 0 ≤ a) (b : K) :
    IsPercentile (data.map fun x => a * x + b) p (a * v + b) := by
  obtain ⟨s, k, t, hp, hs, hk, h0, h1, ht, hpos, rfl⟩ := h
  refine ⟨s.map fun x => a * x + b, k, t, hp.map _, ?_, by simpa using hk, h0, h1, by simpa using ht,
    by simpa using hpos, ?_⟩
  · rw [List.pairwise_map]
    exact hs.imp fun hxy => by nlinarith [mul_le_mul_of_nonneg_left hxy ha]
  · have h2 : (s.map fun x => a * x + b).getD k 0 = a * s.getD k 0 + b := by
      rw [List.getD_eq_getElem _ _ (by simpa using hk), List.getD_eq_getElem _ _ hk, List.getElem_map]
    rw [h2]
    rcases ht with rfl | ht
    · ring
    · have h3 : (s.map fun x => a * x + b).getD (k + 1) 0 = a * s.getD (k + 1) 0 + b := by
        rw [List.getD_eq_getElem _ _ (by simpa using ht), List.getD_eq_getElem _ _ ht, List.getElem_map]
      rw [h3]
      ring

omit [FloorRing K] in
theorem isPercentile_mirror {data : List K} {p v : K} (h : IsPercentile data p v) :
    IsPercentile (data.map fun x => -x) (100 - p) (-v) := by
  obtain ⟨s, k, t, hp, hs, hk, h0, h1, ht, hpos, rfl⟩ := h
  have hperm : ((s.map fun x => -x).reverse).Perm (data.map fun x => -x) :=
    (List.reverse_perm _).trans (hp.map _)
  have hsort : ((s.map fun x => -x).reverse).Pairwise (· ≤ ·) := by
    rw [List.pairwise_reverse, List.pairwise_map]
    exact hs.imp fun hxy => by linarith
  have hget : ∀ i, i < s.length → ((s.map fun x => -x).reverse).getD (s.length - 1 - i) 0 = -s.getD i 0 := by
    intro i hi
    rw [List.getD_eq_getElem _ _ (by simp; omega), List.getD_eq_getElem _ _ hi, List.getElem_reverse,
      List.getElem_map]
    congr 2
    simp
    omega
  have hlen : ((s.map fun x => -x).reverse).length = s.length := by simp
  by_cases h2 : t = 0
  · subst h2
    refine ⟨_, s.length - 1 - k, 0, hperm, hsort, by rw [hlen]; omega, le_rfl, zero_le_one, Or.inl rfl, ?_, ?_⟩
    · rw [hlen]
      have : ((s.length - 1 - k : ℕ) : K) = (s.length : K) - 1 - k := by
        rw [Nat.cast_sub (by omega), Nat.cast_sub (by omega)]; simp
      rw [this]
      linear_combination -hpos
    · rw [hget k hk]
      ring
  · have hk1 : k + 1 < s.length := ht.resolve_left h2
    refine ⟨_, s.length - 1 - (k + 1), 1 - t, hperm, hsort, by rw [hlen]; omega, by linarith, by linarith,
      Or.inr (by rw [hlen]; omega), ?_, ?_⟩
    · rw [hlen]
      have : ((s.length - 1 - (k + 1) : ℕ) : K) = (s.length : K) - 1 - (k + 1) := by
        rw [Nat.cast_sub (by omega), Nat.cast_sub (by omega)]; simp
      rw [this]
      linear_combination -hpos
    · have h3 : s.length - 1 - (k + 1) + 1 = s.length - 1 - k := by omega
      rw [hget (k + 1) hk1, h3, hget k hk]
      ring

omit [IsStrictOrderedRing K] [FloorRing K] in
/-- Sorting keeps the order between two lists. -/
theorem sorted_le {xs ys s s' : List K} (h : List.Forall₂ (· ≤ ·) xs ys) (hs : s.Perm xs) (hs' : s'.Perm ys)
    (ho : s.Pairwise (· ≤ ·)) (ho' : s'.Pairwise (· ≤ ·)) (k : ℕ) (hk : k < s.length) :
    s.getD k 0 ≤ s'.getD k 0 := by
  have hl : s'.length = s.length := by rw [hs'.length_eq, hs.length_eq, h.length_eq]
  by_contra hcon
  push Not at hcon
  set c := s'.getD k 0 with hc
  -- at least k + 1 values of ys are at most c
  have h1 : k + 1 ≤ s'.countP (· ≤ c) := by
    have hsub : (s'.take (k + 1)).countP (· ≤ c) ≤ s'.countP (· ≤ c) :=
      (List.take_sublist _ _).countP_le
    have hall : (s'.take (k + 1)).countP (· ≤ c) = (s'.take (k + 1)).length := by
      rw [List.countP_eq_length]
      intro x hx
      obtain ⟨i, hi, rfl⟩ := List.getElem_of_mem hx
      have hi' : i < k + 1 := by simp at hi; omega
      rw [List.getElem_take]
      simp only [decide_eq_true_eq]
      rw [hc, List.getD_eq_getElem _ _ (by omega)]
      rcases Nat.lt_or_ge i k with h2 | h2
      · exact List.pairwise_iff_getElem.1 ho' i k _ _ h2
      · have : i = k := by omega
        subst this; exact le_rfl
    rw [hall, List.length_take] at hsub
    omega
  have h2 : ys.countP (· ≤ c) ≤ xs.countP (· ≤ c) := by
    clear hs hs' ho ho' hk hl hcon h1
    clear_value c
    induction h with
    | nil => simp
    | cons hxy _ ih =>
      rw [List.countP_cons, List.countP_cons]
      split_ifs with h3 h4
      · omega
      · simp only [decide_eq_true_eq] at h3 h4
        exact absurd (hxy.trans h3) h4
      · omega
      · omega
  have h3 : s.countP (· ≤ c) ≤ k := by
    rw [← List.take_append_drop k s, List.countP_append]
    have hz : (s.drop k).countP (· ≤ c) = 0 := by
      rw [List.countP_eq_zero]
      intro x hx
      obtain ⟨i, hi, rfl⟩ := List.getElem_of_mem hx
      rw [List.getElem_drop]
      simp only [decide_eq_true_eq, not_le]
      refine lt_of_lt_of_le hcon ?_
      rw [List.getD_eq_getElem _ _ hk]
      rcases Nat.eq_zero_or_pos i with rfl | h4
      · simp
      · exact List.pairwise_iff_getElem.1 ho k (k + i) _ _ (by omega)
    have hle := List.countP_le_length (p := fun x => decide (x ≤ c)) (l := s.take k)
    rw [hz]
    simp only [List.length_take] at hle
    omega
  have h4 := hs.countP_eq (fun x => decide (x ≤ c))
  have h5 := hs'.countP_eq (fun x => decide (x ≤ c))
  omega

omit [FloorRing K] in
theorem isPercentile_le {xs ys : List K} {p v w : K} (h : List.Forall₂ (· ≤ ·) xs ys)
    (hv : IsPercentile xs p v) (hw : IsPercentile ys p w) : v ≤ w := by
  obtain ⟨s, k, t, hp, hs, hk, h0, h1, ht, hpos, rfl⟩ := hv
  obtain ⟨s', k', t', hp', hs', hk', h0', h1', ht', hpos', rfl⟩ := hw
  have hl : s'.length = s.length := by rw [hp'.length_eq, hp.length_eq, h.length_eq]
  have hA : ∀ i, i < s.length → s.getD i 0 ≤ s'.getD i 0 := fun i hi => sorted_le h hp hp' hs hs' i hi
  have hpk : (k : K) + t = k' + t' := by rw [← hpos, ← hpos', hl]
  -- the same position, up to the two ways of writing a whole number
  rcases lt_trichotomy k k' with hlt | rfl | hlt
  · have h2 : (k : K) + 1 ≤ k' := by exact_mod_cast hlt
    have ht1 : t = 1 := by linarith
    have ht0 : t' = 0 := by linarith
    have h3 : k' = k + 1 := by
      have : (k' : K) = ((k + 1 : ℕ) : K) := by push_cast; linarith
      exact_mod_cast this
    subst ht1 ht0 h3
    have := hA (k + 1) (by omega)
    linarith
  · have h2 : t = t' := by linarith
    subst h2
    have h3 := mul_le_mul_of_nonneg_left (hA k hk) (by linarith : 0 ≤ 1 - t)
    rcases ht with rfl | ht
    · simpa using hA k hk
    · have h4 := mul_le_mul_of_nonneg_left (hA (k + 1) ht) h0
      linarith
  · have h2 : (k' : K) + 1 ≤ k := by exact_mod_cast hlt
    have ht1 : t' = 1 := by linarith
    have ht0 : t = 0 := by linarith
    have h3 : k = k' + 1 := by
      have : (k : K) = ((k' + 1 : ℕ) : K) := by push_cast; linarith
      exact_mod_cast this
    subst ht1 ht0 h3
    have := hA (k' + 1) hk
    linarith

/-! ### The functions -/

/-- **C151**: percentiles of `a * x + b` for `a ≥ 0` are `a` times the percentiles plus `b`. -/
theorem C151_units (argsort : List K → List ℕ) (data : List K) (p v : K) (rev : Bool)
    (h : getPercentiles argsort data (.one p) none rev = .ok (.one (.flt v))) {a : K} (ha : 0 ≤ a) (b : K) :
    getPercentiles argsort (data.map fun x => a * x + b) (.one p) none rev = .ok (.one (.flt (a * v + b))) := by
  obtain ⟨h1, h2, h3, h4⟩ := (C63_value ..).1 h
  exact (C63_value ..).2 ⟨by simpa using h1, h2, h3, isPercentile_units h4 ha b⟩

/-- **C151**: for `a ≤ 0` the percentile `100 - p` takes the place of `p`. -/
theorem C151_mirror (argsort : List K → List ℕ) (data : List K) (p v : K) (rev : Bool)
    (h : getPercentiles argsort data (.one p) none rev = .ok (.one (.flt v))) {a : K} (ha : a ≤ 0) (b : K) :
    getPercentiles argsort (data.map fun x => a * x + b) (.one (100 - p)) none rev =
      .ok (.one (.flt (a * v + b))) := by
  obtain ⟨h1, h2, h3, h4⟩ := (C63_value ..).1 h
  have h5 := isPercentile_units (isPercentile_mirror h4) (by linarith : 0 ≤ -a) b
  rw [List.map_map] at h5
  refine (C63_value ..).2 ⟨by simpa using h1, by linarith, by linarith, ?_⟩
  convert h5 using 2
  · funext x
    simp
  · ring

/-- **C151**: if no value is lowered, no percentile is lowered. -/
theorem C151_dominance (argsort : List K → List ℕ) (xs ys : List K) (h : List.Forall₂ (· ≤ ·) xs ys) (p v w : K)
    (rev : Bool) (hv : getPercentiles argsort xs (.one p) none rev = .ok (.one (.flt v)))
    (hw : getPercentiles argsort ys (.one p) none rev = .ok (.one (.flt w))) : v ≤ w :=
  isPercentile_le h ((C63_value ..).1 hv).2.2.2 ((C63_value ..).1 hw).2.2.2

/-- **C151**: if no value changes by more than `ε`, no percentile does. -/
theorem C151_close (argsort : List K → List ℕ) (xs ys : List K) (ε : K)
    (h : List.Forall₂ (fun x y => |x - y| ≤ ε) xs ys) (p v w : K) (rev : Bool)
    (hv : getPercentiles argsort xs (.one p) none rev = .ok (.one (.flt v)))
    (hw : getPercentiles argsort ys (.one p) none rev = .ok (.one (.flt w))) : |v - w| ≤ ε := by
  have h1 : List.Forall₂ (· ≤ ·) xs (ys.map fun y => 1 * y + ε) := by
    rw [List.forall₂_map_right_iff]
    exact h.imp fun x y hxy => by linarith [(abs_le.1 hxy).2]
  have h2 : List.Forall₂ (· ≤ ·) ys (xs.map fun x => 1 * x + ε) := by
    rw [List.forall₂_map_right_iff]
    exact h.flip.imp fun y x hxy => by linarith [(abs_le.1 hxy).1]
  have h3 := C151_dominance argsort _ _ h1 p _ _ rev hv (C151_units argsort ys p w rev hw zero_le_one ε)
  have h4 := C151_dominance argsort _ _ h2 p _ _ rev hw (C151_units argsort xs p v rev hv zero_le_one ε)
  rw [abs_le]
  constructor <;> linarith

omit [IsStrictOrderedRing K] [FloorRing K] in
theorem sum_affine (data : List K) (a b : K) :
    (data.map fun x => a * x + b).sum = a * data.sum + data.length * b := by
  induction data with
  | nil => simp
  | cons x xs ih => simp only [List.map_cons, List.sum_cons, List.length_cons, ih]; push_cast; ring

/-- **C151**: mean, median and intervals in other units. -/
theorem C151_intervals (argsort : List K → List ℕ) (data : List K) (cred m l u : K) {a : K} (ha : 0 ≤ a) (b : K) :
    (getMedianAndCI argsort data cred = .ok ⟨.flt m, .flt l, .flt u⟩ →
      getMedianAndCI argsort (data.map fun x => a * x + b) cred =
        .ok ⟨.flt (a * m + b), .flt (a * l + b), .flt (a * u + b)⟩) ∧
    (getMeanAndCI argsort data cred = .ok ⟨.flt m, .flt l, .flt u⟩ →
      getMeanAndCI argsort (data.map fun x => a * x + b) cred =
        .ok ⟨.flt (a * m + b), .flt (a * l + b), .flt (a * u + b)⟩) := by
  constructor
  · intro h
    obtain ⟨h1, h2, h3⟩ := (C65_median ..).1 h
    exact (C65_median ..).2 ⟨C151_units _ _ _ _ _ h1 ha b, C151_units _ _ _ _ _ h2 ha b,
      C151_units _ _ _ _ _ h3 ha b⟩
  · intro h
    obtain ⟨h1, h2, h3⟩ := (C65_mean ..).1 h
    refine (C65_mean ..).2 ⟨?_, C151_units _ _ _ _ _ h2 ha b, C151_units _ _ _ _ _ h3 ha b⟩
    have hne := ((C63_value ..).1 h2).1
    have hn : (data.length : K) ≠ 0 := by exact_mod_cast (List.length_pos_iff.2 hne).ne'
    simp only [roundOpt, Except.ok.injEq, Scalar.flt.injEq] at h1 ⊢
    rw [sum_affine, List.length_map, ← h1]
    field_simp

/-- **C151**: turning the data upside down exchanges the ends of the intervals. -/
theorem C151_intervals_mirror (argsort : List K → List ℕ) (data : List K) (cred m l u : K) {a : K} (ha : a ≤ 0)
    (b : K) :
    (getMedianAndCI argsort data cred = .ok ⟨.flt m, .flt l, .flt u⟩ →
      getMedianAndCI argsort (data.map fun x => a * x + b) cred =
        .ok ⟨.flt (a * m + b), .flt (a * u + b), .flt (a * l + b)⟩) ∧
    (getMeanAndCI argsort data cred = .ok ⟨.flt m, .flt l, .flt u⟩ →
      getMeanAndCI argsort (data.map fun x => a * x + b) cred =
        .ok ⟨.flt (a * m + b), .flt (a * u + b), .flt (a * l + b)⟩) := by
  have e1 : (100 : K) - 50 = 50 := by norm_num
  have e2 : (100 : K) - (100 - (100 - cred) / 2) = (100 - cred) / 2 := by ring
  constructor
  · intro h
    obtain ⟨h1, h2, h3⟩ := (C65_median ..).1 h
    have h1' := C151_mirror _ _ _ _ _ h1 ha b
    have h2' := C151_mirror _ _ _ _ _ h2 ha b
    have h3' := C151_mirror _ _ _ _ _ h3 ha b
    rw [e1] at h1'
    rw [e2] at h3'
    exact (C65_median ..).2 ⟨h1', h3', h2'⟩
  · intro h
    obtain ⟨h1, h2, h3⟩ := (C65_mean ..).1 h
    have h2' := C151_mirror _ _ _ _ _ h2 ha b
    have h3' := C151_mirror _ _ _ _ _ h3 ha b
    rw [e2] at h3'
    refine (C65_mean ..).2 ⟨?_, h3', h2'⟩
    have hne := ((C63_value ..).1 h2).1
    have hn : (data.length : K) ≠ 0 := by exact_mod_cast (List.length_pos_iff.2 hne).ne'
    simp only [roundOpt, Except.ok.injEq, Scalar.flt.injEq] at h1 ⊢
    rw [sum_affine, List.length_map, ← h1]
    field_simp

/-! ### Weighted percentiles -/

omit [IsStrictOrderedRing K] [FloorRing K] in
theorem interp_units (x a b : K) (ps : List (K × K)) {v : K} (h : interp x ps = .ok v) :
    interp x (ps.map fun q => (q.1, a * q.2 + b)) = .ok (a * v + b) := by
  induction ps with
  | nil => simp [interp] at h
  | cons q rest ih =>
    cases rest with
    | nil =>
      simp only [interp, Except.ok.injEq, List.map_cons, List.map_nil] at h ⊢
      rw [h]
    | cons r rest =>
      simp only [interp, List.map_cons] at h ih ⊢
      split_ifs at h ⊢ with h1 h2
      · simp only [Except.ok.injEq] at h ⊢
        rw [h]
      · exact ih h
      · simp only [Except.ok.injEq] at h ⊢
        rw [← h]
        ring

omit [IsStrictOrderedRing K] [FloorRing K] in
theorem knots_units (total acc a b : K) (ps : List (K × K)) :
    knots total acc (ps.map fun q => (q.1, a * q.2 + b)) =
      (knots total acc ps).map fun q => (q.1, a * q.2 + b) := by
  induction ps generalizing acc with
  | nil => rfl
  | cons q rest ih => simp only [knots, List.map_cons, ih]

/-- **C151**: weighted percentiles in other units, for different data points. -/
theorem C151_weighted (argsort : List K → List ℕ) (hA : ∀ d, IsArgsortOf d (argsort d)) (data ws : List K)
    (hw : ValidWeights data ws) (hnd : data.Nodup) (p v : K) (rev : Bool)
    (h : getPercentiles argsort data (.one p) (some ws) rev = .ok (.one (.flt v))) {a : K} (ha : 0 < a) (b : K) :
    getPercentiles argsort (data.map fun x => a * x + b) (.one p) (some ws) rev =
      .ok (.one (.flt (a * v + b))) := by
  have hw' : ValidWeights (data.map fun x => a * x + b) ws := ⟨by simpa using hw.1, hw.2⟩
  have hinj : Function.Injective fun x : K => a * x + b := fun x y hxy => by
    simpa [ha.ne'] using hxy
  -- the order found for the data sorts the other units too
  obtain ⟨v', h1, h2⟩ := (weighted_one argsort data ws hw p rev _).1 h
  injection h2 with h2; injection h2 with h2; subst h2
  refine (weighted_one argsort _ ws hw' p rev _).2 ⟨a * v + b, ?_, rfl⟩
  have hsp : sortedPairs argsort (data.map fun x => a * x + b) ws =
      (sortedPairs argsort data ws).map fun q => (q.1, a * q.2 + b) := by
    obtain ⟨g1, g2, -, g4, -⟩ := sortedPairs_props hA hw
    obtain ⟨g1', g2', -, g4', -⟩ := sortedPairs_props hA hw'
    have hpp : (sortedPairs argsort (data.map fun x => a * x + b) ws).Perm
        ((sortedPairs argsort data ws).map fun q => (q.1, a * q.2 + b)) := by
      refine g1'.trans (List.Perm.trans ?_ (g1.map _).symm)
      rw [List.zip_map_right]
      exact List.Perm.of_eq (List.map_congr_left fun q _ => rfl)
    refine hpp.eq_of_pairwise (le := fun p q => p.2 ≤ q.2) ?_ g2' ?_
    · intro x y hx hy hxy hyx
      have hnd' : ((sortedPairs argsort (data.map fun x => a * x + b) ws).map Prod.snd).Nodup :=
        g4'.nodup_iff.2 (hnd.map hinj)
      have hy' := hpp.symm.subset hy
      exact List.inj_on_of_nodup_map hnd' hx hy' (le_antisymm hxy hyx)
    · rw [List.pairwise_map]
      exact g2.imp fun hxy => by
        have := mul_le_mul_of_nonneg_left hxy ha.le
        simp only
        linarith
  rw [hsp, knots_units]
  exact interp_units _ _ _ _ h1

/-- Temperatures 0, 10, 40 in Celsius and Fahrenheit: the median 10 is 50. -/
example : getPercentiles (fun _ => []) [(0 : ℚ), 10, 40] (.one 50) = .ok (.one (.flt 10)) ∧
    getPercentiles (fun _ => []) ([(0 : ℚ), 10, 40].map fun x => 9 / 5 * x + 32) (.one 50) =
      .ok (.one (.flt 50)) := by
  have h : getPercentiles (fun _ => []) [(0 : ℚ), 10, 40] (.one 50) = .ok (.one (.flt 10)) :=
    (C63_value ..).2 ⟨by simp, by norm_num, by norm_num, [0, 10, 40], 1, 0, .refl _, by decide,
      by simp, by norm_num, by norm_num, by simp, by norm_num, by norm_num⟩
  refine ⟨h, ?_⟩
  have := C151_units _ _ _ _ _ h (by norm_num : (0 : ℚ) ≤ 9 / 5) 32
  norm_num at this ⊢
  exact this

end Verif
