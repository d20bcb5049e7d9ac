import Verif.Lemmas.FloatPercentiles

/-!
# Percentiles in floating-point arithmetic (C137)

`fl` is any correct rounding to `p` binary digits (53 for a Python float), applied after each operation of
`np.percentile`.  The data are floats.
-/

namespace Verif

variable {K : Type} [Field K] [LinearOrder K] [IsStrictOrderedRing K] [FloorRing K] {p : ℕ} {fl : K → K}

section helpers

variable {data ps out : List K}

theorem npPercentileFl_ok (hok : npPercentileFl fl data ps = .ok out) :
    (∀ q ∈ ps, 0 ≤ q ∧ q ≤ 100) ∧ data ≠ [] ∧ out = ps.map (percentileFl fl (data.insertionSort (· ≤ ·))) := by
  unfold npPercentileFl at hok
  split at hok
  · exact absurd hok (by simp)
  · rename_i h1
    split at hok
    · exact absurd hok (by simp)
    · rename_i h2
      push Not at h1
      exact ⟨h1, h2, (Except.ok.inj hok).symm⟩

theorem npPercentileFl_of (h1 : ∀ q ∈ ps, 0 ≤ q ∧ q ≤ 100) (h2 : data ≠ []) :
    npPercentileFl fl data ps = .ok (ps.map (percentileFl fl (data.insertionSort (· ≤ ·)))) := by
  unfold npPercentileFl
  rw [if_neg (by push Not; exact h1), if_neg h2]

theorem sort_sorted (data : List K) : (data.insertionSort (· ≤ ·)).Pairwise (· ≤ ·) :=
  List.pairwise_insertionSort (· ≤ ·) data

theorem sort_ne (h : data ≠ []) : data.insertionSort (· ≤ ·) ≠ [] := by
  intro hc
  apply h
  rw [← List.length_eq_zero_iff, ← List.length_insertionSort (· ≤ ·) data, hc, List.length_nil]

theorem sort_floats (hf : ∀ x ∈ data, IsFloat p x) : ∀ x ∈ data.insertionSort (· ≤ ·), IsFloat p x :=
  fun x hx => hf x ((List.mem_insertionSort (· ≤ ·)).1 hx)

end helpers

/-- **C137**: `np.percentile` succeeds on data and percentiles between 0 and 100, with one value for each. -/
theorem C137_defined (data ps : List K) (hps : ∀ q ∈ ps, 0 ≤ q ∧ q ≤ 100) (hne : data ≠ []) :
    ∃ out, npPercentileFl fl data ps = .ok out ∧ out.length = ps.length :=
  ⟨_, npPercentileFl_of hps hne, by simp⟩

/-- **C137**: rounding never takes a percentile below the smallest or above the largest of the data. -/
theorem C137_between (h : RoundsTo p fl) (hp : 1 ≤ p) {data ps out : List K} (hf : ∀ x ∈ data, IsFloat p x)
    (hok : npPercentileFl fl data ps = .ok out) {lo hi : K} (hb : ∀ x ∈ data, lo ≤ x ∧ x ≤ hi) :
    ∀ v ∈ out, lo ≤ v ∧ v ≤ hi := by
  obtain ⟨h1, h2, rfl⟩ := npPercentileFl_ok hok
  intro v hv
  obtain ⟨q, hq, rfl⟩ := List.mem_map.1 hv
  obtain ⟨b1, b2⟩ := percentileFl_bounds h hp (sort_sorted data) (sort_floats hf) (sort_ne h2) (h1 q hq).1
  have hn : 0 < (data.insertionSort (· ≤ ·)).length := List.length_pos_of_ne_nil (sort_ne h2)
  have hm : ∀ i, i < (data.insertionSort (· ≤ ·)).length →
      lo ≤ (data.insertionSort (· ≤ ·)).getD i 0 ∧ (data.insertionSort (· ≤ ·)).getD i 0 ≤ hi := fun i hi => by
    rw [List.getD_eq_getElem _ _ hi]
    exact hb _ ((List.mem_insertionSort (· ≤ ·)).1 (List.getElem_mem _))
  exact ⟨(hm 0 hn).1.trans b1, b2.trans (hm _ (by omega)).2⟩

/-- **C137**: despite rounding, a higher percentile is never smaller. -/
theorem C137_monotone (h : RoundsTo p fl) (hp : 1 ≤ p) {data ps out : List K} (hf : ∀ x ∈ data, IsFloat p x)
    (hok : npPercentileFl fl data ps = .ok out) (hs : ps.Pairwise (· ≤ ·)) : out.Pairwise (· ≤ ·) := by
  obtain ⟨h1, h2, rfl⟩ := npPercentileFl_ok hok
  rw [List.pairwise_map]
  refine hs.imp_of_mem ?_
  intro a b ha _ hab
  exact percentileFl_mono h hp (sort_sorted data) (sort_floats hf) (sort_ne h2) (h1 a ha).1 hab

/-- **C137**: the lowest and the highest percentile are the smallest and the largest of the data, exactly. -/
theorem C137_extremes (h : RoundsTo p fl) {data out : List K} (hf : ∀ x ∈ data, IsFloat p x)
    (hn : data.length ≤ 2 ^ p) (hok : npPercentileFl fl data [0, 100] = .ok out) :
    ∃ lo hi, out = [lo, hi] ∧ lo ∈ data ∧ hi ∈ data ∧ ∀ x ∈ data, lo ≤ x ∧ x ≤ hi := by
  obtain ⟨-, h2, rfl⟩ := npPercentileFl_ok hok
  have hl : (data.insertionSort (· ≤ ·)).length = data.length := List.length_insertionSort _ _
  have hpos : 0 < (data.insertionSort (· ≤ ·)).length := List.length_pos_of_ne_nil (sort_ne h2)
  have hmem : ∀ i, i < (data.insertionSort (· ≤ ·)).length → (data.insertionSort (· ≤ ·)).getD i 0 ∈ data :=
    fun i hi => by
      rw [List.getD_eq_getElem _ _ hi]
      exact (List.mem_insertionSort (· ≤ ·)).1 (List.getElem_mem _)
  have e0 : percentileFl fl (data.insertionSort (· ≤ ·)) 0 = (data.insertionSort (· ≤ ·)).getD 0 0 := by
    refine percentileFl_whole h (sort_floats hf) hpos ?_
    simp [positionFl, h.zero]
  have e1 : percentileFl fl (data.insertionSort (· ≤ ·)) 100 =
      (data.insertionSort (· ≤ ·)).getD ((data.insertionSort (· ≤ ·)).length - 1) 0 := by
    refine percentileFl_whole h (sort_floats hf) (by omega) ?_
    unfold positionFl
    rw [div_self (by norm_num), h.one, mul_one, h.idem, Nat.cast_sub hpos, Nat.cast_one]
    have := h.exact (isFloat_int (K := K) (p := p) (z := ((data.insertionSort (· ≤ ·)).length : ℤ) - 1) (by
      have : ((data.insertionSort (· ≤ ·)).length : ℤ) ≤ 2 ^ p := by rw [hl]; exact_mod_cast hn
      rw [abs_of_nonneg (by omega)]; omega))
    push_cast at this
    exact this
  refine ⟨_, _, by rw [List.map_cons, List.map_cons, List.map_nil, e0, e1], hmem 0 hpos, hmem _ (by omega), ?_⟩
  intro x hx
  obtain ⟨i, hi, rfl⟩ := List.getElem_of_mem ((List.mem_insertionSort (· ≤ ·)).2 hx)
  rw [← List.getD_eq_getElem _ 0 hi]
  exact ⟨sorted_getD (sort_sorted data) (Nat.zero_le _) hi,
    sorted_getD (sort_sorted data) (Nat.le_sub_one_of_lt hi) (Nat.sub_lt hpos one_pos)⟩

/-- **C137**: the median of an odd number of data is one of them, exactly: at least half are at most it and at least
half are at least it. -/
theorem C137_odd_median (h : RoundsTo p fl) {data out : List K} {k : ℕ} (hf : ∀ x ∈ data, IsFloat p x)
    (hodd : data.length = 2 * k + 1) (hn : data.length ≤ 2 ^ p) (hok : npPercentileFl fl data [50] = .ok out) :
    ∃ m ∈ data, out = [m] ∧ k < data.countP (· ≤ m) ∧ k < data.countP (m ≤ ·) := by
  obtain ⟨-, h2, rfl⟩ := npPercentileFl_ok hok
  have hl : (data.insertionSort (· ≤ ·)).length = 2 * k + 1 := (List.length_insertionSort _ _).trans hodd
  have hperm : (data.insertionSort (· ≤ ·)).Perm data := List.perm_insertionSort _ _
  have hsort := sort_sorted data
  have e : percentileFl fl (data.insertionSort (· ≤ ·)) 50 = (data.insertionSort (· ≤ ·)).getD k 0 := by
    refine percentileFl_whole h (sort_floats hf) (by omega) ?_
    unfold positionFl
    rw [hl]
    have e1 : (50 : K) / 100 = 1 * (1 / 2) := by norm_num
    have hz : |(2 * k : ℤ)| ≤ 2 ^ p := by
      have : ((2 * k + 1 : ℕ) : ℤ) ≤ 2 ^ p := by rw [← hodd]; exact_mod_cast hn
      push_cast at this
      rw [abs_of_nonneg (by omega)]; omega
    have e2 : ((2 * k + 1 : ℕ) : K) - 1 = ((2 * k : ℤ) : K) := by push_cast; ring
    rw [e1, h.half (isFloat_one p), e2, h.exact (isFloat_int hz)]
    have e3 : ((2 * k : ℤ) : K) * (1 * (1 / 2)) = ((k : ℤ) : K) := by push_cast; ring
    rw [e3, h.exact (isFloat_int ?_)]
    · simp
    · rw [abs_of_nonneg (by omega)] at hz ⊢; omega
  have hk : k < (data.insertionSort (· ≤ ·)).length := by omega
  refine ⟨(data.insertionSort (· ≤ ·)).getD k 0, ?_, by simp only [List.map_cons, List.map_nil, e], ?_, ?_⟩
  · rw [List.getD_eq_getElem _ _ hk]
    exact hperm.mem_iff.1 (List.getElem_mem _)
  · rw [← hperm.countP_eq]
    have : (List.take (k + 1) (data.insertionSort (· ≤ ·))).countP
        (· ≤ (data.insertionSort (· ≤ ·)).getD k 0) = k + 1 := by
      rw [List.countP_eq_length.2 ?_, List.length_take]
      · omega
      · intro x hx
        obtain ⟨i, hi, rfl⟩ := List.getElem_of_mem hx
        rw [List.length_take] at hi
        rw [List.getElem_take, ← List.getD_eq_getElem _ 0]
        simpa using sorted_getD hsort (by omega : i ≤ k) hk
    have hsub := (List.take_sublist (k + 1) (data.insertionSort (· ≤ ·))).countP_le
      (p := (· ≤ (data.insertionSort (· ≤ ·)).getD k 0))
    omega
  · rw [← hperm.countP_eq]
    have : (List.drop k (data.insertionSort (· ≤ ·))).countP
        ((data.insertionSort (· ≤ ·)).getD k 0 ≤ ·) = k + 1 := by
      rw [List.countP_eq_length.2 ?_, List.length_drop]
      · omega
      · intro x hx
        obtain ⟨i, hi, rfl⟩ := List.getElem_of_mem hx
        rw [List.length_drop] at hi
        rw [List.getElem_drop, ← List.getD_eq_getElem _ 0]
        simpa using sorted_getD hsort (by omega : k ≤ k + i) (by omega)
    have hsub := (List.drop_sublist k (data.insertionSort (· ≤ ·))).countP_le
      (p := ((data.insertionSort (· ≤ ·)).getD k 0 ≤ ·))
    omega

/-- **C137**: how far a percentile is from its exact value: data of size at most `M` whose neighbours are at most `G`
apart give an error of at most `u * (M + 3 * G * n)`, with `u = 2 ^ -p` the rounding unit. -/
theorem C137_accuracy (h : RoundsTo p fl) (hp : 1 ≤ p) {data ps out : List K} (hn : data.length ≤ 2 ^ p)
    (hok : npPercentileFl fl data ps = .ok out) {M G : K} (hM : ∀ x ∈ data, |x| ≤ M) (hG0 : 0 ≤ G)
    (hG : ∀ x ∈ data, ∀ y ∈ data, x < y → (∀ z ∈ data, ¬ (x < z ∧ z < y)) → y - x ≤ G) :
    ∃ exact, npPercentile data ps = .ok exact ∧
      List.Forall₂ (fun v e => |v - e| ≤ ulp p * (M + 3 * G * data.length)) out exact := by
  obtain ⟨h1, h2, rfl⟩ := npPercentileFl_ok hok
  have hsort := sort_sorted data
  have hl : (data.insertionSort (· ≤ ·)).length = data.length := List.length_insertionSort _ _
  refine ⟨ps.map (percentileAt (data.insertionSort (· ≤ ·))), ?_, ?_⟩
  · unfold npPercentile
    rw [if_neg (by push Not; exact h1), if_neg h2]
  · rw [List.forall₂_map_left_iff, List.forall₂_map_right_iff, List.forall₂_same]
    intro q hq
    have := percentileFl_err h hp hsort (sort_ne h2) (by rw [hl]; exact hn)
      (fun x hx => hM x ((List.mem_insertionSort (· ≤ ·)).1 hx)) hG0 ?_ (h1 q hq).1 (h1 q hq).2
    · rwa [hl] at this
    · intro i hi
      rcases (sorted_getD hsort (Nat.le_succ i) hi).eq_or_lt with he | hlt
      · rw [← he, sub_self]; exact hG0
      · have hm : ∀ i, i < (data.insertionSort (· ≤ ·)).length → (data.insertionSort (· ≤ ·)).getD i 0 ∈ data :=
          fun i hi => by
            rw [List.getD_eq_getElem _ _ hi]
            exact (List.mem_insertionSort (· ≤ ·)).1 (List.getElem_mem _)
        refine hG _ (hm i (by omega)) _ (hm _ hi) hlt ?_
        rintro z hz ⟨z1, z2⟩
        obtain ⟨k, hk, rfl⟩ := List.getElem_of_mem ((List.mem_insertionSort (· ≤ ·)).2 hz)
        rw [← List.getD_eq_getElem _ 0 hk] at z1 z2
        rcases Nat.lt_or_ge i k with hik | hik
        · exact absurd z2 (not_lt.2 (sorted_getD hsort hik hk))
        · exact absurd z1 (not_lt.2 (sorted_getD hsort hik (by omega)))

/-- **C137**: with a credibility between 0 and 100, whatever the rounding, `get_median_and_ci` returns an interval around
the median, inside the range of the data. -/
theorem C137_interval (h : RoundsTo p fl) (hp : 5 ≤ p) {data : List K} (hf : ∀ x ∈ data, IsFloat p x)
    (hne : data ≠ []) {c : K} (h0 : 0 ≤ c) (h1 : c ≤ 100) {lo hi : K} (hb : ∀ x ∈ data, lo ≤ x ∧ x ≤ hi) :
    ∃ l m r, medianAndCIFl fl data c = .ok (l, m, r) ∧ lo ≤ l ∧ l ≤ m ∧ m ≤ r ∧ r ≤ hi := by
  have hp5 : (2 : ℤ) ^ 5 ≤ 2 ^ p := pow_le_pow_right₀ (by norm_num) hp
  have f50 : IsFloat p (50 : K) := ⟨25, 1, by norm_num; omega, by norm_num⟩
  have f100 : IsFloat p (100 : K) := ⟨25, 2, by norm_num; omega, by norm_num⟩
  have a1 : 0 ≤ fl (100 - c) := h.nonneg (by linarith)
  have a2 : fl (100 - c) ≤ 100 := h.le_of_le f100 (by linarith)
  have b1 : 0 ≤ (ciBoundsFl fl c).1 := h.nonneg (by positivity)
  have b2 : (ciBoundsFl fl c).1 ≤ 50 := h.le_of_le f50 (by linarith)
  have b3 : 50 ≤ (ciBoundsFl fl c).2 := h.le_of_ge f50 (by change (ciBoundsFl fl c).1 ≤ 50 at b2; exact le_sub_comm.1 (b2.trans (by norm_num)))
  have b4 : (ciBoundsFl fl c).2 ≤ 100 := h.le_of_le f100 (sub_le_self _ b1)
  have hps : ∀ q ∈ [(ciBoundsFl fl c).1, 50, (ciBoundsFl fl c).2], 0 ≤ q ∧ q ≤ 100 := by
    intro q hq
    simp only [List.mem_cons, List.not_mem_nil, or_false] at hq
    rcases hq with rfl | rfl | rfl <;> constructor <;> linarith
  have hok := npPercentileFl_of (fl := fl) hps hne
  have hbt := C137_between h (by omega) hf hok hb
  have hmo := C137_monotone h (by omega) hf hok (by
    simp only [List.pairwise_cons, List.mem_cons, List.not_mem_nil, or_false, forall_eq_or_imp, forall_eq]
    exact ⟨⟨b2, b2.trans b3⟩, b3, by simp⟩)
  simp only [List.map_cons, List.map_nil] at hok hbt hmo
  refine ⟨percentileFl fl (data.insertionSort (· ≤ ·)) (ciBoundsFl fl c).1,
    percentileFl fl (data.insertionSort (· ≤ ·)) 50,
    percentileFl fl (data.insertionSort (· ≤ ·)) (ciBoundsFl fl c).2, ?_, ?_⟩
  · unfold medianAndCIFl
    simp only
    rw [hok]
  · simp only [List.pairwise_cons, List.mem_cons, List.not_mem_nil, or_false, forall_eq_or_imp, forall_eq] at hmo hbt
    exact ⟨hbt.1.1, hmo.1.1, hmo.2.1, hbt.2.2.2⟩

/-! ### Examples -/

/-- Four binary digits: the 40th percentile of 1, 3, 15 is rounded, and still below the median. -/
example : npPercentileFl (roundBits (K := ℚ) 4) [15, 1, 3] [0, 40, 50, 100] = .ok [1, 5 / 2, 3, 15] ∧
    npPercentile (K := ℚ) [15, 1, 3] [40] = .ok [13 / 5] := by decide +kernel

example : RoundsTo 4 (roundBits (K := ℚ) 4) ∧ ∀ x ∈ [(15 : ℚ), 1, 3], IsFloat 4 x :=
  ⟨roundBits_roundsTo (by norm_num), by
    intro x hx
    simp only [List.mem_cons, List.not_mem_nil, or_false] at hx
    rcases hx with rfl | rfl | rfl
    · exact ⟨15, 0, by norm_num, by norm_num⟩
    · exact ⟨1, 0, by norm_num, by norm_num⟩
    · exact ⟨3, 0, by norm_num, by norm_num⟩⟩

example : medianAndCIFl (roundBits (K := ℚ) 5) [15, 1, 3, 8] 90 = .ok (21 / 16, 11 / 2, 14) := by decide +kernel

end Verif
