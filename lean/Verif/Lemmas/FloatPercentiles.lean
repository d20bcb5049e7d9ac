import Verif.Lemmas.FloatLerp
import Mathlib.Data.List.GetD

/-! # `np.percentile` with rounding -/

namespace Verif

variable {K : Type} [Field K] [LinearOrder K] [IsStrictOrderedRing K] [FloorRing K] {p : ℕ} {fl : K → K}

omit [Field K] [IsStrictOrderedRing K] [FloorRing K] in
theorem sorted_getD [Zero K] {s : List K} (hs : s.Pairwise (· ≤ ·)) {i j : ℕ} (hij : i ≤ j) (hj : j < s.length) :
    s.getD i 0 ≤ s.getD j 0 := by
  rw [List.getD_eq_getElem _ _ (hij.trans_lt hj), List.getD_eq_getElem _ _ hj]
  rcases hij.eq_or_lt with rfl | h
  · exact le_rfl
  · exact List.pairwise_iff_getElem.1 hs i j _ hj h

/-- Inside the data, the rounded position and its cell. -/
theorem position_cell {n : ℕ} {h : K} (h0 : 0 ≤ h) (h1 : h < (n : K) - 1) :
    ⌊h⌋.toNat + 1 < n ∧ ((⌊h⌋.toNat : ℕ) : K) = ⌊h⌋ := by
  have e : ((⌊h⌋.toNat : ℕ) : ℤ) = ⌊h⌋ := Int.toNat_of_nonneg (Int.floor_nonneg.2 h0)
  have e' : ((⌊h⌋.toNat : ℕ) : K) = ⌊h⌋ := by exact_mod_cast congrArg (Int.cast : ℤ → K) e
  refine ⟨?_, e'⟩
  have h2 : ((⌊h⌋.toNat : ℕ) : K) < (n : K) - 1 := by rw [e']; exact (Int.floor_le h).trans_lt h1
  have h3 : ((⌊h⌋.toNat + 1 : ℕ) : K) < n := by push_cast; linarith
  exact_mod_cast h3

theorem position_nonneg (h : RoundsTo p fl) {n : ℕ} (hn : 1 ≤ n) {q : K} (hq : 0 ≤ q) : 0 ≤ positionFl fl n q := by
  have : (1 : K) ≤ n := by exact_mod_cast hn
  exact h.nonneg (mul_nonneg (h.nonneg (by linarith)) (h.nonneg (by positivity)))

theorem position_mono (h : RoundsTo p fl) {n : ℕ} (hn : 1 ≤ n) {q q' : K} (hq : q ≤ q') :
    positionFl fl n q ≤ positionFl fl n q' := by
  have : (1 : K) ≤ n := by exact_mod_cast hn
  refine h.mono (mul_le_mul_of_nonneg_left (h.mono ?_) (h.nonneg (by linarith)))
  exact div_le_div_of_nonneg_right hq (by norm_num)

theorem frac_float (h : RoundsTo p fl) (x : K) :
    IsFloat p (fl (x - ⌊x⌋)) ∧ 0 ≤ fl (x - ⌊x⌋) ∧ fl (x - ⌊x⌋) ≤ 1 := by
  refine ⟨h.float _, h.nonneg (sub_nonneg.2 (Int.floor_le x)), h.le_of_le (isFloat_one p) ?_⟩
  linarith [Int.lt_floor_add_one x]

/-- The percentile at position `x` (below the last): between its neighbours. -/
theorem percentileFl_cell (h : RoundsTo p fl) (hp : 1 ≤ p) {s : List K} (hs : s.Pairwise (· ≤ ·))
    (hf : ∀ x ∈ s, IsFloat p x) {x : K} (h0 : 0 ≤ x) (h1 : x < (s.length : K) - 1) :
    s.getD ⌊x⌋.toNat 0 ≤ lerpFl fl (s.getD ⌊x⌋.toNat 0) (s.getD (⌊x⌋.toNat + 1) 0) (fl (x - ⌊x⌋)) ∧
      lerpFl fl (s.getD ⌊x⌋.toNat 0) (s.getD (⌊x⌋.toNat + 1) 0) (fl (x - ⌊x⌋)) ≤ s.getD (⌊x⌋.toNat + 1) 0 := by
  obtain ⟨hc, -⟩ := position_cell h0 h1
  obtain ⟨f1, f2, f3⟩ := frac_float h x
  refine lerp_bounds h hp ?_ ?_ (sorted_getD hs (Nat.le_succ _) hc) f1 f2 f3
  · rw [List.getD_eq_getElem _ _ (by omega)]; exact hf _ (List.getElem_mem _)
  · rw [List.getD_eq_getElem _ _ hc]; exact hf _ (List.getElem_mem _)

theorem percentileFl_bounds (h : RoundsTo p fl) (hp : 1 ≤ p) {s : List K} (hs : s.Pairwise (· ≤ ·))
    (hf : ∀ x ∈ s, IsFloat p x) (hne : s ≠ []) {q : K} (hq : 0 ≤ q) :
    s.getD 0 0 ≤ percentileFl fl s q ∧ percentileFl fl s q ≤ s.getD (s.length - 1) 0 := by
  have hn : 0 < s.length := List.length_pos_of_ne_nil hne
  have h0 := position_nonneg h hn hq
  unfold percentileFl
  simp only
  split
  · exact ⟨sorted_getD hs (Nat.zero_le _) (by omega), le_rfl⟩
  · rename_i hc
    push Not at hc
    have hb := percentileFl_cell h hp hs hf h0 hc
    obtain ⟨hlt, -⟩ := position_cell h0 hc
    exact ⟨(sorted_getD hs (Nat.zero_le _) (by omega)).trans hb.1, hb.2.trans (sorted_getD hs (by omega) (by omega))⟩

theorem percentileFl_mono (h : RoundsTo p fl) (hp : 1 ≤ p) {s : List K} (hs : s.Pairwise (· ≤ ·))
    (hf : ∀ x ∈ s, IsFloat p x) (hne : s ≠ []) {q q' : K} (hq : 0 ≤ q) (hqq : q ≤ q') :
    percentileFl fl s q ≤ percentileFl fl s q' := by
  have hn : 0 < s.length := List.length_pos_of_ne_nil hne
  have hm := position_mono (fl := fl) h hn hqq
  have h0 := position_nonneg h hn hq
  by_cases hc' : (s.length : K) - 1 ≤ positionFl fl s.length q'
  · have : percentileFl fl s q' = s.getD (s.length - 1) 0 := by unfold percentileFl; exact if_pos hc'
    rw [this]
    exact (percentileFl_bounds h hp hs hf hne hq).2
  · push Not at hc'
    have hc := hm.trans_lt hc'
    have h0' := h0.trans hm
    unfold percentileFl
    simp only
    rw [if_neg (not_le.2 hc), if_neg (not_le.2 hc')]
    generalize positionFl fl s.length q = x at *
    generalize positionFl fl s.length q' = y at *
    obtain ⟨c1, -⟩ := position_cell h0 hc
    obtain ⟨c2, -⟩ := position_cell h0' hc'
    rcases (Int.floor_mono hm).eq_or_lt with he | hl
    · rw [← he]
      refine lerp_mono h hp (sorted_getD hs (Nat.le_succ _) c1) (h.float _) (h.mono ?_)
      linarith
    · have hb := (percentileFl_cell h hp hs hf h0 hc).2
      have hb' := (percentileFl_cell h hp hs hf h0' hc').1
      have : ⌊x⌋.toNat + 1 ≤ ⌊y⌋.toNat := by
        have := Int.floor_nonneg.2 h0
        omega
      exact hb.trans ((sorted_getD hs this (by omega)).trans hb')

/-- At a whole position: that number exactly. -/
theorem percentileFl_whole (h : RoundsTo p fl) {s : List K} (hf : ∀ x ∈ s, IsFloat p x) {k : ℕ}
    (hk : k < s.length) {q : K} (hpos : positionFl fl s.length q = k) : percentileFl fl s q = s.getD k 0 := by
  unfold percentileFl
  simp only
  rw [hpos]
  split
  · rename_i hc
    have : (s.length : K) ≤ ((k + 1 : ℕ) : K) := by push_cast; linarith
    have : s.length ≤ k + 1 := by exact_mod_cast this
    rw [show s.length - 1 = k by omega]
  · rw [Int.floor_natCast]
    simp only [Int.toNat_natCast, Int.cast_natCast, sub_self, h.zero]
    refine lerp_zero h ?_
    rw [List.getD_eq_getElem _ _ hk]
    exact hf _ (List.getElem_mem _)

/-! ### How far from the exact percentile -/

/-- The exact interpolation at position `x`. -/
def interpAt (s : List K) (x : K) : K :=
  s.getD ⌊x⌋.toNat 0 + (s.getD (min (⌊x⌋.toNat + 1) (s.length - 1)) 0 - s.getD ⌊x⌋.toNat 0) * (x - ⌊x⌋)

omit [IsStrictOrderedRing K] in
theorem percentileAt_eq (s : List K) (q : K) : percentileAt s q = interpAt s (((s.length : K) - 1) * (q / 100)) := rfl

omit [FloorRing K] in
theorem gap_steps {s : List K} {G : K} (hG : ∀ i, i + 1 < s.length → s.getD (i + 1) 0 - s.getD i 0 ≤ G) :
    ∀ (d i : ℕ), i + d < s.length → s.getD (i + d) 0 - s.getD i 0 ≤ G * d := by
  intro d
  induction d with
  | zero => intro i _; simp
  | succ d ih =>
    intro i hi
    have h1 := ih i (by omega)
    have h2 := hG (i + d) (by omega)
    rw [← Nat.add_assoc]
    push_cast
    linarith

theorem interpAt_lip {s : List K} {G : K} (hG0 : 0 ≤ G)
    (hG : ∀ i, i + 1 < s.length → s.getD (i + 1) 0 - s.getD i 0 ≤ G) (hs : s.Pairwise (· ≤ ·))
    {x y : K} (h0 : 0 ≤ x) (hxy : x ≤ y) (hy : y ≤ (s.length : K) - 1) :
    0 ≤ interpAt s y - interpAt s x ∧ interpAt s y - interpAt s x ≤ G * (y - x) := by
  have cell : ∀ z : K, 0 ≤ z → z ≤ (s.length : K) - 1 → ⌊z⌋.toNat < s.length ∧ ((⌊z⌋.toNat : ℕ) : K) = ⌊z⌋ := by
    intro z hz hz1
    have e : ((⌊z⌋.toNat : ℕ) : ℤ) = ⌊z⌋ := Int.toNat_of_nonneg (Int.floor_nonneg.2 hz)
    have e' : ((⌊z⌋.toNat : ℕ) : K) = ⌊z⌋ := by exact_mod_cast congrArg (Int.cast : ℤ → K) e
    refine ⟨?_, e'⟩
    have : ((⌊z⌋.toNat : ℕ) : K) < s.length := by rw [e']; linarith [Int.floor_le z]
    exact_mod_cast this
  obtain ⟨cx, ex⟩ := cell x h0 (hxy.trans hy)
  obtain ⟨cy, ey⟩ := cell y (h0.trans hxy) hy
  -- the gap after a position
  have gap : ∀ i, i < s.length → 0 ≤ s.getD (min (i + 1) (s.length - 1)) 0 - s.getD i 0 ∧
      s.getD (min (i + 1) (s.length - 1)) 0 - s.getD i 0 ≤ G := by
    intro i hi
    by_cases hc : i + 1 < s.length
    · rw [min_eq_left (by omega)]
      exact ⟨sub_nonneg.2 (sorted_getD hs (Nat.le_succ _) hc), hG i hc⟩
    · rw [min_eq_right (by omega), show s.length - 1 = i by omega, sub_self]
      exact ⟨le_rfl, hG0⟩
  obtain ⟨gx0, gx⟩ := gap _ cx
  obtain ⟨gy0, gy⟩ := gap _ cy
  have fx0 : 0 ≤ x - ⌊x⌋ := sub_nonneg.2 (Int.floor_le x)
  have fx1 : x - ⌊x⌋ ≤ 1 := by linarith [Int.lt_floor_add_one x]
  have fy0 : 0 ≤ y - ⌊y⌋ := sub_nonneg.2 (Int.floor_le y)
  rcases (Int.floor_mono hxy).eq_or_lt with he | hl
  · unfold interpAt
    rw [← he]
    set g := s.getD (min (⌊x⌋.toNat + 1) (s.length - 1)) 0 - s.getD ⌊x⌋.toNat 0
    have e : s.getD ⌊x⌋.toNat 0 + g * (y - ⌊x⌋) - (s.getD ⌊x⌋.toNat 0 + g * (x - ⌊x⌋)) = g * (y - x) := by ring
    rw [e]
    exact ⟨mul_nonneg gx0 (by linarith), mul_le_mul_of_nonneg_right gx (by linarith)⟩
  · have hlt : ⌊x⌋.toNat + 1 ≤ ⌊y⌋.toNat := by
      have := Int.floor_nonneg.2 h0
      omega
    obtain ⟨d, hd⟩ := Nat.exists_eq_add_of_le hlt
    have hst := gap_steps hG d (⌊x⌋.toNat + 1) (by omega)
    have hmo := sorted_getD hs hlt cy
    have hmin : min (⌊x⌋.toNat + 1) (s.length - 1) = ⌊x⌋.toNat + 1 := min_eq_left (by omega)
    have ed : (d : K) = ⌊y⌋ - ⌊x⌋ - 1 := by
      rw [← ex, ← ey, hd]; push_cast; ring
    rw [← hd, ed] at hst
    unfold interpAt
    rw [hmin]
    rw [hmin] at gx0 gx
    set a := s.getD ⌊x⌋.toNat 0
    set b := s.getD (⌊x⌋.toNat + 1) 0
    set c := s.getD ⌊y⌋.toNat 0
    set g := s.getD (min (⌊y⌋.toNat + 1) (s.length - 1)) 0 - c
    have h1 : (b - a) * (x - ⌊x⌋) ≤ b - a := by
      simpa using mul_le_mul_of_nonneg_left fx1 gx0
    have h2 : 0 ≤ g * (y - ⌊y⌋) := mul_nonneg gy0 fy0
    have h3 : g * (y - ⌊y⌋) ≤ G * (y - ⌊y⌋) := mul_le_mul_of_nonneg_right gy fy0
    have h4 : (b - a) * (1 - (x - ⌊x⌋)) ≤ G * (1 - (x - ⌊x⌋)) := mul_le_mul_of_nonneg_right gx (by linarith)
    constructor
    · linarith
    · have e : G * (y - x) = G * (1 - (x - ⌊x⌋)) + G * ((⌊y⌋ : K) - ⌊x⌋ - 1) + G * (y - ⌊y⌋) := by ring
      rw [e]
      linarith

/-- The interpolation with rounding, at a fraction that was itself rounded, is near the exact one. -/
theorem lerp_err (h : RoundsTo p fl) (hp : 1 ≤ p) {a b τ M : K} (hab : a ≤ b)
    (hM : |a| ≤ M ∧ |b| ≤ M) (h0 : 0 ≤ τ) (h1 : τ ≤ 1) :
    |lerpFl fl a b (fl τ) - (a + (b - a) * τ)| ≤ ulp p * (M + 3 * (b - a)) := by
  have hu0 : (0 : K) < ulp p := ulp_pos p
  have hu : (ulp p : K) ≤ 1 / 2 := ulp_le_half hp
  set u : K := ulp p
  set g := b - a with hg
  have hg0 : 0 ≤ g := sub_nonneg.2 hab
  set t := fl τ with htd
  have ht0 : 0 ≤ t := h.nonneg h0
  have ht1 : t ≤ 1 := h.le_of_le (isFloat_one p) h1
  have htf : IsFloat p t := h.float τ
  have et : |t - τ| ≤ u := by
    refine (h.err τ).trans ?_
    rw [abs_of_nonneg h0]
    simpa using mul_le_mul_of_nonneg_left h1 hu0.le
  set d := fl g with hdd
  have hd0 : 0 ≤ d := h.nonneg hg0
  have ed : |d - g| ≤ u * g := by simpa [abs_of_nonneg hg0] using h.err g
  have hdg : d ≤ (1 + u) * g := by have := (abs_le.1 ed).2; linarith
  -- one product, at a fraction at most one half
  have prod : ∀ w ω : K, 0 ≤ w → w ≤ 1 / 2 → |w - ω| ≤ 3 / 2 * u → |fl (d * w) - g * ω| ≤ 3 * u * g := by
    intro w ω hw0 hw1 hw
    have hdw : 0 ≤ d * w := mul_nonneg hd0 hw0
    have e1 : |fl (d * w) - d * w| ≤ u * (d * w) := by simpa [abs_of_nonneg hdw] using h.err (d * w)
    have e2 : d * w ≤ 3 / 4 * g := by
      have : d * w ≤ (1 + u) * g * (1 / 2) := mul_le_mul hdg hw1 hw0 (by positivity)
      have : (1 + u) * g ≤ 3 / 2 * g := mul_le_mul_of_nonneg_right (by linarith) hg0
      linarith
    have e3 : u * (d * w) ≤ u * (3 / 4 * g) := mul_le_mul_of_nonneg_left e2 hu0.le
    have e4 : |(d - g) * w| ≤ u * g * (1 / 2) := by
      rw [abs_mul, abs_of_nonneg hw0]
      exact mul_le_mul ed hw1 hw0 (by positivity)
    have e5 : |g * (w - ω)| ≤ g * (3 / 2 * u) := by
      rw [abs_mul, abs_of_nonneg hg0]
      exact mul_le_mul_of_nonneg_left hw hg0
    have e6 : fl (d * w) - g * ω = (fl (d * w) - d * w) + (d - g) * w + g * (w - ω) := by ring
    rw [e6]
    have hug : 0 ≤ u * g := mul_nonneg hu0.le hg0
    refine (abs_add_three _ _ _).trans ?_
    linarith
  have close : ∀ x : K, a ≤ x → x ≤ b → |fl x - x| ≤ u * M := by
    intro x hx1 hx2
    refine (h.err x).trans (mul_le_mul_of_nonneg_left ?_ hu0.le)
    exact abs_le.2 ⟨by linarith [(abs_le.1 hM.1).1], by linarith [(abs_le.1 hM.2).2]⟩
  unfold lerpFl
  rw [← hg, ← hdd]
  split
  · rename_i hh
    set w := fl (1 - t) with hw
    have hw0 : 0 ≤ w := h.nonneg (by linarith)
    have hw1 : w ≤ 1 / 2 := by
      have : fl (1 * (1 / 2)) = 1 * (1 / 2) := h.half (isFloat_one p)
      rw [one_mul] at this
      rw [hw, ← this]
      exact h.mono (by linarith)
    have ew : |w - (1 - τ)| ≤ 3 / 2 * u := by
      have e1 : |w - (1 - t)| ≤ u * (1 / 2) := by
        refine (h.err (1 - t)).trans (mul_le_mul_of_nonneg_left ?_ hu0.le)
        rw [abs_of_nonneg (by linarith)]; linarith
      have e2 : w - (1 - τ) = (w - (1 - t)) + -(t - τ) := by ring
      rw [e2]
      refine (abs_add_le _ _).trans ?_
      rw [abs_neg]
      linarith
    have e1 := prod w (1 - τ) hw0 hw1 ew
    have hx1 : a ≤ b - fl (d * w) := by
      have h2 := lerp_high_ge (fl := fl) h hab hh
      have h3 := lerp_low_le (fl := fl) h hp hab (isFloat_zero p) (by norm_num : (0 : K) < 1 / 2)
      rw [mul_zero, h.zero] at h3
      linarith
    have hx2 : b - fl (d * w) ≤ b := by linarith [h.nonneg (mul_nonneg hd0 hw0)]
    have e2 := close _ hx1 hx2
    have e3 : fl (b - fl (d * w)) - (a + g * τ) =
        (fl (b - fl (d * w)) - (b - fl (d * w))) + -(fl (d * w) - g * (1 - τ)) := by rw [hg]; ring
    rw [e3]
    refine (abs_add_le _ _).trans ?_
    rw [abs_neg]
    linarith
  · rename_i hh
    push Not at hh
    have e1 := prod t τ ht0 hh.le (et.trans (by linarith))
    have hx1 : a ≤ a + fl (d * t) := by linarith [h.nonneg (mul_nonneg hd0 ht0)]
    have hx2 : a + fl (d * t) ≤ b := by
      have := lerp_low_le (fl := fl) h hp hab htf hh
      have h2 : 0 ≤ fl (b - a) * (1 / 2) := mul_nonneg hd0 (by norm_num)
      linarith
    have e2 := close _ hx1 hx2
    have e3 : fl (a + fl (d * t)) - (a + g * τ) =
        (fl (a + fl (d * t)) - (a + fl (d * t))) + (fl (d * t) - g * τ) := by ring
    rw [e3]
    refine (abs_add_le _ _).trans ?_
    linarith

theorem position_err (h : RoundsTo p fl) (hp : 1 ≤ p) {n : ℕ} (hn : 1 ≤ n) (hn2 : n ≤ 2 ^ p) {q : K} (h0 : 0 ≤ q)
    (h1 : q ≤ 100) :
    |positionFl fl n q - ((n : K) - 1) * (q / 100)| ≤ 3 * ulp p * ((n : K) - 1) := by
  have hu0 : (0 : K) < ulp p := ulp_pos p
  have hu : (ulp p : K) ≤ 1 / 2 := ulp_le_half hp
  set u : K := ulp p
  have hN : (0 : K) ≤ (n : K) - 1 := by
    have : (1 : K) ≤ n := by exact_mod_cast hn
    linarith
  have hNf : fl ((n : K) - 1) = (n : K) - 1 := by
    have := h.exact (isFloat_int (K := K) (p := p) (z := (n : ℤ) - 1) (by
      have : (n : ℤ) ≤ 2 ^ p := by exact_mod_cast hn2
      rw [abs_of_nonneg (by omega)]; omega))
    push_cast at this
    exact this
  unfold positionFl
  rw [hNf]
  set N := (n : K) - 1
  set x := q / 100 with hx
  have hx0 : 0 ≤ x := by positivity
  have hx1 : x ≤ 1 := by rw [hx, div_le_one (by norm_num)]; exact h1
  set y := fl x
  have hy0 : 0 ≤ y := h.nonneg hx0
  have hy1 : y ≤ 1 := h.le_of_le (isFloat_one p) hx1
  have e1 : |y - x| ≤ u := by
    refine (h.err x).trans ?_
    rw [abs_of_nonneg hx0]
    simpa using mul_le_mul_of_nonneg_left hx1 hu0.le
  have hNy : N * y ≤ N := by simpa using mul_le_mul_of_nonneg_left hy1 hN
  have e2 : |fl (N * y) - N * y| ≤ u * N := by
    refine (h.err _).trans (mul_le_mul_of_nonneg_left ?_ hu0.le)
    rw [abs_of_nonneg (mul_nonneg hN hy0)]
    exact hNy
  have e3 : |N * (y - x)| ≤ N * u := by
    rw [abs_mul, abs_of_nonneg hN]
    exact mul_le_mul_of_nonneg_left e1 hN
  have e4 : fl (N * y) - N * x = (fl (N * y) - N * y) + N * (y - x) := by ring
  rw [e4]
  refine (abs_add_le _ _).trans ?_
  have : 0 ≤ u * N := mul_nonneg hu0.le hN
  linarith

theorem percentileFl_err (h : RoundsTo p fl) (hp : 1 ≤ p) {s : List K} (hs : s.Pairwise (· ≤ ·)) (hne : s ≠ [])
    (hn2 : s.length ≤ 2 ^ p) {M G : K} (hM : ∀ x ∈ s, |x| ≤ M)
    (hG0 : 0 ≤ G) (hG : ∀ i, i + 1 < s.length → s.getD (i + 1) 0 - s.getD i 0 ≤ G) {q : K} (h0 : 0 ≤ q) (h1 : q ≤ 100) :
    |percentileFl fl s q - percentileAt s q| ≤ ulp p * (M + 3 * G * s.length) := by
  have hn : 0 < s.length := List.length_pos_of_ne_nil hne
  have hu0 : (0 : K) < ulp p := ulp_pos p
  have hM0 : 0 ≤ M := (abs_nonneg _).trans (hM _ (List.getElem_mem hn))
  have hpe := position_err h hp hn hn2 h0 h1
  have hx0 := position_nonneg h hn h0
  rw [percentileAt_eq]
  have hN : (0 : K) ≤ (s.length : K) - 1 := by
    have : (1 : K) ≤ s.length := by exact_mod_cast hn
    linarith
  have hy0 : 0 ≤ ((s.length : K) - 1) * (q / 100) := mul_nonneg hN (by positivity)
  have hy1 : ((s.length : K) - 1) * (q / 100) ≤ (s.length : K) - 1 := by
    have : q / 100 ≤ 1 := by rw [div_le_one (by norm_num)]; exact h1
    simpa using mul_le_mul_of_nonneg_left this hN
  unfold percentileFl
  simp only
  set x := positionFl fl s.length q
  set y := ((s.length : K) - 1) * (q / 100)
  have hGu : 0 ≤ ulp p * G := mul_nonneg hu0.le hG0
  split
  · rename_i hc
    have hlast : s.getD (s.length - 1) 0 = interpAt s ((s.length : K) - 1) := by
      unfold interpAt
      have e : ((s.length : K) - 1) = ((s.length - 1 : ℕ) : K) := by
        rw [Nat.cast_sub hn]; simp
      rw [e, Int.floor_natCast]
      simp
    rw [hlast]
    obtain ⟨l1, l2⟩ := interpAt_lip hG0 hG hs hy0 hy1 le_rfl
    rw [abs_of_nonneg l1]
    have : G * ((s.length : K) - 1 - y) ≤ G * (3 * ulp p * ((s.length : K) - 1)) := by
      refine mul_le_mul_of_nonneg_left ?_ hG0
      have := (abs_le.1 hpe).2
      linarith
    have hMu : 0 ≤ ulp p * M := mul_nonneg hu0.le hM0
    have e : ulp p * (M + 3 * G * s.length) = ulp p * M + 3 * (ulp p * G) + G * (3 * ulp p * ((s.length : K) - 1)) := by ring
    rw [e]
    linarith
  · rename_i hc
    push Not at hc
    obtain ⟨c, -⟩ := position_cell hx0 hc
    have hmem : ∀ i, i < s.length → |s.getD i 0| ≤ M := fun i hi => by
      rw [List.getD_eq_getElem _ _ hi]; exact hM _ (List.getElem_mem _)
    have e1 := lerp_err h hp (τ := x - ⌊x⌋) (sorted_getD hs (Nat.le_succ _) c)
      ⟨hmem _ (by omega), hmem _ c⟩ (sub_nonneg.2 (Int.floor_le x)) (by linarith [Int.lt_floor_add_one x])
    have e2 : interpAt s x = s.getD ⌊x⌋.toNat 0 + (s.getD (⌊x⌋.toNat + 1) 0 - s.getD ⌊x⌋.toNat 0) * (x - ⌊x⌋) := by
      unfold interpAt
      rw [min_eq_left (by omega)]
    rw [← e2] at e1
    have e3 : |interpAt s x - interpAt s y| ≤ G * (3 * ulp p * ((s.length : K) - 1)) := by
      rcases le_total x y with hxy | hxy
      · obtain ⟨l1, l2⟩ := interpAt_lip hG0 hG hs hx0 hxy hy1
        rw [abs_sub_comm, abs_of_nonneg l1]
        refine l2.trans (mul_le_mul_of_nonneg_left ?_ hG0)
        have := (abs_le.1 hpe).1
        linarith
      · obtain ⟨l1, l2⟩ := interpAt_lip hG0 hG hs hy0 hxy hc.le
        rw [abs_of_nonneg l1]
        refine l2.trans (mul_le_mul_of_nonneg_left ?_ hG0)
        have := (abs_le.1 hpe).2
        linarith
    have e4 := hG _ c
    have e5 : ulp p * (M + 3 * (s.getD (⌊x⌋.toNat + 1) 0 - s.getD ⌊x⌋.toNat 0)) ≤ ulp p * (M + 3 * G) :=
      mul_le_mul_of_nonneg_left (by linarith) hu0.le
    have e6 := (abs_add_le _ _).trans (add_le_add e1 e3)
    rw [sub_add_sub_cancel] at e6
    have e : ulp p * (M + 3 * G * s.length) = ulp p * (M + 3 * G) + G * (3 * ulp p * ((s.length : K) - 1)) := by ring
    rw [e]
    linarith

end Verif
