import Verif.Props.RoundedWeights
import Verif.Lemmas.Mixture
import Mathlib.Algebra.Order.Floor.Semiring
import Mathlib.Order.Interval.Finset.Nat

/-!
# Mixtures in floating-point arithmetic (C117)

The uniform numbers are the `2^p` equally likely numbers `j / 2^p` (`p = 53` for numpy).
-/

namespace Verif

variable {K : Type} [Field K] [LinearOrder K] [IsStrictOrderedRing K] [FloorRing K] {p : ℕ} {fl : K → K}

/-- The share of the `2^p` equally likely uniform numbers for which `P` holds. -/
def gridShare (p : ℕ) (P : ℕ → Prop) [DecidablePred P] : K :=
  (((Finset.range (2 ^ p)).filter P).card : K) / 2 ^ p

/-! ### The picks -/

theorem cumsumFl_mono (h : RoundsTo p fl) {ws : List K} (hw : ∀ w ∈ ws, 0 ≤ w) :
    ∀ (i j : ℕ) (y z : K), i ≤ j → (cumsumFl fl ws)[i]? = some y → (cumsumFl fl ws)[j]? = some z → y ≤ z := by
  intro i j y z hij hy hz
  obtain ⟨hi, rfl⟩ := List.getElem?_eq_some_iff.1 hy
  obtain ⟨hj, rfl⟩ := List.getElem?_eq_some_iff.1 hz
  rcases hij.eq_or_lt with rfl | hlt
  · exact le_rfl
  · exact List.pairwise_iff_getElem.1 (cumsumFl_sorted h hw) i j hi hj hlt

theorem sumFl_take_mono (h : RoundsTo p fl) {ws : List K} (hw : ∀ w ∈ ws, 0 ≤ w) {i j : ℕ} (hij : i ≤ j) :
    sumFl fl (ws.take i) ≤ sumFl fl (ws.take j) := by
  obtain ⟨k, rfl⟩ := Nat.exists_eq_add_of_le hij
  rw [List.take_add, sumFl, sumFl, List.foldl_append]
  exact foldFl_ge h _ (fun x hx => hw x (List.mem_of_mem_drop (List.mem_of_mem_take hx))) _
    (sumFl_float h _)

/-- For more than 100 samples component `i` is chosen exactly when the uniform number lies between the
rounded sums of the weights before it and up to it. -/
theorem pickLargeFl_iff (h : RoundsTo p fl) {ws : List K} (hw : ∀ w ∈ ws, 0 ≤ w) (u : K) (i : ℕ) :
    pickLargeFl fl ws u = .ok i ↔
      i < ws.length ∧ u ≤ sumFl fl (ws.take (i + 1)) ∧ (i = 0 ∨ sumFl fl (ws.take i) < u) := by
  obtain ⟨h1, h2, h3⟩ := bisectLoop_spec (cumsumFl fl ws) u (cumsumFl_mono h hw) 0 (cumsumFl fl ws).length
    (Nat.zero_le _) le_rfl (by intro i y hi; omega)
    (by intro i y hi hy; have := (List.getElem?_eq_some_iff.mp hy).1; omega)
  rw [← bisectLeft] at h1 h2 h3
  unfold pickLargeFl
  simp only
  constructor
  · intro hh
    split at hh
    · rename_i hlt
      injection hh with hh
      subst hh
      refine ⟨hlt, h2 _ _ le_rfl (cumsumFl_getElem? ws hlt), ?_⟩
      by_cases h0 : bisectLeft (cumsumFl fl ws) u = 0
      · exact Or.inl h0
      · right
        obtain ⟨k, hk⟩ := Nat.exists_eq_succ_of_ne_zero h0
        have := h1 k _ (by omega) (cumsumFl_getElem? ws (by omega))
        rw [hk]; exact this
    · cases hh
  · rintro ⟨hi, hu, hl⟩
    have heq : bisectLeft (cumsumFl fl ws) u = i := by
      rcases lt_trichotomy (bisectLeft (cumsumFl fl ws) u) i with hlt | heq | hgt
      · rcases hl with rfl | hl
        · omega
        · have h4 := h2 _ _ le_rfl (cumsumFl_getElem? ws (i := bisectLeft (cumsumFl fl ws) u) (by omega))
          have h5 := sumFl_take_mono h hw (i := bisectLeft (cumsumFl fl ws) u + 1) (j := i) (by omega)
          exact absurd (lt_of_lt_of_le hl h4) (not_lt.mpr h5)
      · exact heq
      · have h4 := h1 i _ hgt (cumsumFl_getElem? ws hi)
        exact absurd h4 (not_lt.mpr hu)
    rw [heq, if_pos hi]

/-- For more than 100 samples the call fails exactly when the uniform number exceeds the rounded sum of all
weights. -/
theorem pickLargeFl_error_iff (h : RoundsTo p fl) {ws : List K} (hw : ∀ w ∈ ws, 0 ≤ w) (hne : ws ≠ []) (u : K) :
    pickLargeFl fl ws u = .error .indexError ↔ sumFl fl ws < u := by
  have hpos : 0 < ws.length := List.length_pos_iff.mpr hne
  obtain ⟨h1, h2, h3⟩ := bisectLoop_spec (cumsumFl fl ws) u (cumsumFl_mono h hw) 0 (cumsumFl fl ws).length
    (Nat.zero_le _) le_rfl (by intro i y hi; omega)
    (by intro i y hi hy; have := (List.getElem?_eq_some_iff.mp hy).1; omega)
  rw [← bisectLeft] at h1 h2 h3
  unfold pickLargeFl
  simp only
  have hlast := cumsumFl_getElem? (fl := fl) ws (i := ws.length - 1) (by omega)
  rw [Nat.sub_add_cancel hpos, List.take_length] at hlast
  constructor
  · intro h
    split at h
    · cases h
    · exact h1 _ _ (by omega) hlast
  · intro h
    rw [if_neg]
    intro hlt
    have := h2 (ws.length - 1) _ (by omega) hlast
    exact absurd h (not_lt.mpr this)

omit [Field K] [IsStrictOrderedRing K] [FloorRing K] in
theorem pickLoop_first (u : K) (cs : List K) (k : ℕ) (hne : cs ≠ []) :
    ∃ i, i < cs.length ∧ pickLoop u cs k = k + i ∧ (∀ y, cs[i]? = some y → u ≤ y ∨ i + 1 = cs.length) ∧
      ∀ j y, j < i → cs[j]? = some y → y < u := by
  induction cs generalizing k with
  | nil => exact absurd rfl hne
  | cons c cs ih =>
    unfold pickLoop
    by_cases hc : u ≤ c
    · rw [if_pos hc]
      exact ⟨0, by simp, rfl, fun y hy => by simp at hy; exact Or.inl (hy ▸ hc), fun j y hj => by omega⟩
    · rw [if_neg hc]
      push Not at hc
      by_cases hcs : cs = []
      · subst hcs
        exact ⟨0, by simp, by simp [pickLoop], fun y _ => Or.inr rfl, fun j y hj => by omega⟩
      · obtain ⟨i, h1, h2, h3, h4⟩ := ih (k + 1) hcs
        refine ⟨i + 1, by simpa using h1, by omega, ?_, ?_⟩
        · intro y hy
          rcases h3 y (by simpa using hy) with h | h
          · exact Or.inl h
          · exact Or.inr (by simp [h])
        · intro j y hj hy
          cases j with
          | zero => simp at hy; exact hy ▸ hc
          | succ j => exact h4 j y (by omega) (by simpa using hy)

/-- For up to 100 samples the same component is chosen; where the other method fails, it is the last one. -/
theorem C117_small (h : RoundsTo p fl) {ws : List K} (hw : ∀ w ∈ ws, 0 ≤ w) (hne : ws ≠ []) (u : K) :
    (u ≤ sumFl fl ws → pickLargeFl fl ws u = .ok (pickSmallFl fl ws u)) ∧
    (sumFl fl ws < u → pickSmallFl fl ws u = ws.length - 1) := by
  have hpos : 0 < ws.length := List.length_pos_iff.mpr hne
  have hne' : cumsumFl fl ws ≠ [] := by
    rw [ne_eq, ← List.length_eq_zero_iff, cumsumFl_length]
    omega
  obtain ⟨i, h1, h2, h3, h4⟩ := pickLoop_first u (cumsumFl fl ws) 0 hne'
  rw [zero_add] at h2
  rw [cumsumFl_length] at h1 h3
  have hps : pickSmallFl fl ws u = i := h2
  rw [hps]
  have hall : sumFl fl ws = sumFl fl (ws.take ws.length) := by rw [List.take_length]
  constructor
  · intro hu
    rw [pickLargeFl_iff h hw]
    refine ⟨h1, ?_, ?_⟩
    · rcases h3 _ (cumsumFl_getElem? ws h1) with h5 | h5
      · exact h5
      · rw [h5, ← hall]; exact hu
    · rcases Nat.eq_zero_or_pos i with h0 | h0
      · exact Or.inl h0
      · right
        have := h4 (i - 1) _ (by omega) (cumsumFl_getElem? ws (by omega))
        rwa [Nat.sub_add_cancel h0] at this
  · intro hu
    rcases h3 _ (cumsumFl_getElem? ws h1) with h5 | h5
    · have := sumFl_take_mono h hw (i := i + 1) (j := ws.length) (by omega)
      rw [← hall] at this
      exact absurd (h5.trans this) (not_le.2 hu)
    · omega

/-! ### Counting uniform numbers -/

theorem grid_le_card (p : ℕ) {t : K} (ht : 0 ≤ t) :
    2 ^ p * min t 1 ≤ (((Finset.range (2 ^ p)).filter fun j => (gridPoint p j : K) ≤ t).card : K) ∧
    (((Finset.range (2 ^ p)).filter fun j => (gridPoint p j : K) ≤ t).card : K) ≤ 2 ^ p * min t 1 + 1 := by
  have hN : (0 : K) < 2 ^ p := by positivity
  have hset : ((Finset.range (2 ^ p)).filter fun j => (gridPoint p j : K) ≤ t) =
      Finset.range (min (2 ^ p) (⌊t * 2 ^ p⌋₊ + 1)) := by
    ext j
    simp only [Finset.mem_filter, Finset.mem_range, lt_min_iff, Nat.lt_add_one_iff]
    rw [gridPoint, div_le_iff₀ hN, Nat.le_floor_iff (by positivity)]
  rw [hset, Finset.card_range]
  push_cast
  have h1 := Nat.floor_le (show (0 : K) ≤ t * 2 ^ p by positivity)
  have h2 := Nat.lt_floor_add_one (t * 2 ^ p)
  rcases le_total t 1 with h | h
  · rw [min_eq_left h]
    refine ⟨le_min ?_ ?_, (min_le_right _ _).trans ?_⟩
    · nlinarith
    · linarith
    · linarith
  · rw [min_eq_right h]
    refine ⟨le_min ?_ ?_, (min_le_left _ _).trans ?_⟩
    · linarith
    · nlinarith
    · linarith

theorem take_sum_bounds {ws : List K} (hw : ∀ w ∈ ws, 0 ≤ w) (i : ℕ) :
    0 ≤ (ws.take i).sum ∧ (ws.take i).sum ≤ ws.sum := by
  refine ⟨List.sum_nonneg fun x hx => hw x (List.mem_of_mem_take hx), ?_⟩
  conv_rhs => rw [← List.take_append_drop i ws, List.sum_append]
  have : 0 ≤ (ws.drop i).sum := List.sum_nonneg fun x hx => hw x (List.mem_of_mem_drop hx)
  linarith

theorem sumFl_take_err (h : RoundsTo p fl) (hp : 1 ≤ p) {ws : List K} (hw : ∀ w ∈ ws, 0 ≤ w)
    (hn : ws.length * ulp p ≤ (1 / 2 : K)) (i : ℕ) :
    |sumFl fl (ws.take i) - (ws.take i).sum| ≤ 2 * (ws.length * ulp p) * ws.sum := by
  obtain ⟨h1, h2⟩ := sumFl_bounds h hp (xs := ws.take i) (fun x hx => hw x (List.mem_of_mem_take hx))
    (n := ws.length) (by simp) hn
  obtain ⟨b1, b2⟩ := take_sum_bounds hw i
  set a : K := ws.length * ulp p with ha
  have ha0 : 0 ≤ a := mul_nonneg (Nat.cast_nonneg _) (ulp_pos p).le
  have : a * (ws.take i).sum ≤ a * ws.sum := mul_le_mul_of_nonneg_left b2 ha0
  have hs : 0 ≤ a * (ws.take i).sum := mul_nonneg ha0 b1
  rw [abs_le]
  constructor <;> nlinarith

instance (ws : List K) (u : K) (i : ℕ) : Decidable (pickLargeFl fl ws u = .ok i) := by
  unfold pickLargeFl
  infer_instance

instance (ws : List K) (u : K) : Decidable (pickLargeFl fl ws u = .error .indexError) := by
  unfold pickLargeFl
  infer_instance

theorem gridShare_congr {P Q : ℕ → Prop} [DecidablePred P] [DecidablePred Q] (h : ∀ j, P j ↔ Q j) :
    (gridShare p P : K) = gridShare p Q := by
  unfold gridShare
  rw [Finset.filter_congr (fun j _ => h j)]

/-- The share of uniform numbers up to `t`. -/
theorem gridShare_le {t : K} (ht : 0 ≤ t) :
    min t 1 ≤ gridShare p (fun j => (gridPoint p j : K) ≤ t) ∧
    gridShare p (fun j => (gridPoint p j : K) ≤ t) ≤ min t 1 + ulp p := by
  have hN : (0 : K) < 2 ^ p := by positivity
  obtain ⟨h1, h2⟩ := grid_le_card p ht
  unfold gridShare ulp
  constructor
  · rw [le_div_iff₀ hN]
    linarith
  · rw [div_le_iff₀ hN, add_mul, one_div, inv_mul_cancel₀ hN.ne']
    linarith

theorem gridShare_between {s t : K} (hst : s ≤ t) :
    (gridShare p (fun j => (gridPoint p j : K) ≤ t ∧ s < gridPoint p j) : K) =
      gridShare p (fun j => (gridPoint p j : K) ≤ t) - gridShare p (fun j => (gridPoint p j : K) ≤ s) := by
  unfold gridShare
  rw [← sub_div]
  congr 1
  rw [eq_sub_iff_add_eq]
  norm_cast
  rw [← Finset.card_union_of_disjoint]
  · congr 1
    ext j
    simp only [Finset.mem_union, Finset.mem_filter]
    constructor
    · rintro (⟨a, b, -⟩ | ⟨a, b⟩)
      · exact ⟨a, b⟩
      · exact ⟨a, b.trans hst⟩
    · rintro ⟨a, b⟩
      rcases lt_or_ge s (gridPoint p j : K) with hc | hc
      · exact Or.inl ⟨a, b, hc⟩
      · exact Or.inr ⟨a, hc⟩
  · rw [Finset.disjoint_left]
    intro j hj hj'
    simp only [Finset.mem_filter] at hj hj'
    exact absurd hj.2.2 (not_lt.2 hj'.2)

theorem abs_min_one_sub (a b : K) : |min a 1 - min b 1| ≤ |a - b| := by
  have := abs_min_sub_min_le_max a 1 b 1
  simpa using this

theorem exact_step {S c w : K} (hc : 0 ≤ c) (hw : 0 ≤ w) (hs : c + w ≤ S) :
    |min (c + w) 1 - min c 1 - w| ≤ |S - 1| := by
  rcases le_total (c + w) 1 with h1 | h1
  · rw [min_eq_left h1, min_eq_left (by linarith)]
    have : c + w - c - w = 0 := by ring
    rw [this, abs_zero]
    exact abs_nonneg _
  · have hS := le_abs_self (S - 1)
    rw [min_eq_right h1]
    rcases le_total c 1 with h2 | h2
    · rw [min_eq_left h2, abs_le]
      constructor <;> linarith
    · rw [min_eq_right h2, abs_le]
      constructor <;> linarith

/-- **C117** (more than 100 samples): the chance that component `i` is chosen is its weight, up to
`2^(-p) (1 + 4 n S)` for the roundings and `|S - 1|` for weights that sum to `S` instead of 1. -/
theorem C117_share_partial (h : RoundsTo p fl) (hp : 1 ≤ p) {ws : List K} (hw : ∀ w ∈ ws, 0 ≤ w)
    (hn : ws.length * ulp p ≤ (1 / 2 : K)) (i : ℕ) (hi : i < ws.length) :
    |gridShare p (fun j => pickLargeFl fl ws (gridPoint p j) = .ok i) - ws[i]| ≤
      ulp p + 4 * (ws.length * ulp p) * ws.sum + |ws.sum - 1| := by
  obtain ⟨b1, b2⟩ := take_sum_bounds hw (i + 1)
  obtain ⟨b3, b4⟩ := take_sum_bounds hw i
  have hstep : (ws.take (i + 1)).sum = (ws.take i).sum + ws[i] := by
    rw [List.take_succ_eq_append_getElem hi, List.sum_append, List.sum_singleton]
  have e1 := sumFl_take_err h hp hw hn (i + 1)
  have e2 := sumFl_take_err h hp hw hn i
  have e3 := exact_step b3 (hw _ (List.getElem_mem hi)) (hstep ▸ b2)
  rw [← hstep] at e3
  have m1 := (abs_min_one_sub (sumFl fl (ws.take (i + 1))) (ws.take (i + 1)).sum).trans e1
  have m2 := (abs_min_one_sub (sumFl fl (ws.take i)) (ws.take i).sum).trans e2
  have hmono := sumFl_take_mono h hw (i := i) (j := i + 1) (by omega)
  have hC0 : ∀ k, 0 ≤ sumFl fl (ws.take k) := fun k => by
    have := sumFl_take_mono h hw (i := 0) (j := k) (by omega)
    simpa [sumFl] using this
  obtain ⟨g1, g2⟩ := gridShare_le (p := p) (hC0 (i + 1))
  obtain ⟨g3, g4⟩ := gridShare_le (p := p) (hC0 i)
  have key : |gridShare p (fun j => pickLargeFl fl ws (gridPoint p j) = .ok i) -
      (min (sumFl fl (ws.take (i + 1))) 1 - min (sumFl fl (ws.take i)) 1)| ≤ ulp p := by
    rcases Nat.eq_zero_or_pos i with rfl | h0
    · have : (gridShare p (fun j => pickLargeFl fl ws (gridPoint p j) = .ok 0) : K) =
          gridShare p (fun j => (gridPoint p j : K) ≤ sumFl fl (ws.take 1)) :=
        gridShare_congr fun j => by
          rw [pickLargeFl_iff h hw]
          simp [hi]
      rw [this]
      have hz : min (sumFl fl (ws.take 0)) 1 = 0 := by simp [sumFl]
      rw [hz, abs_le]
      simp only [zero_add] at g1 g2
      constructor <;> linarith [ulp_pos (K := K) p]
    · have : (gridShare p (fun j => pickLargeFl fl ws (gridPoint p j) = .ok i) : K) =
          gridShare p (fun j => (gridPoint p j : K) ≤ sumFl fl (ws.take (i + 1)) ∧
            sumFl fl (ws.take i) < gridPoint p j) :=
        gridShare_congr fun j => by
          rw [pickLargeFl_iff h hw]
          simp [hi, h0.ne']
      rw [this, gridShare_between hmono, abs_le]
      constructor <;> linarith
  rw [abs_le] at key m1 m2 e3 ⊢
  constructor <;> linarith [key.1, key.2, m1.1, m1.2, m2.1, m2.2, e3.1, e3.2]

/-- **C117**: the chance that a call for more than 100 samples fails at one sample is at most
`n 2^(-p) S` plus what is missing from the sum `S` of the weights. -/
theorem C117_failure (h : RoundsTo p fl) (hp : 1 ≤ p) {ws : List K} (hw : ∀ w ∈ ws, 0 ≤ w) (hne : ws ≠ [])
    (hn : ws.length * ulp p ≤ (1 / 2 : K)) :
    gridShare p (fun j => pickLargeFl fl ws (gridPoint p j) = .error .indexError) ≤
      ws.length * ulp p * ws.sum + |ws.sum - 1| := by
  have hs : 0 ≤ ws.sum := List.sum_nonneg hw
  obtain ⟨h1, -⟩ := sumFl_bounds h hp hw le_rfl hn
  have hS0 : 0 ≤ sumFl fl ws := by
    have := sumFl_take_mono h hw (i := 0) (j := ws.length) (by omega)
    simpa [sumFl] using this
  obtain ⟨g1, -⟩ := gridShare_le (p := p) hS0
  have e : (gridShare p (fun j => pickLargeFl fl ws (gridPoint p j) = .error .indexError) : K) +
      gridShare p (fun j => (gridPoint p j : K) ≤ sumFl fl ws) = 1 := by
    unfold gridShare
    rw [← add_div, div_eq_one_iff_eq (by positivity)]
    have hd : (Finset.range (2 ^ p)).filter (fun j => pickLargeFl fl ws (gridPoint p j) = .error .indexError) =
        (Finset.range (2 ^ p)).filter (fun j => ¬ (gridPoint p j : K) ≤ sumFl fl ws) :=
      Finset.filter_congr fun j _ => by rw [pickLargeFl_error_iff h hw hne, not_le]
    rw [hd, add_comm]
    norm_cast
    rw [Finset.card_filter_add_card_filter_not, Finset.card_range]
  have h3 := neg_abs_le (ws.sum - 1)
  rcases le_total (sumFl fl ws) 1 with h4 | h4
  · rw [min_eq_left h4] at g1
    nlinarith
  · rw [min_eq_right h4] at g1
    have : (0 : K) ≤ ws.length * ulp p * ws.sum :=
      mul_nonneg (mul_nonneg (Nat.cast_nonneg _) (ulp_pos p).le) hs
    have := abs_nonneg (ws.sum - 1)
    linarith

/-- **C117** (up to 100 samples): the chance that component `i` is chosen is its weight up to the same
roundings. -/
theorem C117_share_small (h : RoundsTo p fl) (hp : 1 ≤ p) {ws : List K} (hw : ∀ w ∈ ws, 0 ≤ w)
    (hn : ws.length * ulp p ≤ (1 / 2 : K)) (i : ℕ) (hi : i < ws.length) :
    |gridShare p (fun j => pickSmallFl fl ws (gridPoint p j) = i) - ws[i]| ≤
      ulp p + 5 * (ws.length * ulp p) * ws.sum + 2 * |ws.sum - 1| := by
  have hne : ws ≠ [] := List.ne_nil_of_length_pos (by omega)
  have e1 := C117_share_partial h hp hw hn i hi
  have e2 := C117_failure h hp hw hne hn
  have hf : (gridShare p (fun j => pickLargeFl fl ws (gridPoint p j) = .ok i) : K) ≤
      gridShare p (fun j => pickSmallFl fl ws (gridPoint p j) = i) ∧
      (gridShare p (fun j => pickSmallFl fl ws (gridPoint p j) = i) : K) ≤
        gridShare p (fun j => pickLargeFl fl ws (gridPoint p j) = .ok i) +
        gridShare p (fun j => pickLargeFl fl ws (gridPoint p j) = .error .indexError) := by
    have hN : (0 : K) < 2 ^ p := by positivity
    unfold gridShare
    rw [← add_div, div_le_div_iff_of_pos_right hN, div_le_div_iff_of_pos_right hN]
    norm_cast
    have hcase : ∀ u : K, pickLargeFl fl ws u = .ok (pickSmallFl fl ws u) ∨
        pickLargeFl fl ws u = .error .indexError := fun u => by
      rcases le_or_gt u (sumFl fl ws) with hu | hu
      · exact Or.inl ((C117_small h hw hne u).1 hu)
      · exact Or.inr ((pickLargeFl_error_iff h hw hne u).2 hu)
    constructor
    · refine Finset.card_le_card fun j hj => ?_
      rw [Finset.mem_filter] at hj ⊢
      refine ⟨hj.1, ?_⟩
      rcases hcase (gridPoint p j) with hc | hc
      · have := hc.symm.trans hj.2
        exact Except.ok.inj this
      · have := hc.symm.trans hj.2
        cases this
    · refine (Finset.card_le_card (fun j hj => ?_)).trans (Finset.card_union_le _ _)
      rw [Finset.mem_union, Finset.mem_filter, Finset.mem_filter]
      rw [Finset.mem_filter] at hj
      rcases hcase (gridPoint p j) with hc | hc
      · left
        exact ⟨hj.1, by rw [hc, hj.2]⟩
      · exact Or.inr ⟨hj.1, hc⟩
  rw [abs_le] at e1 ⊢
  have : (0 : K) ≤ ws.length * ulp p * ws.sum :=
    mul_nonneg (mul_nonneg (Nat.cast_nonneg _) (ulp_pos p).le) (List.sum_nonneg hw)
  constructor <;> linarith [e1.1, e1.2, hf.1, hf.2, abs_nonneg (ws.sum - 1)]

/-- One step of a sum of doubles. -/
theorem double_step {x : ℚ} {m : ℤ} (e : ℤ) (h1 : (2 : ℚ) ^ (e + 53 - 1) ≤ x) (h2 : x < (2 : ℚ) ^ (e + 53))
    (h3 : roundEven (x / (2 : ℚ) ^ e) = m) : roundBits 53 x = m * (2 : ℚ) ^ e := by
  rw [roundBits_eq (p := 53) e (by exact_mod_cast h1) (by exact_mod_cast h2), h3]

theorem seven_weight : roundBits 53 (1 / 7 : ℚ) = 5146971002709138 / 2 ^ 55 := by
  rw [double_step (m := 5146971002709138) (-55) (by norm_num) (by norm_num) (by decide +kernel)]
  norm_num

theorem seven_sum : sumFl (roundBits 53) (List.replicate 7 (roundBits 53 (1 / 7 : ℚ))) = 1 - 1 / 2 ^ 52 := by
  have s1 : roundBits 53 (0 + 5146971002709138 / 2 ^ 55 : ℚ) = 5146971002709138 / 2 ^ 55 := by
    rw [double_step (m := 5146971002709138) (-55) (by norm_num) (by norm_num) (by decide +kernel)]
    norm_num
  have s2 : roundBits 53 (5146971002709138 / 2 ^ 55 + 5146971002709138 / 2 ^ 55 : ℚ) =
      5146971002709138 / 2 ^ 54 := by
    rw [double_step (m := 5146971002709138) (-54) (by norm_num) (by norm_num) (by decide +kernel)]
    norm_num
  have s3 : roundBits 53 (5146971002709138 / 2 ^ 54 + 5146971002709138 / 2 ^ 55 : ℚ) =
      7720456504063707 / 2 ^ 54 := by
    rw [double_step (m := 7720456504063707) (-54) (by norm_num) (by norm_num) (by decide +kernel)]
    norm_num
  have s4 : roundBits 53 (7720456504063707 / 2 ^ 54 + 5146971002709138 / 2 ^ 55 : ℚ) =
      5146971002709138 / 2 ^ 53 := by
    rw [double_step (m := 5146971002709138) (-53) (by norm_num) (by norm_num) (by decide +kernel)]
    norm_num
  have s5 : roundBits 53 (5146971002709138 / 2 ^ 53 + 5146971002709138 / 2 ^ 55 : ℚ) =
      6433713753386422 / 2 ^ 53 := by
    rw [double_step (m := 6433713753386422) (-53) (by norm_num) (by norm_num) (by decide +kernel)]
    norm_num
  have s6 : roundBits 53 (6433713753386422 / 2 ^ 53 + 5146971002709138 / 2 ^ 55 : ℚ) =
      7720456504063706 / 2 ^ 53 := by
    rw [double_step (m := 7720456504063706) (-53) (by norm_num) (by norm_num) (by decide +kernel)]
    norm_num
  have s7 : roundBits 53 (7720456504063706 / 2 ^ 53 + 5146971002709138 / 2 ^ 55 : ℚ) = 1 - 1 / 2 ^ 52 := by
    rw [double_step (m := 9007199254740990) (-53) (by norm_num) (by norm_num) (by decide +kernel)]
    norm_num
  rw [seven_weight]
  simp only [sumFl, List.replicate, List.foldl_cons, List.foldl_nil]
  rw [s1, s2, s3, s4, s5, s6, s7]

/-- **C117** (what is missing): with doubles, a mixture of seven distributions without weights is accepted, but
a call for more than 100 samples raises `IndexError` when the largest uniform number is drawn: the seven
weights add up to `1 - 2^(-52)`. -/
theorem C117_rounding_fails {ι : Type} (vals : List ι) (hv : vals.length = 7) :
    ∃ ws : List ℚ, processFl (roundBits 53) .absent vals = .ok (ws, vals) ∧
      pickLargeFl (roundBits 53) ws (gridPoint 53 (2 ^ 53 - 1)) = .error .indexError := by
  have h : RoundsTo 53 (roundBits (K := ℚ) 53) := roundBits_roundsTo (by norm_num)
  refine ⟨_, (C116_default h (by norm_num) (List.ne_nil_of_length_pos (by omega)) ?_).1, ?_⟩
  · rw [hv, ulp]; norm_num
  · have hc : ((7 : ℕ) : ℚ) = 7 := by norm_num
    rw [hv, hc, pickLargeFl_error_iff h ?_ (by simp [List.replicate]), seven_sum, gridPoint]
    · norm_num
    · intro w hw
      rw [(List.mem_replicate.1 hw).2]
      exact h.nonneg (by norm_num)

/-! ### Concrete cases -/

/-- Three components of a quarter, a quarter and a half: the second is drawn with a chance of a quarter, up to
`13 · 2^(-53)`. -/
example : |gridShare (K := ℚ) 53 (fun j => pickLargeFl (roundBits 53) [1 / 4, 1 / 4, (1 / 2 : ℚ)] (gridPoint 53 j) = .ok 1) -
    (1 / 4 : ℚ)| ≤ 13 * ulp 53 := by
  have h : RoundsTo 53 (roundBits (K := ℚ) 53) := roundBits_roundsTo (by norm_num)
  have := C117_share_partial h (by norm_num) (ws := [1 / 4, 1 / 4, 1 / 2])
    (by intro w hw; simp only [List.mem_cons, List.not_mem_nil, or_false] at hw
        rcases hw with rfl | rfl | rfl <;> norm_num)
    (by unfold ulp; norm_num) 1 (by norm_num)
  refine this.trans (le_of_eq ?_)
  unfold ulp
  norm_num

/-- A mixture of seven distributions. -/
example : ∃ ws : List ℚ, processFl (roundBits 53) .absent [1, 2, 3, 4, 5, 6, 7] = .ok (ws, [1, 2, 3, 4, 5, 6, 7]) ∧
    pickLargeFl (roundBits 53) ws (gridPoint 53 (2 ^ 53 - 1)) = .error .indexError :=
  C117_rounding_fails [1, 2, 3, 4, 5, 6, 7] rfl

end Verif
