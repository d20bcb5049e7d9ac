import Verif.Model.RoundedMean
import Verif.Lemmas.FloatSum
import Mathlib.Tactic.Linarith
import Mathlib.Tactic.Positivity

/-! # Sums in any order, with rounding -/

namespace Verif

namespace SumOrder

section orders

variable {K : Type}

theorem leaves_pos (t : SumOrder K) : 0 < t.leaves.length := by
  induction t with
  | one x => simp [leaves]
  | add l r hl _ => simp [leaves]; omega

theorem depth_lt (t : SumOrder K) : t.depth < t.leaves.length := by
  induction t with
  | one x => simp [leaves, depth]
  | add l r hl hr => simp [leaves, depth]; omega

theorem run_leaves (t : SumOrder K) (xs : List K) : (run t xs).leaves = t.leaves ++ xs := by
  induction xs generalizing t with
  | nil => simp [run]
  | cons x xs ih =>
    have : run t (x :: xs) = run (.add t (.one x)) xs := rfl
    rw [this, ih]; simp [leaves]

theorem run_depth (t : SumOrder K) (xs : List K) : (run t xs).depth ≤ t.depth + xs.length := by
  induction xs generalizing t with
  | nil => simp [run]
  | cons x xs ih =>
    have : run t (x :: xs) = run (.add t (.one x)) xs := rfl
    rw [this]
    refine (ih _).trans ?_
    simp [depth]; omega

theorem zip_leaves (rs : List (SumOrder K)) (xs : List K) (h : rs.length = xs.length) :
    ((List.zipWith (fun t x => SumOrder.add t (.one x)) rs xs).flatMap leaves).Perm (rs.flatMap leaves ++ xs) := by
  induction rs generalizing xs with
  | nil => cases xs <;> simp_all
  | cons r rs ih =>
    rcases xs with _ | ⟨x, xs⟩
    · simp at h
    · have := ih xs (by simpa using h)
      simp only [List.zipWith_cons_cons, List.flatMap_cons, leaves, List.append_assoc, List.cons_append, List.nil_append]
      refine List.Perm.append_left _ ?_
      exact (List.Perm.cons x this).trans List.perm_middle.symm

theorem accumulate_spec (rs : List (SumOrder K)) (xs : List K) (h8 : rs.length = 8) (d : ℕ)
    (hd : ∀ r ∈ rs, r.depth ≤ d) :
    (accumulate rs xs).1.length = 8 ∧ (accumulate rs xs).2.length = xs.length % 8 ∧
    ((accumulate rs xs).1.flatMap leaves ++ (accumulate rs xs).2).Perm (rs.flatMap leaves ++ xs) ∧
    ∀ r ∈ (accumulate rs xs).1, r.depth ≤ d + xs.length / 8 := by
  induction hn : xs.length using Nat.strong_induction_on generalizing rs xs d with
  | _ n ih =>
    subst hn
    rw [accumulate]
    split
    · rename_i hge
      have hl : (xs.take 8).length = 8 := by simp; omega
      have hl2 : (xs.drop 8).length = xs.length - 8 := by simp
      obtain ⟨h1, h2, h3, h4⟩ := ih (xs.drop 8).length (by omega)
        (List.zipWith (fun t x => .add t (.one x)) rs (xs.take 8)) (xs.drop 8) (by simp [h8]; omega) (d + 1) (by
          intro r hr
          obtain ⟨t, x, ht, -, rfl⟩ : ∃ t x, t ∈ rs ∧ x ∈ xs.take 8 ∧ r = .add t (.one x) := by
            rw [List.mem_iff_getElem] at hr
            obtain ⟨i, hi, rfl⟩ := hr
            rw [List.length_zipWith] at hi
            exact ⟨rs[i], (xs.take 8)[i], List.getElem_mem _, List.getElem_mem _, by simp⟩
          have := hd t ht
          simp [depth]; omega) rfl
      refine ⟨h1, by rw [h2, hl2]; omega, ?_, ?_⟩
      · refine h3.trans ?_
        have := (zip_leaves rs (xs.take 8) (by omega)).append_right (xs.drop 8)
        rwa [List.append_assoc, List.take_append_drop] at this
      · intro r hr
        have := h4 r hr
        rw [hl2] at this
        omega
    · rename_i hlt
      refine ⟨h8, by simp only; omega, .refl _, fun r hr => (hd r hr).trans (by omega)⟩

theorem block_spec (xs : List K) (hne : xs ≠ []) (hlen : xs.length ≤ 128) :
    ∃ t, block xs = some t ∧ t.leaves.Perm xs ∧ t.depth ≤ 25 := by
  unfold block
  split
  · rename_i h
    rcases xs with _ | ⟨x, xs⟩
    · exact absurd rfl hne
    · refine ⟨_, rfl, by rw [run_leaves]; simp [leaves], (run_depth _ _).trans ?_⟩
      simp [depth] at h ⊢; omega
  · rename_i h
    have hl : ((xs.take 8).map SumOrder.one).length = 8 := by simp; omega
    obtain ⟨h1, h2, h3, h4⟩ := accumulate_spec ((xs.take 8).map .one) (xs.drop 8) hl 0 (by
      intro r hr
      obtain ⟨x, -, rfl⟩ := List.mem_map.1 hr
      simp [depth])
    generalize accumulate ((xs.take 8).map .one) (xs.drop 8) = a at *
    obtain ⟨rs, rest⟩ := a
    simp only at h1 h2 h3 h4
    rcases rs with _ | ⟨r0, _ | ⟨r1, _ | ⟨r2, _ | ⟨r3, _ | ⟨r4, _ | ⟨r5, _ | ⟨r6, _ | ⟨r7, _ | ⟨r8, rs⟩⟩⟩⟩⟩⟩⟩⟩⟩ <;>
      simp at h1
    have e : ((xs.take 8).map SumOrder.one).flatMap leaves = xs.take 8 := by
      induction xs.take 8 with
      | nil => rfl
      | cons x l ih => simp [leaves, ih]
    refine ⟨_, rfl, ?_, (run_depth _ _).trans ?_⟩
    · rw [run_leaves]
      rw [e, List.take_append_drop] at h3
      simpa [leaves] using h3
    · have hd : (xs.drop 8).length ≤ 120 := by simp; omega
      have g : ∀ r ∈ [r0, r1, r2, r3, r4, r5, r6, r7], r.depth ≤ 15 := fun r hr => (h4 r hr).trans (by omega)
      simp only [List.mem_cons, List.not_mem_nil, or_false, forall_eq_or_imp, forall_eq] at g
      simp only [depth]
      omega

end orders

end SumOrder

theorem numpyOrder_spec {K : Type} (k : ℕ) (xs : List K) (hne : xs ≠ []) (hlen : xs.length ≤ 15 + 113 * 2 ^ k) :
    ∃ t, numpyOrder xs = some t ∧ t.leaves.Perm xs ∧ t.depth ≤ 25 + k := by
  induction k generalizing xs with
  | zero =>
    obtain ⟨t, h1, h2, h3⟩ := SumOrder.block_spec xs hne (by simpa using hlen)
    refine ⟨t, ?_, h2, h3⟩
    rw [numpyOrder, dif_pos (by simpa using hlen)]
    exact h1
  | succ k ih =>
    by_cases hc : xs.length ≤ 128
    · obtain ⟨t, h1, h2, h3⟩ := SumOrder.block_spec xs hne hc
      refine ⟨t, ?_, h2, by omega⟩
      rw [numpyOrder, dif_pos hc]
      exact h1
    · rw [numpyOrder, dif_neg hc]
      rw [pow_succ] at hlen
      have e1 : (xs.take (xs.length / 2 - xs.length / 2 % 8)).length = xs.length / 2 - xs.length / 2 % 8 := by
        simp; omega
      have e2 : (xs.drop (xs.length / 2 - xs.length / 2 % 8)).length
          = xs.length - (xs.length / 2 - xs.length / 2 % 8) := by simp
      obtain ⟨l, l1, l2, l3⟩ := ih (xs.take (xs.length / 2 - xs.length / 2 % 8))
        (by rw [← List.length_pos_iff_ne_nil]; omega) (by omega)
      obtain ⟨r, r1, r2, r3⟩ := ih (xs.drop (xs.length / 2 - xs.length / 2 % 8))
        (by rw [← List.length_pos_iff_ne_nil]; omega) (by omega)
      refine ⟨.add l r, by simp only [l1, r1], ?_, ?_⟩
      · have := l2.append r2
        rwa [List.take_append_drop] at this
      · simp only [SumOrder.depth]; omega

variable {K : Type} [Field K] [LinearOrder K] [IsStrictOrderedRing K] {p : ℕ} {fl : K → K}

theorem sumFl_err [FloorRing K] (h : RoundsTo p fl) (t : SumOrder K) :
    |t.sumFl fl - t.leaves.sum| ≤ ((1 + ulp p) ^ t.depth - 1) * (t.leaves.map abs).sum ∧
      |t.leaves.sum| ≤ (t.leaves.map abs).sum := by
  have hu : (0 : K) < ulp p := ulp_pos p
  induction t with
  | one x => simp [SumOrder.sumFl, SumOrder.leaves, SumOrder.depth]
  | add l r hl hr =>
    obtain ⟨l1, l2⟩ := hl
    obtain ⟨r1, r2⟩ := hr
    simp only [SumOrder.sumFl, SumOrder.leaves, SumOrder.depth, List.sum_append, List.map_append]
    set a := l.sumFl fl
    set b := r.sumFl fl
    set A := l.leaves.sum
    set B := r.leaves.sum
    set A' := (l.leaves.map abs).sum
    set B' := (r.leaves.map abs).sum
    have hA : 0 ≤ A' := (abs_nonneg _).trans l2
    have hB : 0 ≤ B' := (abs_nonneg _).trans r2
    refine ⟨?_, (abs_add_le _ _).trans (add_le_add l2 r2)⟩
    have hone : (1 : K) ≤ 1 + ulp p := by linarith
    have pl : (1 + ulp p : K) ^ l.depth ≤ (1 + ulp p) ^ (max l.depth r.depth) :=
      pow_le_pow_right₀ hone (le_max_left _ _)
    have pr : (1 + ulp p : K) ^ r.depth ≤ (1 + ulp p) ^ (max l.depth r.depth) :=
      pow_le_pow_right₀ hone (le_max_right _ _)
    set P : K := (1 + ulp p) ^ (max l.depth r.depth)
    have e1 : |a + b - (A + B)| ≤ (P - 1) * (A' + B') := by
      have h1 := mul_le_mul_of_nonneg_right pl hA
      have h2 := mul_le_mul_of_nonneg_right pr hB
      have : a + b - (A + B) = (a - A) + (b - B) := by ring
      rw [this]
      refine (abs_add_le _ _).trans ?_
      linarith
    have e2 : |a + b| ≤ P * (A' + B') := by
      have : a + b = (a + b - (A + B)) + (A + B) := by ring
      rw [this]
      refine (abs_add_le _ _).trans ?_
      have := (abs_add_le A B).trans (add_le_add l2 r2)
      linarith
    have e3 := h.err (a + b)
    have e4 := mul_le_mul_of_nonneg_left e2 hu.le
    have : fl (a + b) - (A + B) = (fl (a + b) - (a + b)) + (a + b - (A + B)) := by ring
    rw [this]
    refine (abs_add_le _ _).trans ?_
    rw [pow_succ]
    linarith

omit [Field K] [LinearOrder K] [IsStrictOrderedRing K] in
theorem map_leaves {ι : Type} (t : SumOrder ι) (f : ι → K) : (t.map f).leaves = t.leaves.map f := by
  induction t with
  | one i => rfl
  | add l r hl hr => simp [SumOrder.map, SumOrder.leaves, hl, hr]

theorem sumFl_mono [FloorRing K] (h : RoundsTo p fl) {ι : Type} (t : SumOrder ι) (f g : ι → K)
    (hfg : ∀ i ∈ t.leaves, f i ≤ g i) : (t.map f).sumFl fl ≤ (t.map g).sumFl fl := by
  induction t with
  | one i => exact hfg i (by simp [SumOrder.leaves])
  | add l r hl hr =>
    have h1 := hl fun i hi => hfg i (by simp [SumOrder.leaves, hi])
    have h2 := hr fun i hi => hfg i (by simp [SumOrder.leaves, hi])
    exact h.mono (add_le_add h1 h2)

/-- Sums of whole numbers are exact while they fit. -/
theorem sumFl_ints [FloorRing K] (h : RoundsTo p fl) (t : SumOrder K)
    (h01 : ∀ x ∈ t.leaves, x = 0 ∨ x = 1) (hn : t.leaves.length ≤ 2 ^ p) :
    t.sumFl fl = (t.leaves.count 1 : ℕ) := by
  induction t with
  | one x =>
    rcases h01 x (by simp [SumOrder.leaves]) with rfl | rfl <;> simp [SumOrder.sumFl, SumOrder.leaves]
  | add l r hl hr =>
    simp only [SumOrder.leaves, List.length_append] at hn
    have h1 := hl (fun x hx => h01 x (by simp [SumOrder.leaves, hx])) (by omega)
    have h2 := hr (fun x hx => h01 x (by simp [SumOrder.leaves, hx])) (by omega)
    simp only [SumOrder.sumFl, SumOrder.leaves, List.count_append, h1, h2]
    have c1 := List.count_le_length (a := (1 : K)) (l := l.leaves)
    have c2 := List.count_le_length (a := (1 : K)) (l := r.leaves)
    have : IsFloat p (((l.leaves.count 1 + r.leaves.count 1 : ℕ) : ℤ) : K) := by
      refine isFloat_int ?_
      rw [abs_of_nonneg (by omega)]
      have : l.leaves.count 1 + r.leaves.count 1 ≤ 2 ^ p := by omega
      exact_mod_cast this
    have e := h.exact this
    push_cast at e ⊢
    exact e

end Verif
