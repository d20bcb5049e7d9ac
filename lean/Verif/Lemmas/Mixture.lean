import Verif.Model.Mixture
import Mathlib.Algebra.Order.BigOperators.Group.List
import Mathlib.Algebra.BigOperators.Group.List.Basic
import Mathlib.Tactic.Ring

namespace Verif

set_option linter.unusedSectionVars false

variable {K : Type} [Field K] [LinearOrder K] [IsStrictOrderedRing K]

@[simp] theorem cumsumFrom_length (acc : K) (ws : List K) : (cumsumFrom acc ws).length = ws.length := by
  induction ws generalizing acc with
  | nil => rfl
  | cons w ws ih => simp [cumsumFrom, ih]

@[simp] theorem cumsum_length (ws : List K) : (cumsum ws).length = ws.length := cumsumFrom_length _ _

theorem cumsumFrom_get (acc : K) (ws : List K) (i : ℕ) (h : i < ws.length) :
    (cumsumFrom acc ws)[i]? = some (acc + (ws.take (i + 1)).sum) := by
  induction ws generalizing acc i with
  | nil => simp at h
  | cons w ws ih =>
    cases i with
    | zero => simp [cumsumFrom]
    | succ i =>
      simp only [cumsumFrom, List.getElem?_cons_succ]
      rw [ih _ _ (by simpa using h)]
      simp [add_assoc]

theorem cumsum_get (ws : List K) (i : ℕ) (h : i < ws.length) :
    (cumsum ws)[i]? = some ((ws.take (i + 1)).sum) := by
  rw [cumsum, cumsumFrom_get _ _ _ h, zero_add]

theorem take_sum_mono (ws : List K) (hnn : ∀ w ∈ ws, 0 ≤ w) {i j : ℕ} (hij : i ≤ j) :
    (ws.take i).sum ≤ (ws.take j).sum := by
  have : ws.take i = (ws.take j).take i := by rw [List.take_take, min_eq_left hij]
  rw [this]
  conv_rhs => rw [← List.take_append_drop i (ws.take j)]
  rw [List.sum_append]
  have : 0 ≤ ((ws.take j).drop i).sum := by
    apply List.sum_nonneg
    intro x hx
    exact hnn x (List.mem_of_mem_take (List.mem_of_mem_drop hx))
  linarith

/-- Specification of the binary search on a sorted list. -/
theorem bisectLoop_spec (a : List K) (x : K)
    (hs : ∀ (i j : ℕ) (y z : K), i ≤ j → a[i]? = some y → a[j]? = some z → y ≤ z) (lo hi : ℕ)
    (hle : lo ≤ hi) (hhi : hi ≤ a.length)
    (hlo : ∀ (i : ℕ) (y : K), i < lo → a[i]? = some y → y < x)
    (hup : ∀ (i : ℕ) (y : K), hi ≤ i → a[i]? = some y → x ≤ y) :
    (∀ (i : ℕ) (y : K), i < bisectLoop a x lo hi → a[i]? = some y → y < x) ∧
    (∀ (i : ℕ) (y : K), bisectLoop a x lo hi ≤ i → a[i]? = some y → x ≤ y) ∧
    bisectLoop a x lo hi ≤ a.length := by
  induction h : hi - lo using Nat.strong_induction_on generalizing lo hi with
  | _ m ih =>
    unfold bisectLoop
    by_cases hlt : lo < hi
    · rw [dif_pos hlt]
      have hmid : (lo + hi) / 2 < a.length := by omega
      obtain ⟨y, hy⟩ : ∃ y, a[(lo + hi) / 2]? = some y := ⟨_, List.getElem?_eq_getElem hmid⟩
      rw [hy]
      simp only
      by_cases hyx : y < x
      · rw [if_pos hyx]
        refine ih (hi - ((lo + hi) / 2 + 1)) (by omega) _ _ (by omega) hhi ?_ hup rfl
        intro i z hi' hz
        exact lt_of_le_of_lt (hs i _ z y (by omega) hz hy) hyx
      · rw [if_neg hyx]
        refine ih ((lo + hi) / 2 - lo) (by omega) _ _ (by omega) (by omega) hlo ?_ rfl
        intro i z hi' hz
        exact le_trans (not_lt.mp hyx) (hs _ i y z hi' hy hz)
    · rw [dif_neg hlt]
      have : lo = hi := by omega
      subst this
      exact ⟨hlo, hup, hhi⟩

theorem cumsum_sorted (ws : List K) (hnn : ∀ w ∈ ws, 0 ≤ w) :
    ∀ (i j : ℕ) (y z : K), i ≤ j → (cumsum ws)[i]? = some y → (cumsum ws)[j]? = some z → y ≤ z := by
  intro i j y z hij hy hz
  have hi : i < ws.length := by
    have := (List.getElem?_eq_some_iff.mp hy).1; simpa using this
  have hj : j < ws.length := by
    have := (List.getElem?_eq_some_iff.mp hz).1; simpa using this
  rw [cumsum_get _ _ hi] at hy
  rw [cumsum_get _ _ hj] at hz
  cases hy; cases hz
  exact take_sum_mono ws hnn (by omega)

/-- The large-n strategy picks `i` exactly when `u` lies in the `i`-th cumulative interval. -/
theorem pickLarge_iff (ws : List K) (hnn : ∀ w ∈ ws, 0 ≤ w) (u : K) (i : ℕ) :
    pickLarge ws u = .ok i ↔
      i < ws.length ∧ u ≤ (ws.take (i + 1)).sum ∧ (i = 0 ∨ (ws.take i).sum < u) := by
  obtain ⟨h1, h2, h3⟩ := bisectLoop_spec (cumsum ws) u (cumsum_sorted ws hnn) 0 (cumsum ws).length
    (Nat.zero_le _) le_rfl (by intro i y hi; omega)
    (by intro i y hi hy; have := (List.getElem?_eq_some_iff.mp hy).1; omega)
  rw [← bisectLeft] at h1 h2 h3
  unfold pickLarge
  simp only
  constructor
  · intro h
    split at h
    · rename_i hlt
      injection h with h
      subst h
      refine ⟨hlt, h2 _ _ le_rfl (cumsum_get ws _ hlt), ?_⟩
      by_cases h0 : bisectLeft (cumsum ws) u = 0
      · exact Or.inl h0
      · right
        obtain ⟨k, hk⟩ := Nat.exists_eq_succ_of_ne_zero h0
        have := h1 k _ (by omega) (cumsum_get ws k (by omega))
        rw [hk]; exact this
    · cases h
  · rintro ⟨hi, hu, hl⟩
    have heq : bisectLeft (cumsum ws) u = i := by
      rcases lt_trichotomy (bisectLeft (cumsum ws) u) i with hlt | heq | hgt
      · rcases hl with rfl | hl
        · omega
        · have h4 := h2 _ _ le_rfl (cumsum_get ws (bisectLeft (cumsum ws) u) (by omega))
          have h5 := take_sum_mono ws hnn (i := bisectLeft (cumsum ws) u + 1) (j := i) (by omega)
          exact absurd (lt_of_lt_of_le hl h4) (not_lt.mpr h5)
      · exact heq
      · have h4 := h1 i _ hgt (cumsum_get ws i hi)
        exact absurd h4 (not_lt.mpr hu)
    rw [heq, if_pos hi]

theorem pickLarge_error_iff (ws : List K) (hnn : ∀ w ∈ ws, 0 ≤ w) (hne : ws ≠ []) (u : K) :
    pickLarge ws u = .error .indexError ↔ ws.sum < u := by
  have hpos : 0 < ws.length := List.length_pos_iff.mpr hne
  obtain ⟨h1, h2, h3⟩ := bisectLoop_spec (cumsum ws) u (cumsum_sorted ws hnn) 0 (cumsum ws).length
    (Nat.zero_le _) le_rfl (by intro i y hi; omega)
    (by intro i y hi hy; have := (List.getElem?_eq_some_iff.mp hy).1; omega)
  rw [← bisectLeft] at h1 h2 h3
  unfold pickLarge
  simp only
  have hlast := cumsum_get ws (ws.length - 1) (by omega)
  rw [Nat.sub_add_cancel hpos, List.take_length] at hlast
  constructor
  · intro h
    split at h
    · cases h
    · exact h1 _ _ (by omega) hlast
  · intro h
    rw [if_neg]
    intro hlt
    have := h2 (ws.length - 1) _ (by omega) hlast
    exact absurd h (not_lt.mpr this)

theorem pickLoop_spec (u : K) (acc : K) (ws : List K) (hnn : ∀ w ∈ ws, 0 ≤ w) (k i : ℕ) (hne : ws ≠ []) :
    pickLoop u (cumsumFrom acc ws) k = k + i ↔
      i < ws.length ∧ (u ≤ acc + (ws.take (i + 1)).sum ∨ i + 1 = ws.length) ∧
        (i = 0 ∨ acc + (ws.take i).sum < u) := by
  induction ws generalizing acc k i with
  | nil => exact absurd rfl hne
  | cons w ws ih =>
    simp only [cumsumFrom, pickLoop]
    have hnn' : ∀ w ∈ ws, 0 ≤ w := fun x hx => hnn x (List.mem_cons_of_mem _ hx)
    by_cases hu : u ≤ acc + w
    · rw [if_pos hu]
      constructor
      · intro h
        have : i = 0 := by omega
        subst this
        simp [hu]
      · rintro ⟨_, _, h | h⟩
        · subst h; rfl
        · cases i with
          | zero => rfl
          | succ i =>
            exfalso
            simp only [List.take_succ_cons, List.sum_cons] at h
            have : 0 ≤ (ws.take i).sum :=
              List.sum_nonneg (fun x hx => hnn' x (List.mem_of_mem_take hx))
            linarith
    · rw [if_neg hu]
      cases ws with
      | nil =>
        simp only [cumsumFrom, pickLoop, List.length_cons, List.length_nil]
        constructor
        · intro h; refine ⟨by omega, Or.inr (by omega), Or.inl (by omega)⟩
        · rintro ⟨h, -, -⟩; omega
      | cons w' ws =>
        cases i with
        | zero =>
          constructor
          · intro h
            exfalso
            -- index at least k + 1
            have key : ∀ (cs : List K) (m : ℕ), cs ≠ [] → m ≤ pickLoop u cs m := by
              intro cs
              induction cs with
              | nil => intro m h; exact absurd rfl h
              | cons c cs ihc =>
                intro m _
                simp only [pickLoop]
                split
                · exact le_rfl
                · by_cases hcs : cs = []
                  · subst hcs; simp [pickLoop]
                  · have := ihc (m + 1) hcs; omega
            have := key (cumsumFrom (acc + w) (w' :: ws)) (k + 1) (by simp [cumsumFrom])
            omega
          · rintro ⟨_, h | h, _⟩
            · simp at h; exact absurd h hu
            · simp at h
        | succ i =>
          have := ih (acc + w) hnn' (k + 1) i (by simp)
          rw [show k + (i + 1) = k + 1 + i from by omega, this]
          simp only [List.length_cons, List.take_succ_cons, List.sum_cons, add_assoc]
          constructor
          · rintro ⟨h1, h2, h3⟩
            refine ⟨by omega, ?_, ?_⟩
            · rcases h2 with h2 | h2
              · left; exact h2
              · right; omega
            · right
              rcases h3 with h3 | h3
              · subst h3; simpa [add_assoc] using not_le.mp hu
              · exact h3
          · rintro ⟨h1, h2, h3⟩
            refine ⟨by omega, ?_, ?_⟩
            · rcases h2 with h2 | h2
              · left; exact h2
              · right; omega
            · rcases h3 with h3 | h3
              · omega
              · by_cases hi : i = 0
                · exact Or.inl hi
                · exact Or.inr h3

/-- The small-n strategy picks `i` exactly when `u` lies in the `i`-th cumulative interval, or `i` is
the last component and `u` exceeds all others. -/
theorem pickSmall_iff (ws : List K) (hnn : ∀ w ∈ ws, 0 ≤ w) (hne : ws ≠ []) (u : K) (i : ℕ) :
    pickSmall ws u = i ↔
      i < ws.length ∧ (u ≤ (ws.take (i + 1)).sum ∨ i + 1 = ws.length) ∧
        (i = 0 ∨ (ws.take i).sum < u) := by
  have := pickLoop_spec u 0 ws hnn 0 i hne
  simpa [pickSmall, cumsum] using this

end Verif
