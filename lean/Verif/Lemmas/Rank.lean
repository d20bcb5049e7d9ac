import Verif.Model.Correlation
import Verif.Lemmas.Sample
import Mathlib.Data.List.Sort
import Mathlib.Data.List.Perm.Subperm
import Mathlib.Data.List.Nodup
import Mathlib.Tactic.Linarith

/-! # Lemmas about ranks and reordering -/

namespace Verif

variable {K : Type} [Field K] [LinearOrder K]

theorem rankMin_length (xs : List K) : (rankMin xs).length = xs.length := by simp [rankMin]

/-- The rank of a value within a list. -/
def rk (xs : List K) (x : K) : ℕ := xs.countP (fun y => decide (y < x))

theorem rk_mono (xs : List K) {x y : K} (h : x ≤ y) : rk xs x ≤ rk xs y := by
  unfold rk
  apply List.countP_mono_left
  intro z _ hz
  simp only [decide_eq_true_eq] at hz ⊢
  exact lt_of_lt_of_le hz h

theorem countP_lt_of_mem {α : Type} {p q : α → Bool} {l : List α}
    (h : ∀ a ∈ l, p a = true → q a = true) {a : α} (ha : a ∈ l) (hp : p a = false) (hq : q a = true) :
    l.countP p < l.countP q := by
  induction l with
  | nil => cases ha
  | cons b l ih =>
    simp only [List.countP_cons]
    have hle : l.countP p ≤ l.countP q :=
      List.countP_mono_left fun x hx => h x (by simp [hx])
    rcases List.mem_cons.1 ha with rfl | ha'
    · simp only [hp, hq, Bool.false_eq_true, if_false, if_true]
      omega
    · have := ih (fun x hx => h x (by simp [hx])) ha'
      have hb := h b (by simp)
      by_cases h1 : p b = true
      · simp only [h1, hb h1, if_true]; omega
      · rw [if_neg h1]; omega

theorem rk_lt (xs : List K) {x y : K} (hx : x ∈ xs) (h : x < y) : rk xs x < rk xs y := by
  unfold rk
  refine countP_lt_of_mem ?_ hx (by simp) (by simpa using h)
  intro z _ hz
  simp only [decide_eq_true_eq] at hz ⊢
  exact lt_trans hz h

theorem rk_lt_length (xs : List K) {x : K} (hx : x ∈ xs) : rk xs x < xs.length := by
  unfold rk
  have := countP_lt_of_mem (p := fun y => decide (y < x)) (q := fun _ => true) (l := xs)
    (by intros; rfl) hx (by simp) rfl
  simpa using this

theorem rk_inj (xs : List K) {x y : K} (hx : x ∈ xs) (hy : y ∈ xs) (h : rk xs x = rk xs y) :
    x = y := by
  rcases lt_trichotomy x y with h1 | h1 | h1
  · have := rk_lt xs hx h1; omega
  · exact h1
  · have := rk_lt xs hy h1; omega

theorem rk_le_iff (xs : List K) {x y : K} (hy : y ∈ xs) : rk xs x ≤ rk xs y ↔ x ≤ y := by
  constructor
  · intro h
    by_contra hc
    have := rk_lt xs hy (not_le.1 hc)
    omega
  · exact rk_mono xs

theorem rankMin_eq (xs : List K) : rankMin xs = xs.map fun x => 1 + rk xs x := rfl

theorem mem_rankMin {xs : List K} {r : ℕ} (h : r ∈ rankMin xs) : 1 ≤ r ∧ r ≤ xs.length := by
  rw [rankMin_eq] at h
  obtain ⟨x, hx, rfl⟩ := List.mem_map.1 h
  have := rk_lt_length xs hx
  omega

/-- Ranks of distinct values: all of `1 .. n`. -/
theorem rankMin_perm {xs : List K} (h : xs.Nodup) :
    (rankMin xs).Perm (List.range' 1 xs.length) := by
  have hnd : (rankMin xs).Nodup := by
    rw [rankMin_eq]
    refine (List.nodup_map_iff_inj_on h).2 fun x hx y hy hxy => ?_
    exact rk_inj xs hx hy (by omega)
  have hsub : rankMin xs ⊆ List.range' 1 xs.length := by
    intro r hr
    have := mem_rankMin hr
    rw [List.mem_range'_1]
    omega
  refine (List.subperm_of_subset hnd hsub).perm_of_length_le ?_
  rw [List.length_range', rankMin_length]

/-! ### Positions among distinct values -/

theorem denseIdx_mono (all : List ℕ) {v w : ℕ} (h : v ≤ w) : denseIdx all v ≤ denseIdx all w := by
  unfold denseIdx
  rw [← List.countP_eq_length_filter, ← List.countP_eq_length_filter]
  apply List.countP_mono_left
  intro z _ hz
  simp only [decide_eq_true_eq] at hz ⊢
  omega

theorem denseIdx_lt (all : List ℕ) {v w : ℕ} (hv : v ∈ all) (h : v < w) :
    denseIdx all v < denseIdx all w := by
  unfold denseIdx
  rw [← List.countP_eq_length_filter, ← List.countP_eq_length_filter]
  refine countP_lt_of_mem ?_ (List.mem_dedup.2 hv) (by simp) (by simpa using h)
  intro z _ hz
  simp only [decide_eq_true_eq] at hz ⊢
  omega

theorem denseIdx_le_iff (all : List ℕ) {v w : ℕ} (hw : w ∈ all) :
    denseIdx all v ≤ denseIdx all w ↔ v ≤ w := by
  constructor
  · intro h
    by_contra hc
    have := denseIdx_lt all hw (not_le.1 hc)
    omega
  · exact denseIdx_mono all

/-- If all of `1..n` occur (and nothing else), the position of `v` is `v - 1`. -/
theorem denseIdx_full {all : List ℕ} {n : ℕ} (h : ∀ r, r ∈ all ↔ 1 ≤ r ∧ r ≤ n) {v : ℕ} (h1 : 1 ≤ v)
    (hn : v ≤ n) : denseIdx all v = v - 1 := by
  unfold denseIdx
  have hp : (all.dedup.filter (fun w => decide (w < v))).Perm (List.range' 1 (v - 1)) := by
    refine (List.perm_ext_iff_of_nodup ((List.nodup_dedup _).filter _) (List.nodup_range')).2 ?_
    intro r
    simp only [List.mem_filter, List.mem_dedup, h, decide_eq_true_eq, List.mem_range'_1]
    omega
  rw [hp.length_eq, List.length_range']

/-! ### The reordering -/

theorem gatherIdx_ok {α : Type} {a : List α} {idx : List ℕ} {out : List α} :
    gatherIdx a idx = .ok out ↔ List.Forall₂ (fun i x => a[i]? = some x) idx out := by
  unfold gatherIdx
  rw [mapExcept_ok]
  constructor
  · intro h
    refine h.imp fun i x hx => ?_
    cases hi : a[i]? with
    | none => rw [hi] at hx; cases hx
    | some y => rw [hi] at hx; cases hx; rfl
  · intro h
    refine h.imp fun i x hx => ?_
    rw [hx]

theorem gatherIdx_of_lt {α : Type} (d : α) (a : List α) (idx : List ℕ)
    (h : ∀ i ∈ idx, i < a.length) : gatherIdx a idx = .ok (idx.map fun i => a.getD i d) := by
  rw [gatherIdx_ok]
  induction idx with
  | nil => exact .nil
  | cons i idx ih =>
    refine .cons ?_ (ih fun j hj => h j (by simp [hj]))
    have hi := h i (by simp)
    show a[i]? = some (a.getD i d)
    rw [List.getD_eq_getElem?_getD, List.getElem?_eq_getElem hi]
    rfl

theorem map_getD_range {α : Type} (d : α) (a : List α) :
    (List.range a.length).map (fun i => a.getD i d) = a := by
  refine List.ext_getElem (by simp) fun i h1 h2 => ?_
  simp only [List.getElem_map, List.getElem_range]
  rw [List.getD_eq_getElem?_getD, List.getElem?_eq_getElem h2]
  rfl

/-- The sorted data: the result of sorting by rank is the data in ascending order, whatever the order
of equal keys. -/
theorem sorted_data {argsort : List ℕ → List ℕ} (hA : IsArgsort argsort) (col : List K)
    (all : List ℕ) (hall : ∀ r ∈ rankMin col, r ∈ all) :
    ∃ S : List K, gatherIdx col (argsort ((rankMin col).map (denseIdx all))) = .ok S ∧
      S.Perm col ∧ S.Pairwise (· ≤ ·) := by
  set keys := (rankMin col).map (denseIdx all) with hkeys
  have hlen : keys.length = col.length := by rw [hkeys, List.length_map, rankMin_length]
  obtain ⟨hp, hs⟩ := hA keys
  rw [hlen] at hp
  have hlt : ∀ i ∈ argsort keys, i < col.length := fun i hi => List.mem_range.1 (hp.subset hi)
  refine ⟨(argsort keys).map fun i => col.getD i 0, gatherIdx_of_lt 0 col _ hlt, ?_, ?_⟩
  · have := hp.map fun i => col.getD i 0
    rwa [map_getD_range] at this
  · rw [List.pairwise_map] at hs ⊢
    refine List.Pairwise.imp_of_mem (fun {i j} hi hj hij => ?_) hs
    have hi' := hlt i hi
    have hj' := hlt j hj
    have hk : ∀ k, (h : k < col.length) → keys.getD k 0 = denseIdx all (1 + rk col col[k]) := by
      intro k hk
      rw [List.getD_eq_getElem?_getD, List.getElem?_eq_getElem (by omega)]
      simp [hkeys, rankMin_eq]
    rw [hk i hi', hk j hj'] at hij
    have hmem : 1 + rk col col[j] ∈ all := hall _ (by
      rw [rankMin_eq]; exact List.mem_map.2 ⟨col[j], List.getElem_mem _, rfl⟩)
    have h1 := (denseIdx_le_iff all hmem).1 hij
    have h2 := (rk_le_iff col (x := col[i]) (List.getElem_mem hj')).1 (by omega)
    have hgd : ∀ k, (h : k < col.length) → col.getD k 0 = col[k] := by
      intro k hk
      rw [List.getD_eq_getElem?_getD, List.getElem?_eq_getElem hk]; rfl
    rw [hgd i hi', hgd j hj']
    exact h2

theorem denseIdx_lt_length {n : ℕ} {all : List ℕ} (h : ∀ r ∈ all, 1 ≤ r ∧ r ≤ n) {v : ℕ}
    (h1 : 1 ≤ v) (hn : v ≤ n) : denseIdx all v < n := by
  unfold denseIdx
  have hsub : (all.dedup.filter (fun w => decide (w < v))) ⊆ List.range' 1 (v - 1) := by
    intro r hr
    simp only [List.mem_filter, List.mem_dedup, decide_eq_true_eq] at hr
    have := h r hr.1
    rw [List.mem_range'_1]
    omega
  have := (List.subperm_of_subset ((List.nodup_dedup all).filter _) hsub).length_le
  rw [List.length_range'] at this
  omega

/-- What reordering one column returns: position `j` gets the sorted value at the dense position of
the new rank. -/
theorem sortColumn_eq {argsort : List ℕ → List ℕ} (hA : IsArgsort argsort) (col scores : List K)
    (hlen : scores.length = col.length) :
    ∃ S : List K, S.Perm col ∧ S.Pairwise (· ≤ ·) ∧
      sortColumn argsort col (rankMin col) (rankMin scores)
        = .ok ((rankMin scores).map fun r => S.getD (denseIdx (rankMin col ++ rankMin scores) r) 0) ∧
      ∀ r ∈ rankMin scores, denseIdx (rankMin col ++ rankMin scores) r < S.length := by
  obtain ⟨S, h1, h2, h3⟩ := sorted_data hA col (rankMin col ++ rankMin scores)
    (fun r hr => List.mem_append_left _ hr)
  have hlt : ∀ r ∈ rankMin scores, denseIdx (rankMin col ++ rankMin scores) r < S.length := by
    intro r hr
    rw [h2.length_eq]
    have hall : ∀ r ∈ rankMin col ++ rankMin scores, 1 ≤ r ∧ r ≤ col.length := by
      intro r hr
      rcases List.mem_append.1 hr with h | h
      · exact mem_rankMin h
      · rw [← hlen]; exact mem_rankMin h
    have := hall r (List.mem_append_right _ hr)
    exact denseIdx_lt_length hall this.1 this.2
  refine ⟨S, h2, h3, ?_, hlt⟩
  simp only [sortColumn]
  rw [h1]
  rw [show ((Except.ok S : Except PyErr (List K)) >>= fun sorted =>
    gatherIdx sorted ((rankMin scores).map (denseIdx (rankMin col ++ rankMin scores))))
    = gatherIdx S ((rankMin scores).map (denseIdx (rankMin col ++ rankMin scores))) from rfl]
  rw [gatherIdx_of_lt 0 S _ (by
    intro i hi
    obtain ⟨r, hr, rfl⟩ := List.mem_map.1 hi
    exact hlt r hr)]
  simp

end Verif
