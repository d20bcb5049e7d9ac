import Verif.Model.Correlate
import Verif.Spec.CorrelationMatrix
import Mathlib.Analysis.Matrix.PosDef
import Mathlib.Algebra.Order.Chebyshev
import Mathlib.Tactic.Linarith
import Mathlib.Tactic.Ring
import Mathlib.Tactic.FieldSimp
import Mathlib.Tactic.NormNum

/-!
# C34, C35: what `correlate` accepts and what it returns
-/

namespace Verif

open Matrix

variable {P : Type}

theorem entry_eq_at (m : List (List ℝ)) (i j : ℕ) : entry m i j = Spec.at_ m i j := rfl

/-- All real eigenvalues of a symmetric matrix are non-negative exactly if its quadratic form is. -/
theorem eigs_nonneg_iff {k : ℕ} (M : Matrix (Fin k) (Fin k) ℝ) (hs : M.IsHermitian) :
    (∀ e : ℝ, Module.End.HasEigenvalue (Matrix.toLin' M) e → 0 ≤ e) ↔
      ∀ x : Fin k → ℝ, 0 ≤ x ⬝ᵥ (M *ᵥ x) := by
  constructor
  · intro h
    have hp : M.PosSemidef := by
      rw [hs.posSemidef_iff_eigenvalues_nonneg]
      intro j
      apply h
      refine Module.End.hasEigenvalue_of_hasEigenvector (x := ⇑(hs.eigenvectorBasis j)) ⟨?_, ?_⟩
      · rw [Module.End.mem_eigenspace_iff, Matrix.toLin'_apply]
        exact hs.mulVec_eigenvectorBasis j
      · intro h0
        have := hs.eigenvectorBasis.orthonormal.ne_zero j
        apply this
        ext i
        exact congrFun h0 i
    intro x
    have := (posSemidef_iff_dotProduct_mulVec.1 hp).2 x
    simpa using this
  · intro h e he
    obtain ⟨v, hv⟩ := he.exists_hasEigenvector
    have h1 : M *ᵥ v = e • v := by
      have := hv.apply_eq_smul
      rwa [Matrix.toLin'_apply] at this
    have h2 := h v
    rw [h1, dotProduct_smul] at h2
    have h3 : 0 < v ⬝ᵥ v := by
      have := (dotProduct_self_eq_zero (v := v)).not.2 hv.2
      exact lt_of_le_of_ne (by
        simp only [dotProduct]
        exact Finset.sum_nonneg fun i _ => mul_self_nonneg _) (Ne.symm this)
    by_contra hlt
    push Not at hlt
    have : e • (v ⬝ᵥ v) < 0 := by
      rw [smul_eq_mul]
      exact mul_neg_of_neg_of_pos hlt h3
    linarith

theorem quad_eq {k : ℕ} (m : List (List ℝ)) (x : ℕ → ℝ) :
    (fun i : Fin k => x i) ⬝ᵥ (squareOf k m *ᵥ fun i : Fin k => x i) =
      ∑ i ∈ Finset.range k, ∑ j ∈ Finset.range k, x i * Spec.at_ m i j * x j := by
  simp only [dotProduct, mulVec, Finset.mul_sum, squareOf, entry_eq_at]
  rw [Finset.sum_range fun i => ∑ j ∈ Finset.range k, x i * Spec.at_ m i j * x j]
  refine Finset.sum_congr rfl fun i _ => ?_
  rw [Finset.sum_range fun j => x i * Spec.at_ m i j * x j]
  refine Finset.sum_congr rfl fun j _ => ?_
  ring

theorem psd_iff {k : ℕ} (m : List (List ℝ)) :
    (∀ x : Fin k → ℝ, 0 ≤ x ⬝ᵥ (squareOf k m *ᵥ x)) ↔
      ∀ x : ℕ → ℝ, 0 ≤ ∑ i ∈ Finset.range k, ∑ j ∈ Finset.range k, x i * Spec.at_ m i j * x j := by
  constructor
  · intro h x
    rw [← quad_eq]
    exact h _
  · intro h x
    have := h (fun i => if hi : i < k then x ⟨i, hi⟩ else 0)
    rw [← quad_eq] at this
    simpa using this

/-- In a correlation matrix every entry is between -1 and 1. -/
theorem Spec.IsCorrelationMatrix.range {k : ℕ} {m : List (List ℝ)}
    (h : Spec.IsCorrelationMatrix k m) {i j : ℕ} (hi : i < k) (hj : j < k) :
    -1 ≤ Spec.at_ m i j ∧ Spec.at_ m i j ≤ 1 := by
  by_cases hij : i = j
  · subst hij
    rw [h.diag i hi]
    norm_num
  · have key : ∀ s : ℝ, s * s = 1 → 0 ≤ 2 + 2 * s * Spec.at_ m i j := by
      intro s hs
      have h0 := h.psd (fun a => if a = i then 1 else if a = j then s else 0)
      have e1 : ∀ a ∈ Finset.range k, (∑ b ∈ Finset.range k,
          (if a = i then (1 : ℝ) else if a = j then s else 0) * Spec.at_ m a b *
            (if b = i then (1 : ℝ) else if b = j then s else 0)) =
          (if a = i then (1 : ℝ) else if a = j then s else 0) *
            (Spec.at_ m a i + Spec.at_ m a j * s) := by
        intro a _
        have : ∀ b ∈ Finset.range k,
            (if a = i then (1 : ℝ) else if a = j then s else 0) * Spec.at_ m a b *
              (if b = i then (1 : ℝ) else if b = j then s else 0) =
            (if b = i then (if a = i then (1 : ℝ) else if a = j then s else 0) *
              Spec.at_ m a i else 0) +
            (if b = j then (if a = i then (1 : ℝ) else if a = j then s else 0) *
              (Spec.at_ m a j * s) else 0) := by
          intro b _
          by_cases hb : b = i
          · subst hb; simp [hij]
          · by_cases hb' : b = j
            · subst hb'; simp [hb]; ring
            · simp [hb, hb']
        rw [Finset.sum_congr rfl this, Finset.sum_add_distrib, Finset.sum_ite_eq',
          Finset.sum_ite_eq']
        simp only [Finset.mem_range, hi, hj, if_true]
        ring
      rw [Finset.sum_congr rfl e1] at h0
      have e2 : ∀ a ∈ Finset.range k, (if a = i then (1 : ℝ) else if a = j then s else 0) *
            (Spec.at_ m a i + Spec.at_ m a j * s) =
          (if a = i then Spec.at_ m i i + Spec.at_ m i j * s else 0) +
          (if a = j then s * (Spec.at_ m j i + Spec.at_ m j j * s) else 0) := by
        intro a _
        by_cases ha : a = i
        · subst ha; simp [hij]
        · by_cases ha' : a = j
          · subst ha'; simp [ha]
          · simp [ha, ha']
      rw [Finset.sum_congr rfl e2, Finset.sum_add_distrib, Finset.sum_ite_eq',
          Finset.sum_ite_eq'] at h0
      simp only [Finset.mem_range, hi, hj, if_true] at h0
      rw [h.diag i hi, h.diag j hj, h.symm j hj i hi] at h0
      nlinarith
    have k1 := key 1 (by norm_num)
    have k2 := key (-1) (by norm_num)
    constructor <;> linarith

theorem checkMatrix_error {k : ℕ} {m : List (List ℝ)} {e : PyErr}
    (h : checkMatrix k m = .error e) : e = .assertionError := by
  unfold checkMatrix at h
  split at h
  · exact (Except.error.inj h).symm
  split at h
  · exact (Except.error.inj h).symm
  split at h
  · exact (Except.error.inj h).symm
  split at h
  · exact (Except.error.inj h).symm
  split at h
  · exact (Except.error.inj h).symm
  · exact absurd h (by simp)

/-- `__post_init__` passes exactly for correlation matrices (rows of equal length given). -/
theorem checkMatrix_ok_iff {k : ℕ} {m : List (List ℝ)} (hk : 0 < k)
    (hr : ∀ r ∈ m, r.length = (m.headD []).length) :
    checkMatrix k m = .ok () ↔ Spec.IsCorrelationMatrix k m := by
  have hsym : (∀ i < k, ∀ j < k, entry m i j = entry m j i) → (squareOf k m).IsHermitian := by
    intro h
    ext i j
    simp only [conjTranspose_apply, star_trivial, squareOf]
    exact h j j.2 i i.2
  constructor
  · intro h
    unfold checkMatrix at h
    split at h
    · exact absurd h (by simp)
    rename_i h1
    split at h
    · exact absurd h (by simp)
    rename_i h2
    split at h
    · exact absurd h (by simp)
    split at h
    · exact absurd h (by simp)
    rename_i h4
    split at h
    · exact absurd h (by simp)
    rename_i h5
    rw [not_not] at h1 h2 h4 h5
    refine ⟨h1.1.trans h1.2, fun r hrm => (hr r hrm).trans h1.2, h2, h5, ?_⟩
    exact (psd_iff m).1 ((eigs_nonneg_iff _ (hsym h5)).1 h4)
  · intro h
    have hne : m ≠ [] := by
      rintro rfl
      have := h.rows
      simp at this
      omega
    have hc : (m.headD []).length = k := by
      obtain ⟨a, l, rfl⟩ := List.exists_cons_of_ne_nil hne
      exact h.cols a (by simp)
    have hd : ∀ i < k, entry m i i = 1 := h.diag
    have hs : ∀ i < k, ∀ j < k, entry m i j = entry m j i := h.symm
    unfold checkMatrix
    rw [if_neg (not_not.2 ⟨h.rows.trans hc.symm, hc⟩), if_neg (not_not.2 hd), if_neg, if_neg,
      if_neg (not_not.2 hs)]
    · rw [not_not]
      exact (eigs_nonneg_iff _ (hsym h.symm)).2 ((psd_iff m).2 h.psd)
    · rw [not_not]
      intro r hrm x hx
      obtain ⟨i, hi, rfl⟩ := List.getElem_of_mem hrm
      obtain ⟨j, hj, rfl⟩ := List.getElem_of_mem hx
      have hi' : i < k := h.rows ▸ hi
      have hj' : j < k := (h.cols _ hrm) ▸ hj
      have := h.range hi' hj'
      simpa [Spec.at_, List.getD_eq_getElem?_getD, List.getElem?_eq_getElem hi,
        List.getElem?_eq_getElem hj] using this

theorem checkUngrouped_ok_iff (h : DHeap P) (vs : List ℕ) :
    checkUngrouped h vs = .ok () ↔ ∀ v ∈ vs, ∃ nd, h.nodes[v]? = some nd ∧ nd.group = none := by
  induction vs with
  | nil => simp [checkUngrouped]
  | cons v vs ih =>
    simp only [checkUngrouped, List.forall_mem_cons]
    cases hv : h.nodes[v]? with
    | none => simp
    | some nd =>
      cases hg : nd.group with
      | some g => simp [hg]
      | none => simp [hg, ih]

/-- The requested matrix is the one to be checked. -/
theorem correlate_ok_iff (h : DHeap P) (vars : List ℕ) (corr : CorrArg) (tol : Option ℝ) (mu : ℕ)
    (out : List ℕ) :
    (correlate h vars corr tol mu).1 = .ok out ↔
      2 ≤ vars.length ∧ (∀ v ∈ vars, ∃ nd, h.nodes[v]? = some nd ∧ nd.group = none) ∧
      (∃ m, toMatrix vars.length corr = .ok m ∧ checkMatrix vars.length m = .ok ()) ∧
      out = vars.map (h.nodes.length + ·) := by
  unfold correlate
  by_cases h2 : vars.length < 2
  · simp [h2, Nat.not_le.2 h2]
  · rw [if_neg h2, ← checkUngrouped_ok_iff]
    cases hu : checkUngrouped h vars with
    | error e => simp
    | ok u =>
      cases hm : toMatrix vars.length corr with
      | error e => simp
      | ok m =>
        simp only [mkGroup, List.length_map]
        cases hc : checkMatrix vars.length m with
        | error e => simp [hc]
        | ok u' =>
          simp [hc, Nat.le_of_not_lt h2, eq_comm]

theorem toMatrix_rows_ok {k : ℕ} {m m' : List (List ℝ)} (h : toMatrix k (.rows m) = .ok m') :
    m' = m ∧ m ≠ [] ∧ ∀ r ∈ m, r.length = (m.headD []).length := by
  simp only [toMatrix] at h
  split at h
  · exact absurd h (by simp)
  rename_i h1
  split at h
  · exact absurd h (by simp)
  rename_i h2
  push Not at h1
  exact ⟨(Except.ok.inj h).symm, h2, h1⟩

/-- **C34** (acceptance): `correlate(vars, rows)` succeeds exactly for at least two distributions none
of which is correlated already, and a correlation matrix of their number. -/
theorem C34_accept (h : DHeap P) (vars : List ℕ) (m : List (List ℝ)) (tol : Option ℝ) (mu : ℕ) :
    (∃ out, (correlate h vars (.rows m) tol mu).1 = .ok out) ↔
      2 ≤ vars.length ∧ (∀ v ∈ vars, ∃ nd, h.nodes[v]? = some nd ∧ nd.group = none) ∧
      Spec.IsCorrelationMatrix vars.length m := by
  simp only [correlate_ok_iff]
  constructor
  · rintro ⟨out, h2, hu, ⟨m', hm, hc⟩, -⟩
    obtain ⟨rfl, hne, hr⟩ := toMatrix_rows_ok hm
    exact ⟨h2, hu, (checkMatrix_ok_iff (by omega) hr).1 hc⟩
  · rintro ⟨h2, hu, hm⟩
    have hne : m ≠ [] := by
      rintro rfl
      have := hm.rows
      simp at this
      omega
    have hr : ∀ r ∈ m, r.length = (m.headD []).length := by
      obtain ⟨a, l, rfl⟩ := List.exists_cons_of_ne_nil hne
      intro r hrm
      rw [hm.cols r hrm]
      exact (hm.cols a (by simp)).symm
    refine ⟨_, h2, hu, ⟨m, ?_, (checkMatrix_ok_iff (by omega) hr).2 hm⟩, rfl⟩
    simp only [toMatrix]
    rw [if_neg, if_neg hne]
    push Not
    exact hr

/-- **C34** (rejections): the exception for every way of being wrong, in the order of the checks. -/
theorem C34_reject (h : DHeap P) (vars : List ℕ) (corr : CorrArg) (tol : Option ℝ) (mu : ℕ) :
    (vars.length < 2 → (correlate h vars corr tol mu).1 = .error .valueError) ∧
    (2 ≤ vars.length → (∀ v ∈ vars, ∃ nd, h.nodes[v]? = some nd) →
      (∃ v ∈ vars, ∃ nd, h.nodes[v]? = some nd ∧ nd.group ≠ none) →
      (correlate h vars corr tol mu).1 = .error .assertionError) ∧
    (2 ≤ vars.length → (∀ v ∈ vars, ∃ nd, h.nodes[v]? = some nd ∧ nd.group = none) →
      ∀ m, corr = .rows m → m ≠ [] → (∀ r ∈ m, r.length = (m.headD []).length) →
      ¬ Spec.IsCorrelationMatrix vars.length m →
      (correlate h vars corr tol mu).1 = .error .assertionError) := by
  refine ⟨fun h2 => by simp [correlate, h2], fun h2 hd hg => ?_, ?_⟩
  · have : checkUngrouped h vars = .error .assertionError := by
      clear h2
      induction vars with
      | nil => simp at hg
      | cons v vs ih =>
        obtain ⟨nd, hnd⟩ := hd v (by simp)
        simp only [checkUngrouped, hnd]
        cases hgr : nd.group with
        | some g => rfl
        | none =>
          refine ih (fun v hv => hd v (by simp [hv])) ?_
          obtain ⟨w, hw, nd', hnd', hg'⟩ := hg
          rcases List.mem_cons.1 hw with rfl | hw
          · rw [hnd] at hnd'
            obtain rfl := Option.some.inj hnd'
            exact absurd hgr hg'
          · exact ⟨w, hw, nd', hnd', hg'⟩
    unfold correlate
    rw [if_neg (by omega), this]
  · rintro h2 hu m rfl hne hr hm
    unfold correlate
    rw [if_neg (by omega), (checkUngrouped_ok_iff h vars).2 hu]
    have ht : toMatrix vars.length (.rows m) = .ok m := by
      simp only [toMatrix]
      rw [if_neg, if_neg hne]
      push Not
      exact hr
    simp only [ht, mkGroup, List.length_map]
    cases hc : checkMatrix vars.length m with
    | error e =>
      simp only []
      rw [checkMatrix_error hc]
    | ok u => exact absurd ((checkMatrix_ok_iff (by omega) hr).1 hc) hm

theorem at_const {k : ℕ} (c : ℝ) {i j : ℕ} (hi : i < k) (hj : j < k) :
    Spec.at_ (constMatrix k c) i j = if i = j then 1 else c := by
  simp [Spec.at_, constMatrix, List.getD_eq_getElem?_getD, hi, hj]

theorem linkOne_length (g : ℕ) (nodes : List (DNode P)) (v : ℕ) :
    (linkOne g nodes v).length = nodes.length := by simp [linkOne]

theorem foldl_link_get (g : ℕ) (vs : List ℕ) : ∀ (nodes : List (DNode P)) (a : ℕ),
    (vs.foldl (linkOne g) nodes)[a]? =
      (nodes[a]?).map fun nd => if a ∈ vs then { nd with group := some g } else nd := by
  induction vs with
  | nil => intro nodes a; simp
  | cons v vs ih =>
    intro nodes a
    rw [List.foldl_cons, ih, linkOne, List.getElem?_modify]
    cases nodes[a]? with
    | none => simp
    | some nd =>
      by_cases hav : v = a
      · subst hav; by_cases h2 : v ∈ vs <;> simp [h2]
      · have hva : ¬ a = v := fun h => hav h.symm
        simp [hav, hva]

/-- The heap after a successful call. -/
theorem correlate_heap {h : DHeap P} {vars : List ℕ} {corr : CorrArg} {tol : Option ℝ} {mu : ℕ}
    {out : List ℕ} (hok : (correlate h vars corr tol mu).1 = .ok out) :
    ∃ m, toMatrix vars.length corr = .ok m ∧ out = vars.map (h.nodes.length + ·) ∧
      (correlate h vars corr tol mu).2 =
        { nodes := out.foldl (linkOne h.deepcopy.groups.length) h.deepcopy.nodes
          groups := h.deepcopy.groups ++ [⟨out, ⟨m, tol, mu⟩⟩] } := by
  obtain ⟨h2, hu, ⟨m, hm, hc⟩, rfl⟩ := (correlate_ok_iff ..).1 hok
  refine ⟨m, hm, rfl, ?_⟩
  unfold correlate
  rw [if_neg (by omega), (checkUngrouped_ok_iff h vars).2 hu]
  simp only [hm, mkGroup, List.length_map, hc]

/-- **C34** (the originals): whatever the outcome, every object and every group that existed before
the call is unchanged. -/
theorem C34_originals (h : DHeap P) (vars : List ℕ) (corr : CorrArg) (tol : Option ℝ) (mu : ℕ) :
    (∀ a < h.nodes.length, (correlate h vars corr tol mu).2.nodes[a]? = h.nodes[a]?) ∧
    (∀ g < h.groups.length, (correlate h vars corr tol mu).2.groups[g]? = h.groups[g]?) := by
  have hcopy : (∀ a < h.nodes.length, h.deepcopy.nodes[a]? = h.nodes[a]?) ∧
      (∀ g < h.groups.length, h.deepcopy.groups[g]? = h.groups[g]?) := by
    constructor
    · intro a ha
      simp only [DHeap.deepcopy]
      rw [List.getElem?_append_left ha]
    · intro g hg
      simp only [DHeap.deepcopy]
      rw [List.getElem?_append_left hg]
  cases hr : (correlate h vars corr tol mu).1 with
  | ok out =>
    obtain ⟨m, -, rfl, hh⟩ := correlate_heap hr
    rw [hh]
    constructor
    · intro a ha
      simp only []
      rw [foldl_link_get, hcopy.1 a ha]
      have : a ∉ vars.map (h.nodes.length + ·) := by
        intro hm
        obtain ⟨v, -, hv⟩ := List.mem_map.1 hm
        omega
      simp [this]
    · intro g hg
      simp only []
      rw [List.getElem?_append_left, hcopy.2 g hg]
      simp only [DHeap.deepcopy, List.length_append]
      omega
  | error e =>
    have : (correlate h vars corr tol mu).2 = h ∨ (correlate h vars corr tol mu).2 = h.deepcopy := by
      revert hr
      unfold correlate
      split
      · intro _; exact .inl rfl
      · cases hu : checkUngrouped h vars with
        | error e => intro _; exact .inl rfl
        | ok u =>
          cases hm : toMatrix vars.length corr with
          | error e => intro _; exact .inl rfl
          | ok m =>
            simp only [mkGroup, List.length_map]
            cases hc : checkMatrix vars.length m with
            | error e => intro _; exact .inr rfl
            | ok u => intro hr; exact absurd hr (by simp)
    rcases this with h1 | h1 <;> rw [h1]
    · exact ⟨fun _ _ => rfl, fun _ _ => rfl⟩
    · exact hcopy

/-- **C34** (the result): as many variables as given, in order.  There is a renaming `ρ` of objects
into new objects, so that the result is the renamed input; the renamed object has the same description
and is built from the renamed parts; an object that is not one of the variables keeps its group, renamed,
or stays without one.  All results point to one new group whose members are exactly the results, in
order, with the requested tolerance. -/
theorem C34_result {h : DHeap P} {vars : List ℕ} {corr : CorrArg} {tol : Option ℝ} {mu : ℕ}
    {out : List ℕ} (hok : (correlate h vars corr tol mu).1 = .ok out) :
    ∃ (ρ : ℕ → ℕ) (g : ℕ) (m : List (List ℝ)), Function.Injective ρ ∧
      (∀ a, h.nodes.length ≤ ρ a) ∧ h.groups.length ≤ g ∧
      out = vars.map ρ ∧
      (correlate h vars corr tol mu).2.groups[g]? = some ⟨out, ⟨m, tol, mu⟩⟩ ∧
      (∀ m0, corr = .rows m0 → m = m0) ∧
      (∀ c, corr = .number c → ∀ i < vars.length, ∀ j < vars.length,
        Spec.at_ m i j = if i = j then 1 else c) ∧
      ∀ (a : ℕ) (nd : DNode P), h.nodes[a]? = some nd →
        ∃ nd', (correlate h vars corr tol mu).2.nodes[ρ a]? = some nd' ∧
          nd'.payload = nd.payload ∧ nd'.kids = nd.kids.map ρ ∧
          (a ∈ vars → nd.group = none ∧ nd'.group = some g) ∧
          (a ∉ vars → nd.group = none → nd'.group = none) ∧
          (a ∉ vars → ∀ g0 G0, nd.group = some g0 → h.groups[g0]? = some G0 →
            ∃ g', nd'.group = some g' ∧ h.groups.length ≤ g' ∧ g' ≠ g ∧
              (correlate h vars corr tol mu).2.groups[g']? = some ⟨G0.members.map ρ, G0.info⟩) := by
  obtain ⟨m, hm, hout, hh⟩ := correlate_heap hok
  obtain ⟨h2, hu, -, -⟩ := (correlate_ok_iff ..).1 hok
  refine ⟨(h.nodes.length + ·), h.deepcopy.groups.length, m, fun a b hab => by simpa using hab,
    fun a => by simp, ?_, hout, ?_, ?_, ?_, ?_⟩
  · simp only [DHeap.deepcopy, List.length_append]
    omega
  · rw [hh]
    simp
  · rintro m0 rfl
    exact (toMatrix_rows_ok hm).1
  · rintro c rfl i hi j hj
    simp only [toMatrix] at hm
    split at hm
    · obtain rfl := Except.ok.inj hm
      exact at_const c hi hj
    · exact absurd hm (by simp)
  · intro a nd hnd
    have hmem : h.nodes.length + a ∈ out ↔ a ∈ vars := by
      rw [hout]
      simp
    have hget : h.deepcopy.nodes[h.nodes.length + a]? =
        some (nd.shift h.nodes.length h.groups.length) := by
      simp only [DHeap.deepcopy]
      rw [List.getElem?_append_right (by omega)]
      simp [hnd]
    rw [hh]
    simp only [foldl_link_get, hget, Option.map_some, hmem]
    refine ⟨_, rfl, ?_, ?_, ?_, ?_, ?_⟩
    · split <;> rfl
    · split <;> rfl
    · intro ha
      simp only [ha, if_true, and_true]
      obtain ⟨nd0, hnd0, hg⟩ := hu a ha
      rw [hnd] at hnd0
      obtain rfl := Option.some.inj hnd0
      exact hg
    · intro ha hg
      simp [ha, DNode.shift, hg]
    · intro ha g0 G0 hg hG
      have hlt : g0 < h.groups.length := (List.getElem?_eq_some_iff.1 hG).1
      refine ⟨h.groups.length + g0, by simp [ha, DNode.shift, hg], by omega, ?_, ?_⟩
      · simp only [DHeap.deepcopy, List.length_append, List.length_map]
        omega
      · rw [List.getElem?_append_left (by simp [DHeap.deepcopy]; omega)]
        simp only [DHeap.deepcopy]
        rw [List.getElem?_append_right (by omega)]
        simp [hG, GNode.shift]

/-- Objects that can be reached from `a` by following operands and group members. -/
inductive DHeap.Reach (h : DHeap P) : ℕ → ℕ → Prop
  | refl (a : ℕ) : h.Reach a a
  | kid {a b c : ℕ} {nd : DNode P} : h.Reach a b → h.nodes[b]? = some nd → c ∈ nd.kids →
      h.Reach a c
  | member {a b c g : ℕ} {nd : DNode P} {G : GNode} : h.Reach a b → h.nodes[b]? = some nd →
      nd.group = some g → h.groups[g]? = some G → c ∈ G.members → h.Reach a c

/-- **C34** (independence): nothing reachable from a returned variable existed before the call: the
results share no object with the originals. -/
theorem C34_disjoint {h : DHeap P} {vars : List ℕ} {corr : CorrArg} {tol : Option ℝ} {mu : ℕ}
    {out : List ℕ} (hok : (correlate h vars corr tol mu).1 = .ok out) {a b : ℕ} (ha : a ∈ out)
    (hr : (correlate h vars corr tol mu).2.Reach a b) : h.nodes.length ≤ b := by
  obtain ⟨m, -, hout, hh⟩ := correlate_heap hok
  rw [hh] at hr
  have hout' : ∀ c ∈ out, h.nodes.length ≤ c := by
    intro c hc
    rw [hout] at hc
    obtain ⟨v, -, rfl⟩ := List.mem_map.1 hc
    omega
  have hnode : ∀ {b : ℕ} {nd : DNode P}, h.nodes.length ≤ b →
      (out.foldl (linkOne h.deepcopy.groups.length) h.deepcopy.nodes)[b]? = some nd →
      (∀ c ∈ nd.kids, h.nodes.length ≤ c) ∧
      (nd.group = some h.deepcopy.groups.length ∨ ∀ g, nd.group = some g → h.groups.length ≤ g) := by
    intro b nd hb hnd
    rw [foldl_link_get] at hnd
    simp only [DHeap.deepcopy] at hnd
    rw [List.getElem?_append_right hb, List.getElem?_map] at hnd
    cases h0 : h.nodes[b - h.nodes.length]? with
    | none => rw [h0] at hnd; simp at hnd
    | some n0 =>
      rw [h0] at hnd
      simp only [Option.map_some, Option.some.injEq] at hnd
      split at hnd
      · subst hnd
        refine ⟨?_, .inl rfl⟩
        intro c hc
        obtain ⟨c', -, rfl⟩ := List.mem_map.1 hc
        omega
      · subst hnd
        refine ⟨?_, .inr ?_⟩
        · intro c hc
          obtain ⟨c', -, rfl⟩ := List.mem_map.1 hc
          omega
        · intro g hg
          obtain ⟨g', -, rfl⟩ := Option.map_eq_some_iff.1 hg
          omega
  induction hr with
  | refl => exact hout' _ ha
  | kid _ hnd hc ih => exact (hnode ih hnd).1 _ hc
  | member _ hnd hg hG hc ih =>
    simp only [] at hG
    rename_i b c g nd G hr'
    have hgrp : h.groups.length ≤ g := by
      rcases (hnode ih hnd).2 with h1 | h1
      · rw [hg] at h1
        obtain rfl := Option.some.inj h1
        simp [DHeap.deepcopy]
      · exact h1 g hg
    by_cases hlast : g < h.deepcopy.groups.length
    · rw [List.getElem?_append_left hlast] at hG
      simp only [DHeap.deepcopy] at hG
      rw [List.getElem?_append_right hgrp, List.getElem?_map] at hG
      obtain ⟨G0, -, rfl⟩ := Option.map_eq_some_iff.1 hG
      obtain ⟨c', -, rfl⟩ := List.mem_map.1 hc
      omega
    · rw [List.getElem?_append_right (Nat.le_of_not_lt hlast)] at hG
      cases hd : g - h.deepcopy.groups.length with
      | zero =>
        rw [hd] at hG
        simp at hG
        subst hG
        exact hout' _ hc
      | succ d => rw [hd] at hG; simp at hG

/-! ## C35 -/

theorem const_quad (k : ℕ) (c : ℝ) (x : ℕ → ℝ) :
    ∑ i ∈ Finset.range k, ∑ j ∈ Finset.range k, x i * Spec.at_ (constMatrix k c) i j * x j =
      (1 - c) * ∑ i ∈ Finset.range k, x i ^ 2 + c * (∑ i ∈ Finset.range k, x i) ^ 2 := by
  have h1 : ∀ i ∈ Finset.range k,
      (∑ j ∈ Finset.range k, x i * Spec.at_ (constMatrix k c) i j * x j) =
        (1 - c) * x i ^ 2 + c * (x i * ∑ j ∈ Finset.range k, x j) := by
    intro i hi
    have hi' := Finset.mem_range.1 hi
    have : ∀ j ∈ Finset.range k, x i * Spec.at_ (constMatrix k c) i j * x j =
        (if j = i then (1 - c) * x i ^ 2 else 0) + c * (x i * x j) := by
      intro j hj
      rw [at_const c hi' (Finset.mem_range.1 hj)]
      by_cases hij : i = j
      · subst hij; simp; ring
      · simp [hij, Ne.symm hij]; ring
    rw [Finset.sum_congr rfl this, Finset.sum_add_distrib, Finset.sum_ite_eq', if_pos hi,
      Finset.mul_sum, Finset.mul_sum]
  rw [Finset.sum_congr rfl h1, Finset.sum_add_distrib, ← Finset.mul_sum, ← Finset.mul_sum,
    ← Finset.sum_mul]
  ring

/-- The constant matrix is a correlation matrix exactly if `-1/(k-1) ≤ c ≤ 1`. -/
theorem const_isCorrelation {k : ℕ} (hk : 2 ≤ k) (c : ℝ) :
    Spec.IsCorrelationMatrix k (constMatrix k c) ↔ c ≤ 1 ∧ -1 / ((k : ℝ) - 1) ≤ c := by
  have hk1 : (0 : ℝ) < (k : ℝ) - 1 := by
    have : (2 : ℝ) ≤ k := by exact_mod_cast hk
    linarith
  rw [div_le_iff₀ hk1]
  constructor
  · intro h
    have hr := h.range (i := 0) (j := 1) (by omega) (by omega)
    rw [at_const c (by omega) (by omega)] at hr
    simp only [Nat.zero_ne_one, if_false] at hr
    refine ⟨hr.2, ?_⟩
    have := h.psd (fun _ => 1)
    rw [const_quad] at this
    simp only [one_pow, Finset.sum_const, Finset.card_range, nsmul_eq_mul, mul_one] at this
    have hkp : (0 : ℝ) < k := by linarith
    have h2 : 0 ≤ (k : ℝ) * (1 + c * (k - 1)) := by nlinarith
    have := nonneg_of_mul_nonneg_right h2 hkp
    linarith
  · rintro ⟨h1, h2⟩
    refine ⟨by simp [constMatrix], ?_, ?_, ?_, ?_⟩
    · intro r hr
      obtain ⟨i, -, rfl⟩ := List.mem_map.1 hr
      simp
    · intro i hi
      rw [at_const c hi hi, if_pos rfl]
    · intro i hi j hj
      rw [at_const c hi hj, at_const c hj hi]
      simp only [eq_comm]
    · intro x
      rw [const_quad]
      have hcs : (∑ i ∈ Finset.range k, x i) ^ 2 ≤ k * ∑ i ∈ Finset.range k, x i ^ 2 := by
        have := sq_sum_le_card_mul_sum_sq (s := Finset.range k) (f := x)
        simpa using this
      have hS : 0 ≤ ∑ i ∈ Finset.range k, x i ^ 2 := Finset.sum_nonneg fun i _ => sq_nonneg _
      have hT : 0 ≤ (∑ i ∈ Finset.range k, x i) ^ 2 := sq_nonneg _
      by_cases hc : 0 ≤ c
      · have := mul_nonneg hc hT
        have := mul_nonneg (sub_nonneg.2 h1) hS
        linarith
      · push Not at hc
        have h3 : c * (k * ∑ i ∈ Finset.range k, x i ^ 2) ≤ c * (∑ i ∈ Finset.range k, x i) ^ 2 :=
          mul_le_mul_of_nonpos_left hcs hc.le
        have h4 : 0 ≤ (1 + c * ((k : ℝ) - 1)) * ∑ i ∈ Finset.range k, x i ^ 2 :=
          mul_nonneg (by linarith) hS
        nlinarith

/-- **C35**: a number is accepted as correlation of `k` uncorrelated variables exactly if it lies
strictly between -1 and 1 and is at least `-1/(k-1)`; otherwise AssertionError. -/
theorem C35_scalar (h : DHeap P) (vars : List ℕ) (c : ℝ) (tol : Option ℝ) (mu : ℕ)
    (h2 : 2 ≤ vars.length)
    (hu : ∀ v ∈ vars, ∃ nd, h.nodes[v]? = some nd ∧ nd.group = none) :
    ((∃ out, (correlate h vars (.number c) tol mu).1 = .ok out) ↔
      (-1 < c ∧ c < 1) ∧ -1 / ((vars.length : ℝ) - 1) ≤ c) ∧
    ((¬ ∃ out, (correlate h vars (.number c) tol mu).1 = .ok out) →
      (correlate h vars (.number c) tol mu).1 = .error .assertionError) := by
  have hr : ∀ r ∈ constMatrix vars.length c,
      r.length = ((constMatrix vars.length c).headD []).length := by
    have hc : ∀ r ∈ constMatrix vars.length c, r.length = vars.length := by
      intro r hr
      obtain ⟨i, -, rfl⟩ := List.mem_map.1 hr
      simp
    intro r hrm
    rw [hc r hrm, hc]
    cases hcm : constMatrix vars.length c with
    | nil => rw [hcm] at hrm; simp at hrm
    | cons a l => simp
  constructor
  · simp only [correlate_ok_iff]
    constructor
    · rintro ⟨out, -, -, ⟨m, hm, hc⟩, -⟩
      simp only [toMatrix] at hm
      split at hm
      · rename_i hb
        obtain rfl := Except.ok.inj hm
        exact ⟨hb, ((const_isCorrelation h2 c).1 ((checkMatrix_ok_iff (by omega) hr).1 hc)).2⟩
      · exact absurd hm (by simp)
    · rintro ⟨hb, hc⟩
      refine ⟨_, h2, hu, ⟨constMatrix vars.length c, by simp [toMatrix, hb], ?_⟩, rfl⟩
      exact (checkMatrix_ok_iff (by omega) hr).2 ((const_isCorrelation h2 c).2 ⟨hb.2.le, hc⟩)
  · intro hno
    revert hno
    unfold correlate
    rw [if_neg (by omega), (checkUngrouped_ok_iff h vars).2 hu]
    simp only [toMatrix]
    split
    · rename_i e he
      intro _
      split at he
      · exact absurd he (by simp)
      · rw [Except.error.inj he]
    · rename_i m hm
      simp only [mkGroup, List.length_map]
      cases hc : checkMatrix vars.length m with
      | error e => intro _; rw [checkMatrix_error hc]
      | ok u => intro hno; exact absurd ⟨_, rfl⟩ hno

/-! ## Examples -/

/-- Two plain variables. -/
def twoVars : DHeap ℕ := ⟨[⟨10, [], none⟩, ⟨20, [], none⟩], []⟩

theorem half_isCorrelation : Spec.IsCorrelationMatrix 2 [[1, 1 / 2], [1 / 2, 1]] := by
  have := (const_isCorrelation (k := 2) le_rfl (1 / 2)).2 (by norm_num)
  simpa [constMatrix, List.range_succ] using this

example : ∃ out, (correlate twoVars [0, 1] (.rows [[1, 1 / 2], [1 / 2, 1]]) (some (1 / 20)) 100).1 =
    .ok out :=
  (C34_accept ..).2 ⟨by simp, by simp [twoVars], by simpa using half_isCorrelation⟩

/-- A correlation of 2 is refused, and so is one that is not symmetric. -/
example : (correlate twoVars [0, 1] (.rows [[1, 2], [2, 1]]) none 100).1 = .error .assertionError := by
  refine (C34_reject ..).2.2 (by simp) (by simp [twoVars]) _ rfl (by simp) (by simp) ?_
  intro h
  have := (h.range (i := 0) (j := 1) (by simp) (by simp)).2
  norm_num [Spec.at_] at this

/-- Three variables cannot all be correlated with -0.6, two can. -/
example (h : DHeap P) (a b c : ℕ)
    (hu : ∀ v ∈ [a, b, c], ∃ nd, h.nodes[v]? = some nd ∧ nd.group = none) :
    (correlate h [a, b, c] (.number (-0.6)) none 100).1 = .error .assertionError ∧
    ∃ out, (correlate h [a, b] (.number (-0.6)) none 100).1 = .ok out := by
  constructor
  · refine (C35_scalar h [a, b, c] (-0.6) none 100 (by simp) hu).2 ?_
    rw [(C35_scalar h [a, b, c] (-0.6) none 100 (by simp) hu).1]
    norm_num
  · rw [(C35_scalar h [a, b] (-0.6) none 100 (by simp)
      (fun v hv => hu v (by simp at hv ⊢; tauto))).1]
    norm_num

/-! ## C74: expressions of correlated variables -/

/-- **C74 is false**: `x, y` are correlated and `z = x + 1`.  Before the call `z` leads to `y`; the
variable that `correlate((z, w), 0.5)` returns for `z` is built from a clone of `x` whose group has a
clone of `y`: nothing it leads to is `x` or `y`. -/
theorem C74_nested_fails : ∃ (h : DHeap ℕ) (x y z w z' w' : ℕ) (nd : DNode ℕ) (G : GNode),
    h.nodes[z]? = some nd ∧ nd.kids = [x] ∧ h.groups[0]? = some G ∧ G.members = [x, y] ∧
    (correlate h [z, w] (.number (1 / 2)) none 100).1 = .ok [z', w'] ∧ h.Reach z y ∧
    ∀ b, (correlate h [z, w] (.number (1 / 2)) none 100).2.Reach z' b → b ≠ x ∧ b ≠ y := by
  let h : DHeap ℕ := ⟨[⟨10, [], some 0⟩, ⟨20, [], some 0⟩, ⟨30, [0], none⟩, ⟨40, [], none⟩],
    [⟨[0, 1], ⟨[[1, 1 / 2], [1 / 2, 1]], none, 100⟩⟩]⟩
  have hok : (correlate h [2, 3] (.number (1 / 2)) none 100).1 = .ok [6, 7] := by
    obtain ⟨out, ho⟩ := ((C35_scalar h [2, 3] (1 / 2) none 100 (by simp) (by simp [h])).1).2
      (by norm_num)
    rw [ho, ((correlate_ok_iff ..).1 ho).2.2.2]
    simp [h]
  refine ⟨h, 0, 1, 2, 3, 6, 7, _, _, rfl, rfl, rfl, rfl, hok, ?_, ?_⟩
  · have h0 : h.Reach 2 0 := .kid (.refl 2) (nd := ⟨30, [0], none⟩) rfl (by simp)
    exact .member h0 (nd := ⟨10, [], some 0⟩) rfl
      rfl (G := ⟨[0, 1], ⟨[[1, 1 / 2], [1 / 2, 1]], none, 100⟩⟩) rfl (by simp)
  · intro b hb
    have := C34_disjoint hok (by simp) hb
    simp only [h, List.length_cons, List.length_nil] at this
    omega

end Verif
