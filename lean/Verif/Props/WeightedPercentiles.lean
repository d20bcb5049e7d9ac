import Verif.Props.Percentiles
import Mathlib.Tactic.FieldSimp

/-! # Weighted percentiles: C64 -/

namespace Verif
open Verif.Spec

variable {K : Type} [Field K] [LinearOrder K] [IsStrictOrderedRing K] [FloorRing K]

omit [FloorRing K] in
theorem validWeights_sum {data ws : List K} (h : ValidWeights data ws) : 0 < ws.sum := by
  obtain ⟨-, h0, w, hw, hpos⟩ := h
  have key : ∀ l : List K, (∀ x ∈ l, 0 ≤ x) → w ∈ l → w ≤ l.sum := by
    intro l
    induction l with
    | nil => intro _ h; simp at h
    | cons a l ih =>
      intro hl hm
      have hs : 0 ≤ l.sum := List.sum_nonneg fun x hx => hl x (by simp [hx])
      have ha := hl a (by simp)
      rw [List.sum_cons]
      rcases List.mem_cons.1 hm with rfl | hm
      · linarith
      · have := ih (fun x hx => hl x (by simp [hx])) hm
        linarith
  exact lt_of_lt_of_le hpos (key ws h0 hw)

/-- The weighted points in the order of the data. -/
def sortedPairs (argsort : List K → List ℕ) (data ws : List K) : List (K × K) :=
  (argsort data).map fun i => (ws.getD i 0, data.getD i 0)

theorem weighted_one (argsort : List K → List ℕ) (data ws : List K) (h : ValidWeights data ws)
    (p : K) (rev : Bool) (r : PctResult K) :
    getPercentiles argsort data (.one p) (some ws) rev none = .ok r ↔
      ∃ v, interp (p / 100) (knots ws.sum 0 (sortedPairs argsort data ws)) = .ok v ∧ r = .one (.flt v) := by
  have hd : data ≠ [] := by
    rintro rfl
    obtain ⟨h1, -, w, hw, -⟩ := h
    rw [List.length_nil, eq_comm, List.length_eq_zero_iff] at h1
    subst h1
    simp at hw
  have hW : weightedPercentile argsort data ws [p] =
      mapExcept (fun p => interp (p / 100) (knots ws.sum 0 (sortedPairs argsort data ws))) [p] := by
    unfold weightedPercentile
    rw [if_neg (not_not.2 h.1), if_neg hd, if_neg]
    · rfl
    · rintro (⟨w, hw, h1⟩ | h1)
      · exact absurd (h.2.1 w hw) (not_le.2 h1)
      · exact absurd h1 (validWeights_sum h).ne'
  unfold getPercentiles
  simp only [PctArg.toList, List.reverse_singleton, ite_self, hW, mapExcept]
  cases hI : interp (p / 100) (knots ws.sum 0 (sortedPairs argsort data ws)) with
  | error e =>
    constructor
    · rintro ⟨⟩
    · rintro ⟨v, ⟨⟩, -⟩
  | ok v =>
    show Except.ok (PctResult.one (.flt v)) = .ok r ↔ _
    simp only [Except.ok.injEq, exists_eq_left']
    exact eq_comm

omit [IsStrictOrderedRing K] [FloorRing K] in
/-- What is known of the sorted points. -/
theorem sortedPairs_props {argsort : List K → List ℕ} (hA : ∀ d, IsArgsortOf d (argsort d))
    {data ws : List K} (h : ValidWeights data ws) :
    (sortedPairs argsort data ws).Perm (ws.zip data) ∧
    (sortedPairs argsort data ws).Pairwise (fun p q => p.2 ≤ q.2) ∧
    (∀ p ∈ sortedPairs argsort data ws, 0 ≤ p.1) ∧
    ((sortedPairs argsort data ws).map Prod.snd).Perm data ∧
    ((sortedPairs argsort data ws).map Prod.fst).sum = ws.sum := by
  obtain ⟨h1, h2⟩ := argsort_pairs h.1 (hA data)
  refine ⟨h1, h2, fun p hp => ?_, ?_, ?_⟩
  · have := h1.subset hp
    exact h.2.1 _ (List.of_mem_zip (by exact this) |>.1)
  · have := h1.map Prod.snd
    rwa [List.map_snd_zip (by rw [h.1])] at this
  · have := (h1.map Prod.fst).sum_eq
    rwa [List.map_fst_zip (by rw [h.1])] at this

theorem sortedPairs_cons {argsort : List K → List ℕ} (hA : ∀ d, IsArgsortOf d (argsort d))
    {data ws : List K} (h : ValidWeights data ws) :
    ∃ w d rest, sortedPairs argsort data ws = (w, d) :: rest := by
  cases hs : sortedPairs argsort data ws with
  | nil =>
    have := (sortedPairs_props hA h).2.2.2.2
    rw [hs] at this
    exact absurd this (validWeights_sum h).ne
  | cons a rest => exact ⟨a.1, a.2, rest, rfl⟩

/-- **C64**: for valid weights there is a weighted percentile, between two data points. -/
theorem C64_bounds (argsort : List K → List ℕ) (hA : ∀ d, IsArgsortOf d (argsort d)) (data ws : List K)
    (h : ValidWeights data ws) (p : K) (rev : Bool) :
    ∃ v, getPercentiles argsort data (.one p) (some ws) rev none = .ok (.one (.flt v)) ∧
      (∃ x ∈ data, x ≤ v) ∧ ∃ x ∈ data, v ≤ x := by
  obtain ⟨h1, h2, h3, h4, h5⟩ := sortedPairs_props hA h
  obtain ⟨w, d, rest, hs⟩ := sortedPairs_cons hA h
  have hinc := knots_increasing ws.sum (validWeights_sum h) _ 0 h3 h2
  have hord := knots_ordinates ws.sum (sortedPairs argsort data ws) 0
  have hmem : ∀ q ∈ knots ws.sum 0 (sortedPairs argsort data ws), q.2 ∈ data := fun q hq =>
    h4.subset (by rw [← hord]; exact List.mem_map_of_mem hq)
  rw [hs, knots] at hinc
  obtain ⟨v, hv, hlow, hup⟩ := interp_bounds (p / 100) _ _ _ hinc
  refine ⟨v, (weighted_one argsort data ws h p rev _).2 ⟨v, by rw [hs, knots]; exact hv, rfl⟩, ?_, ?_⟩
  · exact ⟨d, h4.subset (by rw [hs]; simp), hlow⟩
  · have hne : data.toFinset.Nonempty := ⟨d, by simpa using h4.subset (by rw [hs]; simp)⟩
    refine ⟨data.toFinset.max' hne, by simpa using data.toFinset.max'_mem hne, hup _ fun q hq => ?_⟩
    exact data.toFinset.le_max' _ (by simpa using hmem q (by rw [hs, knots]; exact hq))

/-- **C64**: a higher percentile is not smaller. -/
theorem C64_monotone (argsort : List K → List ℕ) (hA : ∀ d, IsArgsortOf d (argsort d)) (data ws : List K)
    (h : ValidWeights data ws) (p q v w : K) (hpq : p ≤ q)
    (hv : getPercentiles argsort data (.one p) (some ws) = .ok (.one (.flt v)))
    (hw : getPercentiles argsort data (.one q) (some ws) = .ok (.one (.flt w))) : v ≤ w := by
  obtain ⟨h1, h2, h3, h4, h5⟩ := sortedPairs_props hA h
  obtain ⟨w', d, rest, hs⟩ := sortedPairs_cons hA h
  have hinc := knots_increasing ws.sum (validWeights_sum h) _ 0 h3 h2
  obtain ⟨v', hv', e⟩ := (weighted_one argsort data ws h p _ _).1 hv
  injection e with e; injection e with e; subst e
  obtain ⟨w'', hw', e⟩ := (weighted_one argsort data ws h q _ _).1 hw
  injection e with e; injection e with e; subst e
  rw [hs, knots] at hinc hv' hw'
  exact interp_mono _ _ (div_le_div_of_nonneg_right hpq (by norm_num)) _ _ _ hinc _ _ hv' hw'

omit [LinearOrder K] [IsStrictOrderedRing K] [FloorRing K] in
theorem knots_scale (c : K) (hc : c ≠ 0) (T : K) : ∀ (A : List (K × K)) (acc : K),
    knots (c * T) (c * acc) (A.map fun p => (c * p.1, p.2)) = knots T acc A
  | [], acc => rfl
  | (w, d) :: A, acc => by
    simp only [List.map_cons, knots]
    rw [show c * acc + c * w = c * (acc + w) by ring, knots_scale c hc T A,
      show (c * (acc + w) - 1 / 2 * (c * w)) = c * (acc + w - 1 / 2 * w) by ring,
      mul_div_mul_left _ _ hc]

/-- **C64**: multiplying all weights by the same positive number changes nothing. -/
theorem C64_scale (argsort : List K → List ℕ) (data ws : List K) (c : K) (hc : 0 < c)
    (ps : PctArg K) (rev : Bool) (digits : Option ℤ) :
    getPercentiles argsort data ps (some (ws.map (c * ·))) rev digits =
      getPercentiles argsort data ps (some ws) rev digits := by
  have hW : ∀ qs, weightedPercentile argsort data (ws.map (c * ·)) qs =
      weightedPercentile argsort data ws qs := by
    intro qs
    have hsum : (ws.map (c * ·)).sum = c * ws.sum := by
      simpa using List.sum_map_mul_left ws (fun x => x) c
    have hneg : (∃ w ∈ ws.map (c * ·), w < 0) ↔ ∃ w ∈ ws, w < 0 := by
      simp only [List.mem_map, exists_exists_and_eq_and]
      constructor <;> rintro ⟨w, hw, h⟩ <;> refine ⟨w, hw, ?_⟩
      · by_contra h'
        exact absurd (mul_nonneg hc.le (not_lt.1 h')) (not_le.2 h)
      · exact mul_neg_of_pos_of_neg hc h
    have hzero : c * ws.sum = 0 ↔ ws.sum = 0 := by simp [hc.ne']
    have hpairs : ((argsort data).map fun i => ((ws.map (c * ·)).getD i 0, data.getD i 0)) =
        ((argsort data).map fun i => (ws.getD i 0, data.getD i 0)).map fun p => (c * p.1, p.2) := by
      rw [List.map_map]
      apply List.map_congr_left
      intro i _
      simp only [Function.comp, Prod.mk.injEq, and_true]
      by_cases hi : i < ws.length
      · rw [List.getD_eq_getElem _ _ (by simpa using hi), List.getD_eq_getElem _ _ hi, List.getElem_map]
      · rw [List.getD_eq_default _ _ (by simpa using hi), List.getD_eq_default _ _ (by simpa using hi),
          mul_zero]
    unfold weightedPercentile
    simp only [List.length_map, hneg, hsum, hzero, hpairs]
    have := knots_scale c hc.ne' ws.sum ((argsort data).map fun i => (ws.getD i 0, data.getD i 0)) 0
    rw [mul_zero] at this
    rw [this]
  unfold getPercentiles
  simp only [hW]

omit [FloorRing K] in
/-- At a knot of strictly increasing knots, the ordinate. -/
theorem interp_at (A : List (K × K)) (a f : K) (l : List (K × K))
    (h : (A ++ (a, f) :: l).Pairwise (fun p q => p.1 < q.1)) :
    interp a (A ++ (a, f) :: l) = .ok f := by
  rw [interp_skip a A a f l (h.imp fun h => h.le) le_rfl]
  cases l with
  | nil => rfl
  | cons b l =>
    obtain ⟨b, g⟩ := b
    have hab : a < b := (List.pairwise_cons.1 (List.pairwise_append.1 h).2.1).1 (b, g) (by simp)
    rw [interp, if_neg (lt_irrefl a), if_neg (not_le.2 hab)]
    simp

omit [LinearOrder K] [IsStrictOrderedRing K] [FloorRing K] in
theorem sum_filter_perm (P : K × K → Bool) {A B : List (K × K)} (h : A.Perm B) :
    ((A.filter P).map Prod.fst).sum = ((B.filter P).map Prod.fst).sum :=
  ((h.filter P).map _).sum_eq

omit [FloorRing K] in
theorem midRank_perm {A B : List (K × K)} (h : A.Perm B) (x : K) : midRank A x = midRank B x := by
  unfold midRank
  rw [sum_filter_perm _ h, sum_filter_perm _ h, (h.map Prod.fst).sum_eq]

omit [FloorRing K] in
theorem midRank_split (A B : List (K × K)) (w x : K) (hA : ∀ p ∈ A, p.2 < x) (hB : ∀ p ∈ B, x < p.2) :
    midRank (A ++ (w, x) :: B) x / 100 =
      ((A.map Prod.fst).sum + w - 1 / 2 * w) / ((A ++ (w, x) :: B).map Prod.fst).sum := by
  have e1 : (A ++ (w, x) :: B).filter (fun p => p.2 < x) = A := by
    rw [List.filter_append, List.filter_cons_of_neg (by simp), List.filter_eq_self.2 (by simpa using hA),
      List.filter_eq_nil_iff.2, List.append_nil]
    intro p hp
    simpa using (hB p hp).le
  have e2 : (A ++ (w, x) :: B).filter (fun p => p.2 = x) = [(w, x)] := by
    rw [List.filter_append, List.filter_cons_of_pos (by simp), List.filter_eq_nil_iff.2,
      List.filter_eq_nil_iff.2]
    · rfl
    · intro p hp; simpa using (hB p hp).ne'
    · intro p hp; simpa using (hA p hp).ne
  unfold midRank
  rw [e1, e2]
  simp only [List.map_cons, List.map_nil, List.sum_cons, List.sum_nil, add_zero]
  ring

/-- Distinct data, positive weights: the sorted points around a datum. -/
theorem split_at {argsort : List K → List ℕ} (hA : ∀ d, IsArgsortOf d (argsort d))
    {data ws : List K} (h : ValidWeights data ws) (hnd : data.Nodup) {x : K} (hx : x ∈ data) :
    ∃ A w B, sortedPairs argsort data ws = A ++ (w, x) :: B ∧ (∀ p ∈ A, p.2 < x) ∧ ∀ p ∈ B, x < p.2 := by
  obtain ⟨h1, h2, h3, h4, h5⟩ := sortedPairs_props hA h
  have hx' := h4.symm.subset hx
  obtain ⟨⟨w, x'⟩, hp, rfl⟩ := List.mem_map.1 hx'
  obtain ⟨A, B, hs⟩ := List.append_of_mem hp
  have hnd' : ((sortedPairs argsort data ws).map Prod.snd).Nodup := h4.symm.nodup hnd
  rw [hs] at h2 hnd'
  rw [List.map_append, List.nodup_append] at hnd'
  obtain ⟨-, b, c⟩ := hnd'
  rw [List.map_cons, List.nodup_cons] at b
  refine ⟨A, w, B, hs, fun p hp => ?_, fun p hp => ?_⟩
  · refine lt_of_le_of_ne ((List.pairwise_append.1 h2).2.2 p hp _ (by simp)) ?_
    exact c p.2 (List.mem_map_of_mem hp) _ (by simp)
  · refine lt_of_le_of_ne ((List.pairwise_cons.1 (List.pairwise_append.1 h2).2.1).1 p hp) fun e => b.1 ?_
    simp only at e ⊢
    rw [e]
    exact List.mem_map_of_mem hp

theorem pos_pairs {argsort : List K → List ℕ} (hA : ∀ d, IsArgsortOf d (argsort d))
    {data ws : List K} (h : ValidWeights data ws) (hpos : ∀ w ∈ ws, 0 < w) :
    ∀ p ∈ sortedPairs argsort data ws, 0 < p.1 := fun p hp =>
  hpos _ (List.of_mem_zip ((sortedPairs_props hA h).1.subset hp) |>.1)

/-- **C64** (what the weighted percentile is): for distinct data and positive weights, the percentile at
the middle of a datum's own share of the weight is that datum; between two neighbouring data it is
linear; below the lowest and above the highest it is constant. -/
theorem C64_value (argsort : List K → List ℕ) (hA : ∀ d, IsArgsortOf d (argsort d)) (data ws : List K)
    (h : ValidWeights data ws) (hpos : ∀ w ∈ ws, 0 < w) (hnd : data.Nodup) :
    (∀ x ∈ data, getPercentiles argsort data (.one (midRank (ws.zip data) x)) (some ws) =
      .ok (.one (.flt x))) ∧
    (∀ x y t, Neighbours data x y → 0 ≤ t → t ≤ 1 →
      getPercentiles argsort data
        (.one ((1 - t) * midRank (ws.zip data) x + t * midRank (ws.zip data) y)) (some ws) =
        .ok (.one (.flt ((1 - t) * x + t * y)))) ∧
    (∀ x p, x ∈ data → (∀ z ∈ data, x ≤ z) → p ≤ midRank (ws.zip data) x →
      getPercentiles argsort data (.one p) (some ws) = .ok (.one (.flt x))) ∧
    (∀ x p, x ∈ data → (∀ z ∈ data, z ≤ x) → midRank (ws.zip data) x ≤ p →
      getPercentiles argsort data (.one p) (some ws) = .ok (.one (.flt x))) := by
  obtain ⟨h1, h2, h3, h4, h5⟩ := sortedPairs_props hA h
  have hT := validWeights_sum h
  have hstrict := knots_strict ws.sum hT _ 0 (pos_pairs hA h hpos)
  have hknot : ∀ A w x B, sortedPairs argsort data ws = A ++ (w, x) :: B → (∀ p ∈ A, p.2 < x) →
      (∀ p ∈ B, x < p.2) → (0 + (A.map Prod.fst).sum + w - 1 / 2 * w) / ws.sum =
        midRank (ws.zip data) x / 100 := by
    intro A w x B hs ha hb
    rw [← midRank_perm h1, hs, midRank_split A B w x ha hb, ← hs, h5, zero_add]
  have hat : ∀ x ∈ data, getPercentiles argsort data (.one (midRank (ws.zip data) x)) (some ws) =
      .ok (.one (.flt x)) := by
    intro x hx
    obtain ⟨A, w, B, hs, ha, hb⟩ := split_at hA h hnd hx
    refine (weighted_one argsort data ws h _ _ _).2 ⟨x, ?_, rfl⟩
    rw [hs, knots_append, knots] at hstrict ⊢
    rw [hknot A w x B hs ha hb] at hstrict ⊢
    exact interp_at _ _ _ _ hstrict
  refine ⟨hat, ?_, ?_, ?_⟩
  · rintro x y t ⟨hx, hy, hxy, hbetween⟩ h0 h1t
    obtain ⟨A, w, B, hs, ha, hb⟩ := split_at hA h hnd hx
    refine (weighted_one argsort data ws h _ _ _).2 ⟨_, ?_, rfl⟩
    -- the next point is `y`
    obtain ⟨wy, B', rfl⟩ : ∃ wy B', B = (wy, y) :: B' := by
      have hy' := h4.symm.subset hy
      rw [hs] at hy' h2 h4
      cases B with
      | nil =>
        simp only [List.map_append, List.map_cons, List.map_nil, List.mem_append, List.mem_singleton] at hy'
        rcases hy' with hy' | rfl
        · obtain ⟨p, hp, rfl⟩ := List.mem_map.1 hy'
          exact absurd (ha p hp) (not_lt.2 hxy.le)
        · exact absurd hxy (lt_irrefl _)
      | cons b B' =>
        obtain ⟨wb, db⟩ := b
        refine ⟨wb, B', ?_⟩
        have hdb : y ≤ db := by
          have hm : db ∈ data := h4.subset (by simp)
          rcases hbetween db hm with hle | hle
          · exact absurd (hb (wb, db) (by simp)) (not_lt.2 hle)
          · exact hle
        have : db ≤ y := by
          simp only [List.map_append, List.map_cons, List.mem_append, List.mem_cons] at hy'
          rcases hy' with hy' | rfl | rfl | hy'
          · obtain ⟨p, hp, rfl⟩ := List.mem_map.1 hy'
            exact absurd (ha p hp) (not_lt.2 hxy.le)
          · exact absurd hxy (lt_irrefl _)
          · exact le_rfl
          · obtain ⟨p, hp, rfl⟩ := List.mem_map.1 hy'
            exact (List.pairwise_cons.1 (List.pairwise_cons.1 (List.pairwise_append.1 h2).2.1).2).1 p hp
        rw [le_antisymm this hdb]
    have hs' : sortedPairs argsort data ws = (A ++ [(w, x)]) ++ (wy, y) :: B' := by rw [hs]; simp
    have hsorted := h2
    rw [hs'] at hsorted
    have hlty : ∀ p ∈ A ++ [(w, x)], p.2 < y := by
      intro p hp
      rcases List.mem_append.1 hp with hp | hp
      · exact (ha p hp).trans hxy
      · rw [List.mem_singleton.1 hp]; exact hxy
    have hgty : ∀ p ∈ B', y < p.2 := by
      intro p hp
      refine lt_of_le_of_ne ((List.pairwise_cons.1 (List.pairwise_append.1 hsorted).2.1).1 p hp) ?_
      intro e
      have hnd' : ((sortedPairs argsort data ws).map Prod.snd).Nodup := h4.symm.nodup hnd
      rw [hs', List.map_append, List.nodup_append, List.map_cons, List.nodup_cons] at hnd'
      apply hnd'.2.1.1
      simp only at e ⊢
      rw [e]
      exact List.mem_map_of_mem hp
    have k1 := hknot A w x ((wy, y) :: B') hs ha hb
    have k2 := hknot (A ++ [(w, x)]) wy y B' hs' hlty hgty
    rw [List.map_append, List.sum_append, List.map_singleton, List.sum_singleton, ← add_assoc] at k2
    rw [hs, knots_append, knots, knots, k1, k2] at hstrict ⊢
    have hr : midRank (ws.zip data) x / 100 < midRank (ws.zip data) y / 100 :=
      (List.pairwise_cons.1 (List.pairwise_append.1 hstrict).2.1).1 (_, y) (by simp)
    set rx := midRank (ws.zip data) x
    set ry := midRank (ws.zip data) y
    rw [interp_segment _ _ _ _ _ _ _ hstrict]
    · have hne : ry / 100 - rx / 100 ≠ 0 := by linarith
      have e : ((1 - t) * rx + t * ry) / 100 - rx / 100 = t * (ry / 100 - rx / 100) := by ring
      rw [e, mul_comm t, ← mul_assoc, div_mul_cancel₀ _ hne]
      congr 1
      ring
    · have e : ((1 - t) * rx + t * ry) / 100 = rx / 100 + t * (ry / 100 - rx / 100) := by ring
      rw [e]
      nlinarith
    · have e : ((1 - t) * rx + t * ry) / 100 = ry / 100 - (1 - t) * (ry / 100 - rx / 100) := by ring
      rw [e]
      nlinarith
  · intro x p hx hmin hp
    obtain ⟨v, hv, ⟨z, hz, hzv⟩, -⟩ := C64_bounds argsort hA data ws h p false
    have := C64_monotone argsort hA data ws h _ _ v x hp hv (hat x hx)
    rw [hv, le_antisymm this ((hmin z hz).trans hzv)]
  · intro x p hx hmax hp
    obtain ⟨v, hv, -, ⟨z, hz, hzv⟩⟩ := C64_bounds argsort hA data ws h p false
    have := C64_monotone argsort hA data ws h _ _ x v hp (hat x hx) hv
    rw [hv, le_antisymm (hzv.trans (hmax z hz)) this]

/-- **C64** (order of the data): for distinct data, permuting the data together with the weights changes
nothing, even if the two calls sort differently. -/
theorem C64_permutation_partial (argsort argsort' : List K → List ℕ) (hA : ∀ d, IsArgsortOf d (argsort d))
    (hA' : ∀ d, IsArgsortOf d (argsort' d)) (data ws data' ws' : List K) (h : ValidWeights data ws)
    (h' : ValidWeights data' ws') (hnd : data.Nodup) (hp : (ws.zip data).Perm (ws'.zip data'))
    (ps : PctArg K) (rev : Bool) (digits : Option ℤ) :
    getPercentiles argsort data ps (some ws) rev digits =
      getPercentiles argsort' data' ps (some ws') rev digits := by
  obtain ⟨h1, h2, -, h4, h5⟩ := sortedPairs_props hA h
  obtain ⟨h1', h2', -, h4', h5'⟩ := sortedPairs_props hA' h'
  have hpp : (sortedPairs argsort data ws).Perm (sortedPairs argsort' data' ws') :=
    (h1.trans hp).trans h1'.symm
  have hinj : ∀ a ∈ sortedPairs argsort data ws, ∀ b ∈ sortedPairs argsort data ws, a.2 = b.2 → a = b :=
    List.inj_on_of_nodup_map (h4.symm.nodup hnd)
  have hsp : sortedPairs argsort data ws = sortedPairs argsort' data' ws' := by
    refine hpp.eq_of_pairwise (le := fun p q => p.2 ≤ q.2) ?_ h2 h2'
    intro a b ha hb hab hba
    exact hinj a ha b (hpp.symm.subset hb) (le_antisymm hab hba)
  have hsum : ws.sum = ws'.sum := by rw [← h5, ← h5', hsp]
  have hne : ∀ (d w : List K), ValidWeights d w → d ≠ [] := by
    rintro _ w ⟨hl, -, x, hx, -⟩ rfl
    rw [List.length_nil, eq_comm, List.length_eq_zero_iff] at hl
    subst hl; simp at hx
  have hW : ∀ qs, weightedPercentile argsort data ws qs = weightedPercentile argsort' data' ws' qs := by
    intro qs
    have e : ∀ (as : List K → List ℕ) (d w : List K), ValidWeights d w →
        weightedPercentile as d w qs =
          mapExcept (fun p => interp (p / 100) (knots w.sum 0 (sortedPairs as d w))) qs := by
      intro as d w hv
      unfold weightedPercentile
      rw [if_neg (not_not.2 hv.1), if_neg (hne d w hv), if_neg]
      · rfl
      · rintro (⟨w, hw, h1⟩ | h1)
        · exact absurd (hv.2.1 w hw) (not_le.2 h1)
        · exact absurd h1 (validWeights_sum hv).ne'
    rw [e _ _ _ h, e _ _ _ h', hsp, hsum]
  unfold getPercentiles
  simp only [hW]

/-- **C64 fails** with equal data: `[0, 1, 1]` with weights `[1, 1, 3]` or `[1, 3, 1]` is the same
weighted data, yet one of the 20th percentiles is ½ and the other ¼, whichever sorting is used. -/
theorem C64_permutation_fails (argsort : List ℚ → List ℕ) (hA : ∀ d, IsArgsortOf d (argsort d)) :
    ([1, 1, 3].zip [(0 : ℚ), 1, 1]).Perm ([1, 3, 1].zip [(0 : ℚ), 1, 1]) ∧
    getPercentiles argsort [(0 : ℚ), 1, 1] (.one 20) (some [1, 1, 3]) ≠
      getPercentiles argsort [(0 : ℚ), 1, 1] (.one 20) (some [1, 3, 1]) := by
  have v1 : ValidWeights [(0 : ℚ), 1, 1] [1, 1, 3] :=
    ⟨rfl, by intro w hw; fin_cases hw <;> norm_num, 1, by simp, by norm_num⟩
  have v2 : ValidWeights [(0 : ℚ), 1, 1] [1, 3, 1] :=
    ⟨rfl, by intro w hw; fin_cases hw <;> norm_num, 1, by simp, by norm_num⟩
  refine ⟨by decide, ?_⟩
  have hsort : argsort [(0 : ℚ), 1, 1] = [0, 1, 2] ∨ argsort [(0 : ℚ), 1, 1] = [0, 2, 1] := by
    obtain ⟨h1, h2⟩ := hA [(0 : ℚ), 1, 1]
    have h1 : argsort [(0 : ℚ), 1, 1] ∈ ([0, 1, 2] : List ℕ).permutations := List.mem_permutations.2 h1
    generalize argsort [(0 : ℚ), 1, 1] = o at *
    simp only [List.permutations, List.permutationsAux, List.permutationsAux.rec, List.permutationsAux2,
      List.foldr] at h1
    fin_cases h1 <;> simp at h2 ⊢ <;> norm_num at h2
  rcases hsort with hsort | hsort
  · have e1 : getPercentiles argsort [(0 : ℚ), 1, 1] (.one 20) (some [1, 1, 3]) =
        .ok (.one (.flt (1 / 2))) := by
      refine (weighted_one _ _ _ v1 _ _ _).2 ⟨1 / 2, ?_, rfl⟩
      unfold sortedPairs
      rw [hsort]
      norm_num [knots, interp]
    have e2 : getPercentiles argsort [(0 : ℚ), 1, 1] (.one 20) (some [1, 3, 1]) =
        .ok (.one (.flt (1 / 4))) := by
      refine (weighted_one _ _ _ v2 _ _ _).2 ⟨1 / 4, ?_, rfl⟩
      unfold sortedPairs
      rw [hsort]
      norm_num [knots, interp]
    rw [e1, e2]
    norm_num
  · have e1 : getPercentiles argsort [(0 : ℚ), 1, 1] (.one 20) (some [1, 1, 3]) =
        .ok (.one (.flt (1 / 4))) := by
      refine (weighted_one _ _ _ v1 _ _ _).2 ⟨1 / 4, ?_, rfl⟩
      unfold sortedPairs
      rw [hsort]
      norm_num [knots, interp]
    have e2 : getPercentiles argsort [(0 : ℚ), 1, 1] (.one 20) (some [1, 3, 1]) =
        .ok (.one (.flt (1 / 2))) := by
      refine (weighted_one _ _ _ v2 _ _ _).2 ⟨1 / 2, ?_, rfl⟩
      unfold sortedPairs
      rw [hsort]
      norm_num [knots, interp]
    rw [e1, e2]
    norm_num

/-- **C64** (equal weights): with all weights equal, the percentile `p` is the unweighted percentile `q`
where `n·p - 50 = (n-1)·q`; so the median is the same, and only the median in general. -/
theorem C64_equal_weights (argsort : List K → List ℕ) (hA : ∀ d, IsArgsortOf d (argsort d))
    (data : List K) (hd : data ≠ []) (c : K) (hc : 0 < c) (p q v : K)
    (hpq : data.length * p - 50 = (data.length - 1) * q) (h0 : 0 ≤ q) (h1 : q ≤ 100) :
    getPercentiles argsort data (.one p) (some (List.replicate data.length c)) = .ok (.one (.flt v)) ↔
    getPercentiles argsort data (.one q) = .ok (.one (.flt v)) := by
  set n := data.length with hn
  have hn0 : 0 < n := List.length_pos_iff.2 hd
  have hnK : (0 : K) < n := by exact_mod_cast hn0
  have hvalid : ValidWeights data (List.replicate n c) := by
    refine ⟨by simp [hn], fun w hw => ?_, c, ?_, hc⟩
    · rw [(List.mem_replicate.1 hw).2]; exact hc.le
    · simp [hn0.ne']
  have hT : (List.replicate n c).sum = n * c := by simp
  obtain ⟨g1, g2, g3, g4, g5⟩ := sortedPairs_props hA hvalid
  set S := sortedPairs argsort data (List.replicate n c) with hS
  set s := S.map Prod.snd with hs
  have hSs : S = s.map fun x => (c, x) := by
    rw [hs, List.map_map]
    conv_lhs => rw [← List.map_id S]
    apply List.map_congr_left
    intro a ha
    have := (List.of_mem_zip (g1.subset ha : (a.1, a.2) ∈ _)).1
    rw [List.mem_replicate] at this
    exact Prod.ext this.2 rfl
  have hsl : s.length = n := g4.length_eq
  have hsorted : s.Pairwise (· ≤ ·) := by rw [hs, List.pairwise_map]; exact g2
  have hstrict := knots_strict (n * c) (by positivity) S 0
    (fun a ha => by rw [hSs] at ha; obtain ⟨x, -, rfl⟩ := List.mem_map.1 ha; exact hc)
  -- the weighted percentile of the position
  have key : ∀ u, IsPercentile data q u →
      interp (p / 100) (knots (n * c) 0 S) = .ok u := by
    intro u hu
    obtain ⟨s', k, t, a1, a2, a3, a4, a5, a6, a7, rfl⟩ := hu
    have : s' = s := (a1.trans g4.symm).eq_of_pairwise (fun _ _ _ _ h1 h2 => le_antisymm h1 h2) a2 hsorted
    subst this
    rw [hsl] at a7
    have hpos : p / 100 = (k + t + 1 / 2) / n := by
      rw [← a7]
      field_simp
      linarith
    have hsum : ∀ l : List K, ((l.map fun x => (c, x)).map Prod.fst).sum = l.length * c := by
      intro l; simp [List.map_map, Function.comp_def]
    have hsplit : s = s.take k ++ s[k] :: s.drop (k + 1) := by
      rw [List.getElem_cons_drop, List.take_append_drop]
    have hlk : ((s.take k).length : K) = k := by rw [List.length_take, min_eq_left a3.le]
    have hkn : ∀ j : K, (0 + j * c + c - 1 / 2 * c) / (n * c) = (j + 1 / 2) / n := by
      intro j
      field_simp
      ring
    have hK : knots (n * c) 0 S = knots (n * c) 0 ((s.take k).map fun x => (c, x)) ++
        (((k : K) + 1 / 2) / n, s[k]) ::
          knots (n * c) (0 + k * c + c) ((s.drop (k + 1)).map fun x => (c, x)) := by
      conv_lhs => rw [hSs, hsplit]
      rw [List.map_append, List.map_cons, knots_append, knots, hsum, hlk, hkn]
    rw [hK] at hstrict ⊢
    rw [List.getD_eq_getElem _ _ a3]
    rcases eq_or_lt_of_le a4 with ht | ht
    · subst ht
      rw [hpos, add_zero, interp_at _ _ _ _ hstrict]
      congr 1; ring
    · have h6 : k + 1 < s.length := by
        rcases a6 with h6 | h6
        · exact absurd h6 ht.ne'
        · exact h6
      rw [List.getD_eq_getElem _ _ h6]
      rw [List.drop_eq_getElem_cons h6, List.map_cons, knots] at hstrict ⊢
      have hk2 : (0 + (k : K) * c + c + c - 1 / 2 * c) / (n * c) = ((k : K) + 1 + 1 / 2) / n := by
        rw [← hkn]; ring
      rw [hk2] at hstrict ⊢
      rw [interp_segment _ _ _ _ _ _ _ hstrict, hpos]
      · congr 1
        field_simp
        ring
      · rw [hpos]; exact div_le_div_of_nonneg_right (by linarith) hnK.le
      · rw [hpos]; exact div_le_div_of_nonneg_right (by linarith) hnK.le
  rw [C63_value, weighted_one _ _ _ hvalid, hT]
  constructor
  · rintro ⟨u, hu, e⟩
    injection e with e; injection e with e; subst e
    have hex := isPercentile_percentileAt data hd q h0 h1
    have := key _ hex
    rw [this] at hu
    injection hu with hu
    exact ⟨hd, h0, h1, hu ▸ hex⟩
  · rintro ⟨-, -, -, hv⟩
    exact ⟨v, key v hv, rfl⟩

/-- **C64**: with equal weights the median is the unweighted median. -/
theorem C64_equal_weights_median (argsort : List K → List ℕ) (hA : ∀ d, IsArgsortOf d (argsort d))
    (data : List K) (hd : data ≠ []) (c : K) (hc : 0 < c) (v : K) :
    getPercentiles argsort data (.one 50) (some (List.replicate data.length c)) = .ok (.one (.flt v)) ↔
    getPercentiles argsort data (.one 50) = .ok (.one (.flt v)) :=
  C64_equal_weights argsort hA data hd c hc 50 50 v (by ring) (by norm_num) (by norm_num)

/-- **C64** (refused): different numbers of data and weights. -/
theorem C64_length_mismatch (argsort : List K → List ℕ) (data ws : List K) (h : data.length ≠ ws.length)
    (ps : PctArg K) (rev : Bool) (digits : Option ℤ) :
    getPercentiles argsort data ps (some ws) rev digits = .error .valueError := by
  have hw : ∀ qs, weightedPercentile argsort data ws qs = .error .valueError := fun qs => if_pos h
  unfold getPercentiles
  simp only [hw]
  rfl

/-! #### The hypotheses are met -/

omit [IsStrictOrderedRing K] [FloorRing K] in
/-- A lawful sorting function exists (insertion sort on the positions). -/
theorem exists_argsort : ∃ f : List K → List ℕ, ∀ d, IsArgsortOf d (f d) := by
  classical
  refine ⟨fun d => (List.range d.length).insertionSort fun i j => d.getD i 0 ≤ d.getD j 0, fun d => ?_⟩
  have : Std.Total (fun i j : ℕ => d.getD i 0 ≤ d.getD j 0) := ⟨fun i j => le_total _ _⟩
  have : IsTrans ℕ (fun i j : ℕ => d.getD i 0 ≤ d.getD j 0) := ⟨fun i j k => le_trans⟩
  exact ⟨List.perm_insertionSort _ _, by
    rw [List.pairwise_map]; exact List.pairwise_insertionSort _ _⟩

example : ∃ f : List ℚ → List ℕ, (∀ d, IsArgsortOf d (f d)) ∧
    getPercentiles f [(5 : ℚ), 1, 2] (.one 25) (some [1, 2, 1]) = .ok (.one (.flt 1)) := by
  obtain ⟨f, hf⟩ := exists_argsort (K := ℚ)
  refine ⟨f, hf, ?_⟩
  have h := (C64_value f hf [5, 1, 2] [1, 2, 1]
    ⟨rfl, by intro w hw; fin_cases hw <;> norm_num, 1, by simp, by norm_num⟩
    (by intro w hw; fin_cases hw <;> norm_num) (by decide)).1 1 (by simp)
  norm_num [midRank] at h
  exact h

end Verif
