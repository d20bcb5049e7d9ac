import Verif.Props.WeightedPercentiles
import Verif.Lemmas.Sample

/-! # Credible intervals and percentiles on a log scale: C65, C66 -/

namespace Verif
open Verif.Spec

variable {K : Type} [Field K] [LinearOrder K] [IsStrictOrderedRing K] [FloorRing K]

/-- The numbers behind `get_percentiles`, before rounding. -/
def rawPercentiles (argsort : List K → List ℕ) (data : List K) (ws : Option (List K)) (ps : List K) :
    Except PyErr (List K) :=
  match ws with
  | some ws => weightedPercentile argsort data ws ps
  | none => npPercentile data ps

omit [IsStrictOrderedRing K] in
theorem rawPercentiles_forall₂ (argsort : List K → List ℕ) (data : List K) (ws : Option (List K))
    (ps : List K) (hps : ps ≠ []) (vs : List K) :
    rawPercentiles argsort data ws ps = .ok vs ↔
      List.Forall₂ (fun p v => rawPercentiles argsort data ws [p] = .ok [v]) ps vs := by
  cases ws with
  | none =>
    show npPercentile data ps = .ok vs ↔ List.Forall₂ (fun p v => npPercentile data [p] = .ok [v]) ps vs
    simp only [npPercentile_ok]
    constructor
    · rintro ⟨hd, hp, rfl⟩
      rw [List.forall₂_map_right_iff, List.forall₂_same]
      intro p hpm
      exact ⟨hd, by simpa using hp p hpm, by simp⟩
    · intro h
      have h1 : ∀ (ps vs : List K), List.Forall₂ (fun p v => data ≠ [] ∧ (∀ q ∈ [p], 0 ≤ q ∧ q ≤ 100) ∧
          [v] = [p].map (percentileAt (data.insertionSort (· ≤ ·)))) ps vs →
          (∀ p ∈ ps, 0 ≤ p ∧ p ≤ 100) ∧ vs = ps.map (percentileAt (data.insertionSort (· ≤ ·))) := by
        intro ps vs h
        induction h with
        | nil => simp
        | cons h1 _ ih =>
          obtain ⟨-, a, b⟩ := h1
          simp only [List.map_cons, List.map_nil, List.cons.injEq, and_true] at b
          refine ⟨?_, by rw [List.map_cons, ih.2, b]⟩
          intro p hp
          rcases List.mem_cons.1 hp with rfl | hp
          · exact a _ (by simp)
          · exact ih.1 p hp
      cases h with
      | nil => exact absurd rfl hps
      | cons h2 h3 => exact ⟨h2.1, h1 _ _ (.cons h2 h3)⟩
  | some ws =>
    show weightedPercentile argsort data ws ps = .ok vs ↔
      List.Forall₂ (fun p v => weightedPercentile argsort data ws [p] = .ok [v]) ps vs
    have hbad : ∀ e, weightedPercentile argsort data ws ps = .error e →
        (∀ p, weightedPercentile argsort data ws [p] = .error e) →
        (weightedPercentile argsort data ws ps = .ok vs ↔
          List.Forall₂ (fun p v => weightedPercentile argsort data ws [p] = .ok [v]) ps vs) := by
      intro e h1 h2
      simp only [h1, h2]
      constructor
      · rintro ⟨⟩
      · intro h
        cases h with
        | nil => exact absurd rfl hps
        | cons h _ => cases h
    by_cases h1 : data.length ≠ ws.length
    · exact hbad _ (if_pos h1) fun p => if_pos h1
    by_cases h2 : data = []
    · refine hbad .valueError ?_ fun p => ?_ <;> (unfold weightedPercentile; rw [if_neg h1, if_pos h2])
    by_cases h3 : (∃ w ∈ ws, w < 0) ∨ ws.sum = 0
    · refine hbad .unmodelled ?_ fun p => ?_ <;>
        (unfold weightedPercentile; rw [if_neg h1, if_neg h2, if_pos h3])
    unfold weightedPercentile
    simp only [if_neg h1, if_neg h2, if_neg h3, mapExcept_ok, List.forall₂_cons,
      List.forall₂_nil_left_iff, and_true]

omit [IsStrictOrderedRing K] in
theorem getPercentiles_eq (argsort : List K → List ℕ) (data : List K) (ps : PctArg K)
    (ws : Option (List K)) (rev : Bool) (digits : Option ℤ) (r : PctResult K) :
    getPercentiles argsort data ps ws rev digits = .ok r ↔
      ∃ vs rs, rawPercentiles argsort data ws ps.toList = .ok vs ∧ mapExcept (roundOpt digits) vs = .ok rs ∧
        (if ps.toList.length = 1 then ∃ x xs, rs = x :: xs ∧ r = .one x
         else r = .dict (dictOf ((if rev then ps.toList.reverse else ps.toList).zip rs))) := by
  have hlen : (if rev = true then ps.toList.reverse else ps.toList).length = ps.toList.length := by
    split <;> simp
  have e : getPercentiles argsort data ps ws rev digits = (do
      let vs ← rawPercentiles argsort data ws ps.toList
      let rs ← mapExcept (roundOpt digits) vs
      if (if rev = true then ps.toList.reverse else ps.toList).length = 1 then
        match rs with
        | r :: _ => .ok (.one r)
        | [] => .error .indexError
      else .ok (.dict (dictOf ((if rev = true then ps.toList.reverse else ps.toList).zip rs)))) := by
    unfold getPercentiles rawPercentiles
    cases ws <;> rfl
  rw [e, hlen]
  cases h1 : rawPercentiles argsort data ws ps.toList with
  | error e =>
    constructor
    · rintro ⟨⟩
    · rintro ⟨vs, rs, ⟨⟩, -⟩
  | ok vs =>
    cases h2 : mapExcept (roundOpt digits) vs with
    | error e =>
      constructor
      · intro h
        change (mapExcept (roundOpt digits) vs >>= _) = _ at h
        rw [h2] at h
        cases h
      · rintro ⟨vs', rs, ⟨⟩, h3, -⟩
        rw [h2] at h3
        cases h3
    | ok rs =>
      change (mapExcept (roundOpt digits) vs >>= _) = _ ↔ _
      rw [h2]
      change (if ps.toList.length = 1 then _ else _) = _ ↔ _
      constructor
      · intro h
        refine ⟨vs, rs, rfl, h2, ?_⟩
        by_cases h3 : ps.toList.length = 1
        · rw [if_pos h3] at h ⊢
          cases rs with
          | nil => cases h
          | cons x xs => cases h; exact ⟨x, xs, rfl, rfl⟩
        · rw [if_neg h3] at h ⊢
          cases h; rfl
      · rintro ⟨vs', rs', ⟨⟩, h3, h4⟩
        rw [h2] at h3
        cases h3
        by_cases h5 : ps.toList.length = 1
        · rw [if_pos h5] at h4 ⊢
          obtain ⟨x, xs, rfl, rfl⟩ := h4
          rfl
        · rw [if_neg h5] at h4 ⊢
          rw [h4]

omit [IsStrictOrderedRing K] in
/-- One percentile. -/
theorem getPercentiles_one_raw (argsort : List K → List ℕ) (data : List K) (p : K)
    (ws : Option (List K)) (rev : Bool) (digits : Option ℤ) (s : Scalar K) :
    getPercentiles argsort data (.one p) ws rev digits = .ok (.one s) ↔
      ∃ v, rawPercentiles argsort data ws [p] = .ok [v] ∧ roundOpt digits v = .ok s := by
  rw [getPercentiles_eq]
  simp only [PctArg.toList, List.length_singleton, if_true]
  constructor
  · rintro ⟨vs, rs, h1, h2, x, xs, rfl, e⟩
    injection e with e
    subst e
    have h1' := (rawPercentiles_forall₂ argsort data ws [p] (by simp) vs).1 h1
    cases h1' with
    | cons h3 h4 =>
      cases h4
      refine ⟨_, h3, ?_⟩
      rw [mapExcept_ok] at h2
      cases h2 with
      | cons h5 _ => exact h5
  · rintro ⟨v, h1, h2⟩
    exact ⟨[v], [s], h1, by rw [mapExcept_ok]; exact .cons h2 .nil, s, [], rfl, rfl⟩

omit [IsStrictOrderedRing K] in
/-- Several percentiles: the dictionary is built from the single percentiles. -/
theorem getPercentiles_list (argsort : List K → List ℕ) (data ps : List K) (hl : 2 ≤ ps.length)
    (ws : Option (List K)) (rev : Bool) (digits : Option ℤ) (r : PctResult K) :
    getPercentiles argsort data (.list ps) ws rev digits = .ok r ↔
      ∃ rs, List.Forall₂ (fun p s => getPercentiles argsort data (.one p) ws false digits =
          .ok (.one s)) ps rs ∧ r = .dict (dictOf ((if rev then ps.reverse else ps).zip rs)) := by
  have hne : ps ≠ [] := by rintro rfl; simp at hl
  rw [getPercentiles_eq]
  have hl1 : (ps.length = 1) = False := by simp; omega
  simp only [PctArg.toList, hl1, if_false, getPercentiles_one_raw]
  have comp : ∀ (ps : List K) (rs : List (Scalar K)),
      (∃ vs, List.Forall₂ (fun p v => rawPercentiles argsort data ws [p] = .ok [v]) ps vs ∧
        List.Forall₂ (fun v s => roundOpt digits v = .ok s) vs rs) ↔
      List.Forall₂ (fun p s => ∃ v, rawPercentiles argsort data ws [p] = .ok [v] ∧
        roundOpt digits v = .ok s) ps rs := by
    intro ps
    induction ps with
    | nil =>
      intro rs
      constructor
      · rintro ⟨vs, h1, h2⟩; cases h1; cases h2; exact .nil
      · intro h; cases h; exact ⟨[], .nil, .nil⟩
    | cons p ps ih =>
      intro rs
      constructor
      · rintro ⟨vs, h1, h2⟩
        cases h1 with
        | cons a b => cases h2 with
          | cons c d => exact .cons ⟨_, a, c⟩ ((ih _).1 ⟨_, b, d⟩)
      · intro h
        cases h with
        | cons a b =>
          obtain ⟨v, a1, a2⟩ := a
          obtain ⟨vs, b1, b2⟩ := (ih _).2 b
          exact ⟨v :: vs, .cons a1 b1, .cons a2 b2⟩
  constructor
  · rintro ⟨vs, rs, h1, h2, rfl⟩
    refine ⟨rs, (comp ps rs).1 ⟨vs, ?_, mapExcept_ok.1 h2⟩, rfl⟩
    exact (rawPercentiles_forall₂ argsort data ws ps hne vs).1 h1
  · rintro ⟨rs, h, rfl⟩
    obtain ⟨vs, h1, h2⟩ := (comp ps rs).2 h
    exact ⟨vs, rs, (rawPercentiles_forall₂ argsort data ws ps hne vs).2 h1,
      mapExcept_ok.2 h2, rfl⟩

omit [IsStrictOrderedRing K] in
theorem dictGet_single (argsort : List K → List ℕ) (data ps : List K)
    (ws : Option (List K)) (digits : Option ℤ) (rs : List (Scalar K))
    (h : List.Forall₂ (fun p s => getPercentiles argsort data (.one p) ws false digits =
          .ok (.one s)) ps rs) (p : K) (hp : p ∈ ps) :
    ∃ s, dictGet (dictOf (ps.zip rs)) p = .ok s ∧
      getPercentiles argsort data (.one p) ws false digits = .ok (.one s) := by
  have hlen := h.length_eq
  obtain ⟨i, hi, rfl⟩ := List.mem_iff_getElem.1 hp
  have hget := fun j (hj : j < ps.length) => (List.forall₂_iff_get.1 h).2 j hj (hlen ▸ hj)
  simp only [List.get_eq_getElem] at hget
  refine ⟨rs[i]'(hlen ▸ hi), dictGet_dictOf _ _ _ i (by simpa [hlen] using hlen ▸ hi) (by simp) ?_,
    hget i hi⟩
  intro j hj hij hk
  simp only [List.getElem_zip] at hk ⊢
  have hj' : j < ps.length := by simp at hj; omega
  have := (hget j hj').symm.trans (hk ▸ hget i hi)
  simpa using this

omit [IsStrictOrderedRing K] in
/-- **C63** (several percentiles, all options): the dictionary entries are the single percentiles, with
the same weights and rounding. -/
theorem C63_entries (argsort : List K → List ℕ) (data ps : List K) (hl : 2 ≤ ps.length)
    (ws : Option (List K)) (digits : Option ℤ) (d : List (K × Scalar K))
    (h : getPercentiles argsort data (.list ps) ws false digits = .ok (.dict d)) :
    ∀ p ∈ ps, ∃ s, dictGet d p = .ok s ∧
      getPercentiles argsort data (.one p) ws false digits = .ok (.one s) := by
  obtain ⟨rs, h1, e⟩ := (getPercentiles_list argsort data ps hl ws false digits _).1 h
  injection e with e
  subst e
  exact dictGet_single argsort data ps ws digits rs h1

/-! ### C65 -/

omit [IsStrictOrderedRing K] in
/-- **C65** (median): the result is the 50th percentile together with the percentiles that cut off half
of the remaining `100 - credibility` on each side; with or without weights and rounding. -/
theorem C65_median (argsort : List K → List ℕ) (data : List K) (cred : K) (ws : Option (List K))
    (digits : Option ℤ) (m l u : Scalar K) :
    getMedianAndCI argsort data cred ws digits = .ok ⟨m, l, u⟩ ↔
      getPercentiles argsort data (.one 50) ws false digits = .ok (.one m) ∧
      getPercentiles argsort data (.one ((100 - cred) / 2)) ws false digits = .ok (.one l) ∧
      getPercentiles argsort data (.one (100 - (100 - cred) / 2)) ws false digits = .ok (.one u) := by
  unfold getMedianAndCI
  simp only
  set lo := (100 - cred) / 2
  set hi := 100 - lo
  cases h : getPercentiles argsort data (.list [lo, 50, hi]) ws false digits with
  | error e =>
    constructor
    · rintro ⟨⟩
    · rintro ⟨h1, h2, h3⟩
      have := (getPercentiles_list argsort data [lo, 50, hi] (by simp) ws false digits _).2
        ⟨[l, m, u], .cons h2 (.cons h1 (.cons h3 .nil)), rfl⟩
      rw [h] at this
      cases this
  | ok r =>
    obtain ⟨rs, h1, rfl⟩ := (getPercentiles_list argsort data _ (by simp) ws false digits _).1 h
    have hg := dictGet_single argsort data _ ws digits rs h1
    obtain ⟨a, a1, a2⟩ := hg lo (by simp)
    obtain ⟨b, b1, b2⟩ := hg 50 (by simp)
    obtain ⟨c, c1, c2⟩ := hg hi (by simp)
    show (do
      let x ← dictGet (dictOf ([lo, 50, hi].zip rs)) 50
      let y ← dictGet (dictOf ([lo, 50, hi].zip rs)) lo
      let z ← dictGet (dictOf ([lo, 50, hi].zip rs)) hi
      Except.ok (CI.mk x y z)) = _ ↔ _
    rw [a1, b1, c1, a2, b2, c2]
    show Except.ok (CI.mk b a c) = .ok ⟨m, l, u⟩ ↔ _
    simp

omit [IsStrictOrderedRing K] in
/-- **C65** (mean): the arithmetic mean of the data together with the two percentiles. -/
theorem C65_mean (argsort : List K → List ℕ) (data : List K) (cred : K) (ws : Option (List K))
    (digits : Option ℤ) (m l u : Scalar K) :
    getMeanAndCI argsort data cred ws digits = .ok ⟨m, l, u⟩ ↔
      roundOpt digits (data.sum / data.length) = .ok m ∧
      getPercentiles argsort data (.one ((100 - cred) / 2)) ws false digits = .ok (.one l) ∧
      getPercentiles argsort data (.one (100 - (100 - cred) / 2)) ws false digits = .ok (.one u) := by
  unfold getMeanAndCI
  simp only
  set lo := (100 - cred) / 2
  set hi := 100 - lo
  cases h : getPercentiles argsort data (.list [lo, hi]) ws false digits with
  | error e =>
    constructor
    · rintro ⟨⟩
    · rintro ⟨-, h2, h3⟩
      have := (getPercentiles_list argsort data [lo, hi] (by simp) ws false digits _).2
        ⟨[l, u], .cons h2 (.cons h3 .nil), rfl⟩
      rw [h] at this
      cases this
  | ok r =>
    obtain ⟨rs, h1, rfl⟩ := (getPercentiles_list argsort data _ (by simp) ws false digits _).1 h
    have hg := dictGet_single argsort data _ ws digits rs h1
    obtain ⟨a, a1, a2⟩ := hg lo (by simp)
    obtain ⟨c, c1, c2⟩ := hg hi (by simp)
    rw [a2, c2]
    show (do
      let x ← roundOpt digits (data.sum / data.length)
      let y ← dictGet (dictOf ([lo, hi].zip rs)) lo
      let z ← dictGet (dictOf ([lo, hi].zip rs)) hi
      Except.ok (CI.mk x y z)) = _ ↔ _
    rw [a1, c1]
    cases hm : roundOpt digits (data.sum / data.length) with
    | error e =>
      constructor
      · rintro ⟨⟩
      · rintro ⟨⟨⟩, -⟩
    | ok m' =>
      show Except.ok (CI.mk m' a c) = .ok ⟨m, l, u⟩ ↔ _
      simp

/-- Percentiles, weighted or not, do not decrease. -/
theorem percentile_mono (argsort : List K → List ℕ) (hA : ∀ d, IsArgsortOf d (argsort d)) (data : List K)
    (ws : Option (List K)) (hw : ∀ w, ws = some w → ValidWeights data w) (p q v w : K) (hpq : p ≤ q)
    (hv : getPercentiles argsort data (.one p) ws = .ok (.one (.flt v)))
    (hw' : getPercentiles argsort data (.one q) ws = .ok (.one (.flt w))) : v ≤ w := by
  cases ws with
  | none => exact C63_monotone argsort data p q v w hpq hv hw'
  | some ws => exact C64_monotone argsort hA data ws (hw ws rfl) p q v w hpq hv hw'

/-- **C65** (brackets): for a credibility from 0 to 100, `get_median_and_ci` gives
`ci_low ≤ median ≤ ci_high`, weighted or not; a higher credibility gives a wider interval. -/
theorem C65_brackets (argsort : List K → List ℕ) (hA : ∀ d, IsArgsortOf d (argsort d)) (data : List K)
    (hd : data ≠ []) (ws : Option (List K)) (hw : ∀ w, ws = some w → ValidWeights data w) (cred : K)
    (h0 : 0 ≤ cred) (h1 : cred ≤ 100) :
    ∃ m l u, getMedianAndCI argsort data cred ws = .ok ⟨.flt m, .flt l, .flt u⟩ ∧ l ≤ m ∧ m ≤ u ∧
      ∀ cred', cred ≤ cred' → ∀ m' l' u',
        getMedianAndCI argsort data cred' ws = .ok ⟨.flt m', .flt l', .flt u'⟩ → l' ≤ l ∧ u ≤ u' := by
  have hex : ∀ p, 0 ≤ p → p ≤ 100 → ∃ v, getPercentiles argsort data (.one p) ws = .ok (.one (.flt v)) := by
    intro p hp0 hp1
    cases ws with
    | none => exact (C63_total argsort data p false).1 hd hp0 hp1
    | some ws =>
      obtain ⟨v, hv, -⟩ := C64_bounds argsort hA data ws (hw ws rfl) p false
      exact ⟨v, hv⟩
  obtain ⟨m, hm⟩ := hex 50 (by norm_num) (by norm_num)
  obtain ⟨l, hl⟩ := hex ((100 - cred) / 2) (by linarith) (by linarith)
  obtain ⟨u, hu⟩ := hex (100 - (100 - cred) / 2) (by linarith) (by linarith)
  refine ⟨m, l, u, (C65_median ..).2 ⟨hm, hl, hu⟩,
    percentile_mono argsort hA data ws hw _ _ l m (by linarith) hl hm,
    percentile_mono argsort hA data ws hw _ _ m u (by linarith) hm hu, ?_⟩
  intro cred' hc m' l' u' h'
  obtain ⟨-, hl', hu'⟩ := (C65_median ..).1 h'
  exact ⟨percentile_mono argsort hA data ws hw _ _ l' l (by linarith) hl' hl,
    percentile_mono argsort hA data ws hw _ _ u u' (by linarith) hu hu'⟩

/-- **C65** (mean): `ci_low ≤ ci_high`, and the mean lies between two data points. -/
theorem C65_mean_brackets (argsort : List K → List ℕ) (hA : ∀ d, IsArgsortOf d (argsort d)) (data : List K)
    (hd : data ≠ []) (ws : Option (List K)) (hw : ∀ w, ws = some w → ValidWeights data w) (cred : K)
    (h0 : 0 ≤ cred) (h1 : cred ≤ 100) :
    ∃ m l u, getMeanAndCI argsort data cred ws = .ok ⟨.flt m, .flt l, .flt u⟩ ∧ l ≤ u ∧
      m = data.sum / data.length ∧ (∃ x ∈ data, x ≤ m) ∧ ∃ x ∈ data, m ≤ x := by
  obtain ⟨m, l, u, h, hlm, hmu, -⟩ := C65_brackets argsort hA data hd ws hw cred h0 h1
  obtain ⟨-, hl, hu⟩ := (C65_median ..).1 h
  have hn : (0 : K) < data.length := by exact_mod_cast List.length_pos_iff.2 hd
  refine ⟨data.sum / data.length, l, u, (C65_mean ..).2 ⟨rfl, hl, hu⟩, hlm.trans hmu, rfl, ?_, ?_⟩
  · by_contra hcon
    push Not at hcon
    have : (data.map fun _ => data.sum / data.length).sum < (data.map fun x => x).sum :=
      List.sum_lt_sum_of_ne_nil hd _ _ hcon
    rw [List.map_id', List.map_const', List.sum_replicate, nsmul_eq_mul, mul_div_cancel₀ _ hn.ne'] at this
    exact lt_irrefl _ this
  · by_contra hcon
    push Not at hcon
    have : (data.map fun x => x).sum < (data.map fun _ => data.sum / data.length).sum :=
      List.sum_lt_sum_of_ne_nil hd _ _ hcon
    rw [List.map_id', List.map_const', List.sum_replicate, nsmul_eq_mul, mul_div_cancel₀ _ hn.ne'] at this
    exact lt_irrefl _ this

/-- **C65** (coverage): the interval contains more than `credibility/100·(n-1) - 1` of the `n` data. -/
theorem C65_coverage (argsort : List K → List ℕ) (data : List K) (cred : K) (m l u : K)
    (h : getMedianAndCI argsort data cred = .ok ⟨.flt m, .flt l, .flt u⟩) :
    cred / 100 * ((data.length : K) - 1) - 1 < (data.countP (fun x => l ≤ x ∧ x ≤ u) : ℕ) := by
  obtain ⟨-, hl, hu⟩ := (C65_median ..).1 h
  have h1 := (C63_rank argsort data _ l hl).2
  have h2 := (C63_rank argsort data _ u hu).1
  have key : data.countP (fun x => l ≤ x) + data.countP (fun x => x ≤ u) ≤
      data.countP (fun x => l ≤ x ∧ x ≤ u) + data.length := by
    induction data with
    | nil => simp
    | cons a d ih =>
      clear h hl hu h1 h2
      simp only [List.countP_cons, List.length_cons, decide_eq_true_eq]
      have : d.countP (fun x => l ≤ x) + d.countP (fun x => x ≤ u) ≤
        d.countP (fun x => l ≤ x ∧ x ≤ u) + d.length := by
        clear ih
        induction d with
        | nil => simp
        | cons a d ih =>
          simp only [List.countP_cons, List.length_cons, decide_eq_true_eq]
          split_ifs <;> first | omega | (exfalso; tauto)
      split_ifs <;> first | omega | (exfalso; tauto)
  have key' : ((data.countP (fun x => l ≤ x) : ℕ) : K) + (data.countP (fun x => x ≤ u) : ℕ) ≤
      (data.countP (fun x => l ≤ x ∧ x ≤ u) : ℕ) + data.length := by exact_mod_cast key
  have e : (1 - (100 - cred) / 2 / 100) * ((data.length : K) - 1) +
      (100 - (100 - cred) / 2) / 100 * ((data.length : K) - 1) =
      data.length - 1 + cred / 100 * ((data.length : K) - 1) := by ring
  linarith

/-- **C65** (not valid): without weights, a credibility outside [-100, 100] is a ValueError. -/
theorem C65_out_of_range (argsort : List K → List ℕ) (data : List K) (cred : K) (digits : Option ℤ)
    (h : cred < -100 ∨ 100 < cred) :
    getMedianAndCI argsort data cred none digits = .error .valueError ∧
    getMeanAndCI argsort data cred none digits = .error .valueError := by
  have hn : ∀ rest : List K, npPercentile data ((100 - cred) / 2 :: rest) = .error .valueError := by
    intro rest
    refine if_pos ⟨(100 - cred) / 2, by simp, ?_⟩
    rcases h with h | h
    · right; linarith
    · left; linarith
  constructor
  · unfold getMedianAndCI getPercentiles
    simp only [PctArg.toList, hn]
    rfl
  · unfold getMeanAndCI getPercentiles
    simp only [PctArg.toList, hn]
    rfl

/-- **C65 fails** for a credibility below 0, which is documented as invalid but accepted down to -100:
the interval comes out upside down. -/
theorem C65_negative_credibility_fails :
    ∃ data : List ℚ, getMedianAndCI (fun _ => []) data (-50) =
      .ok ⟨.flt 2, .flt 3, .flt 1⟩ :=
  ⟨[0, 1, 2, 3, 4], (C65_median ..).2 ⟨
    (C63_value ..).2 ⟨by simp, by norm_num, by norm_num, [0, 1, 2, 3, 4], 2, 0, .refl _, by decide,
      by simp, by norm_num, by norm_num, by simp, by norm_num, by norm_num⟩,
    (C63_value ..).2 ⟨by simp, by norm_num, by norm_num, [0, 1, 2, 3, 4], 3, 0, .refl _, by decide,
      by simp, by norm_num, by norm_num, by simp, by norm_num, by norm_num⟩,
    (C63_value ..).2 ⟨by simp, by norm_num, by norm_num, [0, 1, 2, 3, 4], 1, 0, .refl _, by decide,
      by simp, by norm_num, by norm_num, by simp, by norm_num, by norm_num⟩⟩⟩

/-- **C65 fails** for weights: the reported mean is not the weighted mean.  Data 0 and 1 with weights 1
and 3 have the weighted mean ¾, reported is ½. -/
theorem C65_weighted_mean_fails (argsort : List ℚ → List ℕ) (hA : ∀ d, IsArgsortOf d (argsort d)) :
    ∃ l u, getMeanAndCI argsort [(0 : ℚ), 1] 90 (some [1, 3]) = .ok ⟨.flt (1 / 2), .flt l, .flt u⟩ ∧
      (1 / 2 : ℚ) ≠ (1 * 0 + 3 * 1) / (1 + 3) := by
  obtain ⟨m, l, u, h, -, rfl, -⟩ := C65_mean_brackets argsort hA [(0 : ℚ), 1] (by simp) (some [1, 3])
    (by rintro w ⟨⟩; exact ⟨rfl, by intro w hw; fin_cases hw <;> norm_num, 1, by simp, by norm_num⟩)
    90 (by norm_num) (by norm_num)
  refine ⟨l, u, ?_, by norm_num⟩
  norm_num at h
  rw [h]

/-! ### C66 -/

/-- **C66 fails**: one percentile with `display=True` (the default) is never returned: the function
returns `None` whenever it does not raise. -/
theorem C66_single_display_fails (fmt : ℕ → Scalar ℝ → String) (argsort : List ℝ → List ℕ)
    (data : List ℝ) (p : ℝ) (ws : Option (List ℝ)) (rev : Bool) (digits : Option ℤ) (r : LogPctResult)
    (h : getLogPercentiles fmt argsort data (.one p) ws rev true digits = .ok r) : r = .nothing := by
  unfold getLogPercentiles at h
  cases hg : getPercentiles argsort data (.one p) ws rev digits with
  | error e => rw [hg] at h; cases h
  | ok g =>
    rw [hg] at h
    obtain ⟨vs, rs, -, -, h3⟩ := (getPercentiles_eq ..).1 hg
    simp only [PctArg.toList, List.length_singleton, if_true] at h3
    obtain ⟨x, xs, -, rfl⟩ := h3
    change (do let _ ← formatE fmt digits x; Except.ok LogPctResult.nothing) = _ at h
    cases hf : formatE fmt digits x with
    | error e => rw [hf] at h; cases h
    | ok y => rw [hf] at h; cases h; rfl

/-- It does happen: data `[1]`, default arguments. -/
theorem C66_single_display_returns_none (fmt : ℕ → Scalar ℝ → String) (argsort : List ℝ → List ℕ) :
    getLogPercentiles fmt argsort [1] (.one 50) = .ok .nothing := by
  have h1 : getPercentiles argsort [(1 : ℝ)] (.one 50) = .ok (.one (.flt 1)) :=
    (C63_value ..).2 ⟨by simp, by norm_num, by norm_num, [1], 0, 0, .refl _, by simp, by simp,
      by norm_num, by norm_num, by simp, by norm_num, by norm_num⟩
  obtain ⟨s, r, h2, -⟩ := C63_digits argsort [(1 : ℝ)] 50 1 false 1 h1
  unfold getLogPercentiles
  rw [h2]
  rfl

/-- **C66** (several percentiles, `display=True`): every key has its formatted percentile. -/
theorem C66_display_partial (fmt : ℕ → Scalar ℝ → String) (argsort : List ℝ → List ℕ)
    (data ps : List ℝ) (ws : Option (List ℝ)) (rev : Bool) (d : ℕ) (e : List (ℝ × Scalar ℝ))
    (h : getPercentiles argsort data (.list ps) ws rev (some (d : ℤ)) = .ok (.dict e)) :
    getLogPercentiles fmt argsort data (.list ps) ws rev true (some (d : ℤ)) =
      .ok (.dict (e.map fun p => (p.1, .str (fmt d p.2)))) := by
  unfold getLogPercentiles
  rw [h]
  have hm : ∀ e : List (ℝ × Scalar ℝ), mapExcept (fun p : ℝ × Scalar ℝ => do
      let v ← if true then formatE fmt (some (d : ℤ)) p.2 else log10Round (some (d : ℤ)) p.2
      Except.ok (p.1, v)) e = .ok (e.map fun p => (p.1, .str (fmt d p.2))) := by
    intro e
    rw [mapExcept_ok, List.forall₂_map_right_iff, List.forall₂_same]
    intro p _
    simp only [if_true, formatE, Int.natCast_nonneg, Int.toNat_natCast]
    rfl
  show (mapExcept _ e >>= _) = _
  rw [hm]
  rfl

/-- **C66** (`display=False`, no rounding): ten to the power of the result is the percentile, for
positive percentiles. -/
theorem C66_log_value_partial (fmt : ℕ → Scalar ℝ → String) (argsort : List ℝ → List ℕ)
    (data : List ℝ) (p v : ℝ) (ws : Option (List ℝ)) (rev : Bool) (hv : 0 < v)
    (h : getPercentiles argsort data (.one p) ws rev none = .ok (.one (.flt v))) :
    ∃ x : ℝ, getLogPercentiles fmt argsort data (.one p) ws rev false none = .ok (.one (.flt x)) ∧
      (10 : ℝ) ^ x = v := by
  refine ⟨Real.logb 10 v, ?_, Real.rpow_logb (by norm_num) (by norm_num) hv⟩
  unfold getLogPercentiles
  rw [h]
  have : log10Round none (.flt v) = .ok (.flt (Real.logb 10 v)) := by
    show (if 0 < v then _ else _) = _
    rw [if_pos hv]
    rfl
  show (do Except.ok (LogPctResult.one (← log10Round none (.flt v)))) = _
  rw [this]
  rfl

/-- **C66 fails** with the default rounding: the percentile is rounded before the logarithm is taken, so
the result is not the rounded logarithm of the percentile.  For data `[0.26]` the logarithm is
-0.585, which rounds to -0.6; the result is -0.5. -/
theorem C66_rounding_fails (fmt : ℕ → Scalar ℝ → String) (argsort : List ℝ → List ℕ) :
    getLogPercentiles fmt argsort [0.26] (.one 50) none false false (some 1) =
      .ok (.one (.flt (-(5 / 10)))) ∧
    roundScalar 1 (.flt (Real.logb 10 0.26)) = .ok (.flt (-(6 / 10))) := by
  have hround : ∀ x : ℝ, ∀ z : ℤ, (z : ℝ) - 1 / 2 < x * 10 → x * 10 < z + 1 / 2 →
      roundScalar 1 (.flt x) = .ok (.flt ((z : ℝ) / 10)) := by
    intro x z h1 h2
    have hz : roundEven (x * 10) = z := by
      have h := abs_le.1 (abs_roundEven_sub_le (x * 10))
      have a : ((roundEven (x * 10) : ℤ) : ℝ) < z + 1 := by linarith [h.2]
      have b : (z : ℝ) - 1 < (roundEven (x * 10) : ℤ) := by linarith [h.1]
      have a' : roundEven (x * 10) < z + 1 := by exact_mod_cast a
      have b' : z - 1 < roundEven (x * 10) := by exact_mod_cast b
      omega
    simp only [roundScalar, Scalar.num?, Num.val, zpow_one, hz]
    norm_num
  have hlog : ∀ (x : ℝ) (a b : ℝ), 0 < x → (10 : ℝ) ^ a < x ^ 20 → x ^ 20 < (10 : ℝ) ^ b →
      a < Real.logb 10 x * 20 ∧ Real.logb 10 x * 20 < b := by
    intro x a b hx ha hb
    have e : Real.logb 10 x * 20 = Real.logb 10 (x ^ 20) := by
      rw [Real.logb_pow]; push_cast; ring
    rw [e]
    constructor
    · rw [Real.lt_logb_iff_rpow_lt (by norm_num) (by positivity)]; exact ha
    · rw [Real.logb_lt_iff_lt_rpow (by norm_num) (by positivity)]; exact hb
  have h1 : getPercentiles argsort [(0.26 : ℝ)] (.one 50) none false (some 1) =
      .ok (.one (.flt (((3 : ℤ) : ℝ) / 10))) := by
    refine (getPercentiles_one_raw ..).2 ⟨0.26, npPercentile_ok.2 ⟨by simp, by norm_num, ?_⟩,
      hround 0.26 3 (by norm_num) (by norm_num)⟩
    simp [percentileAt]
  constructor
  · unfold getLogPercentiles
    rw [h1]
    have h2 := hlog (((3 : ℤ) : ℝ) / 10) (-11) (-9) (by norm_num)
      (by rw [Real.rpow_neg (by norm_num), show ((11 : ℝ)) = ((11 : ℕ) : ℝ) by norm_num, Real.rpow_natCast]; norm_num)
      (by rw [Real.rpow_neg (by norm_num), show ((9 : ℝ)) = ((9 : ℕ) : ℝ) by norm_num, Real.rpow_natCast]; norm_num)
    have h3 : log10Round (some 1) (.flt (((3 : ℤ) : ℝ) / 10)) = .ok (.flt (((-5 : ℤ) : ℝ) / 10)) := by
      show (if (0 : ℝ) < ((3 : ℤ) : ℝ) / 10 then _ else _) = _
      rw [if_pos (by norm_num)]
      exact hround (Real.logb 10 (((3 : ℤ) : ℝ) / 10)) (-5) (by push_cast at h2 ⊢; linarith [h2.1])
        (by push_cast at h2 ⊢; linarith [h2.2])
    show (do Except.ok (LogPctResult.one (← log10Round (some 1) (.flt (((3 : ℤ) : ℝ) / 10))))) = _
    rw [h3]
    show Except.ok (LogPctResult.one (.flt (((-5 : ℤ) : ℝ) / 10))) = _
    push_cast
    norm_num
  · have h2 := hlog 0.26 (-13) (-11) (by norm_num)
      (by rw [Real.rpow_neg (by norm_num), show ((13 : ℝ)) = ((13 : ℕ) : ℝ) by norm_num, Real.rpow_natCast]; norm_num)
      (by rw [Real.rpow_neg (by norm_num), show ((11 : ℝ)) = ((11 : ℕ) : ℝ) by norm_num, Real.rpow_natCast]; norm_num)
    rw [hround _ (-6) (by push_cast; linarith [h2.1]) (by push_cast; linarith [h2.2])]
    push_cast
    norm_num

/-! #### The hypotheses are met -/

example : ∃ f : List ℚ → List ℕ, (∀ d, IsArgsortOf d (f d)) ∧
    ∃ m l u, getMedianAndCI f [(3 : ℚ), 1, 2] 80 (some [1, 1, 2]) = .ok ⟨.flt m, .flt l, .flt u⟩ ∧
      l ≤ m ∧ m ≤ u := by
  obtain ⟨f, hf⟩ := exists_argsort (K := ℚ)
  obtain ⟨m, l, u, h, h1, h2, -⟩ := C65_brackets f hf [(3 : ℚ), 1, 2] (by simp) (some [1, 1, 2])
    (by rintro w ⟨⟩; exact ⟨rfl, by intro w hw; fin_cases hw <;> norm_num, 1, by simp, by norm_num⟩)
    80 (by norm_num) (by norm_num)
  exact ⟨f, hf, m, l, u, h, h1, h2⟩

end Verif
