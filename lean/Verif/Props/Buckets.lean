import Verif.Lemmas.Percentiles
import Verif.Lemmas.Sample
import Verif.Spec.Bucket
import Mathlib.Algebra.Order.Ring.Rat
import Mathlib.Tactic.FieldSimp
import Mathlib.Tactic.IntervalCases

/-! # Buckets: C67 -/

namespace Verif
open Verif.Spec

variable {K : Type} [Field K] [LinearOrder K]

/-- What `bucket_percentages` reports for a count. -/
def shown (normalize asPct : Bool) (total : ℕ) (count : ℕ) : Scalar K :=
  if normalize then .flt ((count : K) / total * (if asPct then 100 else 1)) else .int count

omit [LinearOrder K] in
theorem mapExcept_bucketValue (normalize asPct : Bool) (total : ℕ) (h : normalize = true → total ≠ 0)
    (cs : List ℕ) : mapExcept (bucketValue (K := K) normalize asPct total) (cs.map (fun c : ℕ => (c : ℤ))) =
      .ok (cs.map (shown normalize asPct total)) := by
  rw [mapExcept_ok, List.forall₂_map_left_iff, List.forall₂_map_right_iff, List.forall₂_same]
  intro c _
  unfold bucketValue shown
  cases normalize with
  | false => rfl
  | true => simp [h rfl]

theorem zip_dict {β : Type} (ls : List String) (vs : List β) (hlen : ls.length = vs.length)
    (hnd : ls.Nodup) :
    ((dictOf (ls.zip vs)).map Prod.fst).Nodup ∧ (∀ k, k ∈ (dictOf (ls.zip vs)).map Prod.fst ↔ k ∈ ls) ∧
    ∀ i (hi : i < ls.length), dictGet (dictOf (ls.zip vs)) ls[i] = .ok (vs[i]'(hlen ▸ hi)) := by
  refine ⟨(dictOf_keys _).1, fun k => ?_, fun i hi => ?_⟩
  · rw [(dictOf_keys _).2, List.map_fst_zip hlen.le]
  · refine dictGet_dictOf _ _ _ i (by simp [hi, ← hlen]) (by simp) ?_
    intro j hj hij hk
    simp only [List.getElem_zip] at hk
    have := hnd.getElem_inj_iff.1 hk
    omega

theorem customBins_ok (fmt : Edge K → String) (data : List K) (bins : BinsArg K)
    (cb : List (Edge K × Edge K)) (normalize asPct : Bool) (labels : Option (List String))
    (hcb : cb ≠ []) (hdata : normalize = true → data ≠ []) (ls : List String)
    (hls : labels.getD (defaultLabels fmt (cb.map Prod.fst ++ [(cb.getLast hcb).2])) = ls)
    (hlen : ls.length = cb.length) :
    bucketPercentages fmt data bins (some cb) normalize asPct labels =
      .ok (dictOf (ls.zip (cb.map fun b => shown normalize asPct data.length
        (data.countP fun x => InBucket b.1 b.2 x)))) := by
  unfold bucketPercentages
  simp only [List.getLast?_eq_getLast_of_ne_nil hcb]
  show (do
    let values ← mapExcept (bucketValue normalize asPct data.length) (cb.map fun b =>
          ((data.countP fun x => b.1 ≤ Edge.of x ∧ Edge.of x < b.2 : ℕ) : ℤ))
    if ((labels.getD (defaultLabels fmt (cb.map Prod.fst ++ [(cb.getLast hcb).2]))).length : ℤ) ≠
        ((cb.map Prod.fst ++ [(cb.getLast hcb).2]).length : ℤ) - 1 then .error .valueError
    else .ok (dictOf ((labels.getD (defaultLabels fmt (cb.map Prod.fst ++ [(cb.getLast hcb).2]))).zip
      values)) : Except PyErr (List (String × Scalar K))) = _
  have h1 := mapExcept_bucketValue (K := K) normalize asPct data.length
    (fun h => by simpa using hdata h) (cb.map fun b => data.countP fun x => InBucket b.1 b.2 x)
  rw [List.map_map, List.map_map] at h1
  have e : (cb.map fun b => ((data.countP fun x => b.1 ≤ Edge.of x ∧ Edge.of x < b.2 : ℕ) : ℤ)) =
      cb.map ((fun c : ℕ => (c : ℤ)) ∘ fun b => data.countP fun x => InBucket b.1 b.2 x) := by
    apply List.map_congr_left
    intro b _
    rfl
  rw [e, h1, hls]
  show (if (ls.length : ℤ) ≠ ((cb.map Prod.fst ++ [(cb.getLast hcb).2]).length : ℤ) - 1 then _ else _) = _
  rw [if_neg]
  · rfl
  · simp [hlen]

/-- **C67** (custom buckets): with one distinct label per bucket, the result has these labels, and the
value of the `i`-th is the number of data in `[low, high)`, divided by the number of all data if
`normalize`, times 100 if `as_percentage`. -/
theorem C67_custom (fmt : Edge K → String) (data : List K) (bins : BinsArg K)
    (cb : List (Edge K × Edge K)) (normalize asPct : Bool) (ls : List String)
    (hcb : cb ≠ []) (hdata : normalize = true → data ≠ []) (hlen : ls.length = cb.length) (hnd : ls.Nodup) :
    ∃ d, bucketPercentages fmt data bins (some cb) normalize asPct (some ls) = .ok d ∧
      (d.map Prod.fst).Nodup ∧ (∀ k, k ∈ d.map Prod.fst ↔ k ∈ ls) ∧
      ∀ i (hi : i < cb.length), ∃ c : ℕ,
        c = (data.filter fun x => InBucket (cb[i]).1 (cb[i]).2 x).length ∧
        dictGet d (ls[i]'(hlen.symm ▸ hi)) = .ok
          (if normalize then .flt ((c : K) / data.length * (if asPct then 100 else 1)) else .int c) := by
  refine ⟨_, customBins_ok fmt data bins cb normalize asPct (some ls) hcb hdata ls rfl hlen, ?_⟩
  obtain ⟨h1, h2, h3⟩ := zip_dict ls (cb.map fun b => shown (K := K) normalize asPct data.length
        (data.countP fun x => InBucket b.1 b.2 x)) (by simp [hlen]) hnd
  refine ⟨h1, h2, fun i hi => ⟨_, rfl, ?_⟩⟩
  rw [h3 i (hlen.symm ▸ hi), List.getElem_map, List.countP_eq_length_filter]
  rfl

omit [Field K] in
theorem count_split (a b c : Edge K) (hab : a ≤ b) (hbc : b ≤ c) (data : List K) :
    (data.countP fun x => InBucket a b x) + (data.countP fun x => InBucket b c x) =
      data.countP fun x => InBucket a c x := by
  induction data with
  | nil => rfl
  | cons x data ih =>
    simp only [List.countP_cons, decide_eq_true_eq]
    rcases lt_or_ge (Edge.of x) b with h | h
    · have h1 : ¬ InBucket b c x := fun h' => absurd h'.1 (not_le.2 h)
      have h2 : InBucket a b x ↔ InBucket a c x :=
        ⟨fun h' => ⟨h'.1, h.trans_le hbc⟩, fun h' => ⟨h'.1, h⟩⟩
      simp only [h1, h2, if_false]
      omega
    · have h1 : ¬ InBucket a b x := fun h' => absurd h'.2 (not_lt.2 h)
      have h2 : InBucket b c x ↔ InBucket a c x :=
        ⟨fun h' => ⟨hab.trans h, h'.2⟩, fun h' => ⟨h, h'.2⟩⟩
      simp only [h1, h2, if_false]
      omega

omit [Field K] in
theorem contiguous_sum (data : List K) : ∀ (b : Edge K × Edge K) (cb : List (Edge K × Edge K)),
    Contiguous (b :: cb) →
    ((b :: cb).map fun c => data.countP fun x => InBucket c.1 c.2 x).sum =
      data.countP (fun x => InBucket b.1 ((b :: cb).getLast (by simp)).2 x) ∧
    b.1 ≤ ((b :: cb).getLast (by simp)).2
  | b, [], h => ⟨by rw [List.map_cons, List.map_nil, List.sum_singleton]; rfl, by simpa using h.1 b (by simp)⟩
  | b, c :: cb, h => by
    have hb := h.1 b (by simp)
    have hbc : b.2 = c.1 := (List.isChain_cons_cons.1 h.2).1
    obtain ⟨ih, ih2⟩ := contiguous_sum data c cb
      ⟨fun d hd => h.1 d (by simp [hd]), (List.isChain_cons_cons.1 h.2).2⟩
    rw [List.map_cons, List.sum_cons, ih, List.getLast_cons_cons]
    refine ⟨?_, hb.trans (hbc.le.trans ih2)⟩
    rw [hbc] at hb ⊢
    exact count_split _ _ _ hb ih2 data

omit [Field K] in
theorem contiguous_exactly_one (x : K) : ∀ (b : Edge K × Edge K) (cb : List (Edge K × Edge K)),
    Contiguous (b :: cb) → InBucket b.1 ((b :: cb).getLast (by simp)).2 x →
    ∃! i, ∃ hi : i < (b :: cb).length, InBucket ((b :: cb)[i]).1 ((b :: cb)[i]).2 x := by
  intro b cb h hx
  -- counting the single datum `x`
  have hsum := (contiguous_sum [x] b cb h).1
  rw [List.countP_cons, List.countP_nil, if_pos (by simpa using hx)] at hsum
  have key : ∀ l : List (Edge K × Edge K), (l.map fun c => [x].countP fun y => InBucket c.1 c.2 y).sum = 1 →
      ∃! i, ∃ hi : i < l.length, InBucket (l[i]).1 (l[i]).2 x := by
    intro l
    have hc : ∀ c : Edge K × Edge K, ([x].countP fun y => InBucket c.1 c.2 y) =
        if InBucket c.1 c.2 x then 1 else 0 := by
      intro c; simp [List.countP_cons]
    induction l with
    | nil => intro h; simp at h
    | cons c l ih =>
      intro hl
      rw [List.map_cons, List.sum_cons, hc] at hl
      by_cases h1 : InBucket c.1 c.2 x
      · rw [if_pos h1] at hl
        have hz : (l.map fun c => [x].countP fun y => InBucket c.1 c.2 y).sum = 0 := by omega
        refine ⟨0, ⟨by simp, h1⟩, ?_⟩
        rintro j ⟨hj, hjx⟩
        cases j with
        | zero => rfl
        | succ j =>
          exfalso
          have hj' : j < l.length := by simpa using hj
          have hm : ([x].countP fun y => InBucket l[j].1 l[j].2 y) ∈
              l.map fun c => [x].countP fun y => InBucket c.1 c.2 y :=
            List.mem_map.2 ⟨l[j], List.getElem_mem hj', rfl⟩
          have := (List.sum_eq_zero_iff.1 hz) _ hm
          rw [hc, if_pos (by simpa using hjx)] at this
          omega
      · rw [if_neg h1, zero_add] at hl
        obtain ⟨i, ⟨hi, hix⟩, huniq⟩ := ih hl
        refine ⟨i + 1, ⟨by simpa using hi, by simpa using hix⟩, ?_⟩
        rintro j ⟨hj, hjx⟩
        cases j with
        | zero => exact absurd (by simpa using hjx) h1
        | succ j =>
          rw [huniq j ⟨by simpa using hj, by simpa using hjx⟩]
  exact key _ (by rw [hsum])

/-- **C67** (a partition): if the custom buckets are contiguous and cover the data, every datum lies in
exactly one bucket, and the values add up to the number of data, to 1, or to 100. -/
theorem C67_partition [IsStrictOrderedRing K] (fmt : Edge K → String) (data : List K) (bins : BinsArg K)
    (cb : List (Edge K × Edge K)) (hcb : cb ≠ []) (ls : List String) (hlen : ls.length = cb.length)
    (hnd : ls.Nodup) (hcont : Contiguous cb)
    (hcover : ∀ x ∈ data, (cb.head hcb).1 ≤ Edge.of x ∧ Edge.of x < (cb.getLast hcb).2) (hdata : data ≠ []) :
    (∀ x ∈ data, ∃! i, ∃ hi : i < cb.length, InBucket (cb[i]).1 (cb[i]).2 x) ∧
    ∀ normalize asPct, ∃ d, ∃ vs : List K, bucketPercentages fmt data bins (some cb) normalize asPct (some ls) = .ok d ∧
      d.map Prod.fst = ls ∧ d.map (fun p => p.2.val?) = vs.map some ∧
      vs.sum = if normalize then (if asPct then 100 else 1) else (data.length : K) := by
  obtain ⟨b, cb', rfl⟩ : ∃ b cb', cb = b :: cb' := by
    cases cb with
    | nil => exact absurd rfl hcb
    | cons b cb' => exact ⟨b, cb', rfl⟩
  refine ⟨fun x hx => contiguous_exactly_one x b cb' hcont (hcover x hx), fun normalize asPct => ?_⟩
  set f : Edge K × Edge K → ℕ := fun c => data.countP fun x => InBucket c.1 c.2 x with hf
  have hs := (contiguous_sum data b cb' hcont).1
  have hall : data.countP (fun x => InBucket b.1 ((b :: cb').getLast (by simp)).2 x) = data.length := by
    rw [List.countP_eq_length]
    intro x hx
    exact decide_eq_true (hcover x hx)
  rw [hall] at hs
  have hsK : ((b :: cb').map fun c => (f c : K)).sum = data.length := by
    have := congrArg (Nat.cast (R := K)) hs
    rw [← this, Nat.cast_list_sum, List.map_map]
    rfl
  have hn : (data.length : K) ≠ 0 := by simpa using hdata
  -- distinct labels: the dictionary is the list of pairs itself
  have hdict : ∀ vs : List (Scalar K), ls.length = vs.length → dictOf (ls.zip vs) = ls.zip vs := by
    intro vs hv
    have : ∀ ps : List (String × Scalar K), (ps.map Prod.fst).Nodup → dictOf ps = ps := by
      intro ps
      induction ps using List.reverseRecOn with
      | nil => intro _; rfl
      | append_singleton ps q ih =>
        intro h
        rw [List.map_append, List.nodup_append] at h
        rw [dictOf_append, ih h.1]
        unfold dictSet
        rw [if_neg]
        intro hm
        exact h.2.2 _ hm q.1 (by simp) rfl
    exact this _ (by rw [List.map_fst_zip hv.le]; exact hnd)
  refine ⟨_, (b :: cb').map fun c => if normalize then (f c : K) / data.length * (if asPct then 100 else 1)
      else f c, customBins_ok fmt data bins (b :: cb') normalize asPct (some ls) hcb (fun _ => hdata) ls rfl
      hlen, ?_, ?_, ?_⟩
  · rw [hdict _ (by simpa using hlen), List.map_fst_zip (by simp [hlen])]
  · rw [hdict _ (by simpa using hlen)]
    show (ls.zip _).map (Scalar.val? ∘ Prod.snd) = _
    rw [← List.map_map, List.map_snd_zip (by simp [hlen]),
      List.map_map, List.map_map]
    apply List.map_congr_left
    intro c _
    simp only [Function.comp, shown]
    cases normalize with
    | true => rfl
    | false => show some (((f c : ℤ) : K)) = some ((f c : K)); simp
  · cases normalize with
    | true =>
      simp only [if_true]
      rw [List.sum_map_mul_right, show ((b :: cb').map fun c => (f c : K) / data.length).sum =
        ((b :: cb').map fun c => (f c : K)).sum / data.length by
          simp only [div_eq_mul_inv, List.sum_map_mul_right], hsK, div_self hn, one_mul]
    | false => simpa using hsK

/-! ### Histograms -/

omit [Field K] in
/-- The counts numpy forms as differences are the counts of the buckets; the last one is closed. -/
theorem diffs_cumCounts (data : List K) : ∀ es : List (Edge K), es.Pairwise (· ≤ ·) →
    ∀ i (hi : i + 1 < es.length), (diffs (cumCounts data es))[i]? =
      some (if i + 2 = es.length then (data.countP fun x => es[i] ≤ Edge.of x ∧ Edge.of x ≤ es[i + 1] : ℕ)
        else (data.countP fun x => es[i] ≤ Edge.of x ∧ Edge.of x < es[i + 1] : ℕ) : ℤ)
  | [], _, i, hi => by simp at hi
  | [a], _, i, hi => by simp at hi
  | [a, b], h, i, hi => by
    obtain rfl : i = 0 := by simpa using hi
    have hab : a ≤ b := (List.pairwise_cons.1 h).1 b (by simp)
    simp only [cumCounts, diffs, List.getElem?_cons_zero, List.length_cons, List.length_nil, if_pos]
    simp only [List.getElem_cons_zero, List.getElem_cons_succ, Option.some.injEq, countUpTo, countBelow]
    induction data with
    | nil => rfl
    | cons x data ih =>
      simp only [List.countP_cons, decide_eq_true_eq]
      push_cast
      rcases lt_or_ge (Edge.of x) a with h1 | h1
      · rw [if_pos (h1.le.trans hab), if_pos h1, if_neg (fun h => absurd h.1 (not_le.2 h1))]
        linarith
      · rw [if_neg (not_lt.2 h1)]
        by_cases h2 : Edge.of x ≤ b
        · rw [if_pos h2, if_pos ⟨h1, h2⟩]; linarith
        · rw [if_neg h2, if_neg (fun h => h2 h.2)]; linarith
  | a :: b :: c :: es, h, i, hi => by
    have hab : a ≤ b := (List.pairwise_cons.1 h).1 b (by simp)
    have hd : diffs (cumCounts data (a :: b :: c :: es)) =
        (countBelow data b - countBelow data a) :: diffs (cumCounts data (b :: c :: es)) := rfl
    cases i with
    | zero =>
      rw [hd, List.getElem?_cons_zero, if_neg (by simp)]
      simp only [List.getElem_cons_zero, List.getElem_cons_succ, Option.some.injEq, countBelow]
      show (_ : ℤ) - _ = ((data.countP fun x => a ≤ Edge.of x ∧ Edge.of x < b : ℕ) : ℤ)
      clear hd hi
      induction data with
      | nil => rfl
      | cons x data ih =>
        simp only [List.countP_cons, decide_eq_true_eq]
        push_cast
        rcases lt_or_ge (Edge.of x) a with h1 | h1
        · rw [if_pos (h1.trans_le hab), if_pos h1, if_neg (fun h => absurd h.1 (not_le.2 h1))]
          linarith
        · rw [if_neg (not_lt.2 h1)]
          by_cases h2 : Edge.of x < b
          · rw [if_pos h2, if_pos ⟨h1, h2⟩]; linarith
          · rw [if_neg h2, if_neg (fun h => h2 h.2)]; linarith
    | succ i =>
      rw [hd, List.getElem?_cons_succ, diffs_cumCounts data (b :: c :: es) (List.pairwise_cons.1 h).2 i
        (by simpa using hi)]
      simp only [List.length_cons, List.getElem_cons_succ]
      congr 1
      by_cases h1 : i + 2 = es.length + 1 + 1
      · rw [if_pos h1, if_pos (by omega)]
      · rw [if_neg h1, if_neg (by omega)]

omit [Field K] in
theorem diffs_length : ∀ l : List ℤ, (diffs l).length = l.length - 1
  | [] => rfl
  | [_] => rfl
  | a :: b :: l => by
    have := diffs_length (b :: l)
    simp only [diffs, List.length_cons] at this ⊢
    omega

omit [Field K] in
theorem cumCounts_length (data : List K) : ∀ es, (cumCounts data es).length = es.length
  | [] => rfl
  | [_] => rfl
  | a :: b :: l => by
    have := cumCounts_length data (b :: l)
    simp only [cumCounts, List.length_cons] at this ⊢
    omega

omit [Field K] in
/-- The histogram as natural numbers. -/
theorem histogram_counts (data : List K) (es : List (Edge K)) (hs : es.Pairwise (· ≤ ·)) :
    ∃ cs : List ℕ, diffs (cumCounts data es) = cs.map (fun c : ℕ => (c : ℤ)) ∧ cs.length = es.length - 1 ∧
      ∀ i (hi : i + 1 < es.length), cs[i]? =
        some (if i + 2 = es.length then data.countP fun x => es[i] ≤ Edge.of x ∧ Edge.of x ≤ es[i + 1]
          else data.countP fun x => es[i] ≤ Edge.of x ∧ Edge.of x < es[i + 1]) := by
  have hlen : (diffs (cumCounts data es)).length = es.length - 1 := by
    rw [diffs_length, cumCounts_length]
  refine ⟨(diffs (cumCounts data es)).map Int.toNat, ?_, by simp [hlen], fun i hi => ?_⟩
  · rw [List.map_map]
    conv_lhs => rw [← List.map_id (diffs (cumCounts data es))]
    apply List.map_congr_left
    intro z hz
    obtain ⟨i, hi, rfl⟩ := List.mem_iff_getElem.1 hz
    have h := diffs_cumCounts data es hs i (by omega)
    rw [List.getElem?_eq_getElem hi, Option.some.injEq] at h
    simp only [id, Function.comp]
    rw [h]
    split <;> simp
  · rw [List.getElem?_map, diffs_cumCounts data es hs i hi, Option.map_some]
    split <;> simp

/-- **C67** (histogram): with a list of non-decreasing edges and one distinct label per bucket, the value of
the `i`-th label is the number of data in `[edge i, edge i+1)`, the last bucket including its right
end. -/
theorem C67_histogram (fmt : Edge K → String) (data : List K) (es : List (Edge K)) (normalize asPct : Bool)
    (ls : List String) (hs : es.Pairwise (· ≤ ·)) (hlen : ls.length + 1 = es.length) (hnd : ls.Nodup)
    (hdata : normalize = true → data ≠ []) :
    ∃ d, bucketPercentages fmt data (.edges es) none normalize asPct (some ls) = .ok d ∧
      (d.map Prod.fst).Nodup ∧ (∀ k, k ∈ d.map Prod.fst ↔ k ∈ ls) ∧
      ∀ i (hi : i < ls.length), ∃ c : ℕ,
        c = (data.filter fun x => (es[i]'(by omega)) ≤ Edge.of x ∧
          (Edge.of x < (es[i + 1]'(by omega)) ∨
            (i + 1 = ls.length ∧ Edge.of x = (es[i + 1]'(by omega))))).length ∧
        dictGet d ls[i] = .ok
          (if normalize then .flt ((c : K) / data.length * (if asPct then 100 else 1)) else .int c) := by
  obtain ⟨cs, h1, h2, h3⟩ := histogram_counts data es hs
  have hcs : ls.length = cs.length := by omega
  have hrun : bucketPercentages fmt data (.edges es) none normalize asPct (some ls) =
      .ok (dictOf (ls.zip (cs.map (shown normalize asPct data.length)))) := by
    unfold bucketPercentages npHistogram
    simp only [not_not.2 hs, if_false]
    show (do
      let values ← mapExcept (bucketValue normalize asPct data.length) (diffs (cumCounts data es))
      if (ls.length : ℤ) ≠ (es.length : ℤ) - 1 then .error .valueError
      else .ok (dictOf (ls.zip values)) : Except PyErr (List (String × Scalar K))) = _
    rw [h1, mapExcept_bucketValue normalize asPct data.length (fun h => by simpa using hdata h)]
    show (if (ls.length : ℤ) ≠ (es.length : ℤ) - 1 then _ else _) = _
    rw [if_neg]
    omega
  refine ⟨_, hrun, ?_⟩
  obtain ⟨g1, g2, g3⟩ := zip_dict ls (cs.map (shown (K := K) normalize asPct data.length)) (by simp [hcs]) hnd
  refine ⟨g1, g2, fun i hi => ⟨_, rfl, ?_⟩⟩
  rw [g3 i hi, List.getElem_map]
  have hc := h3 i (by omega)
  rw [List.getElem?_eq_getElem (by omega), Option.some.injEq] at hc
  rw [hc, ← List.countP_eq_length_filter]
  by_cases hl : i + 1 = ls.length
  · rw [if_pos (by omega)]
    simp only [hl, true_and, ← le_iff_lt_or_eq]
    rfl
  · rw [if_neg (by omega)]
    simp only [hl, false_and, or_false]
    rfl

/-- **C67** (histogram, all data counted): the counts add up to the number of data between the first and
the last edge, both included. -/
theorem C67_histogram_total (data : List K) (es : List (Edge K)) (hs : es.Pairwise (· ≤ ·))
    (hes : 2 ≤ es.length) (counts : List ℤ) (edges : List (Edge K))
    (h : npHistogram data (.edges es) = .ok (counts, edges)) :
    counts.sum = (data.countP fun x => (es[0]'(by omega)) ≤ Edge.of x ∧
      Edge.of x ≤ es[es.length - 1]'(by omega) : ℕ) := by
  unfold npHistogram at h
  simp only [not_not.2 hs, if_false, Except.ok.injEq, Prod.mk.injEq] at h
  obtain ⟨rfl, rfl⟩ := h
  have hsum : ∀ (l : List ℤ) (hl : l ≠ []), (diffs l).sum = l.getLast hl - l.head hl := by
    intro l
    induction l with
    | nil => intro hl; exact absurd rfl hl
    | cons a l ih =>
      intro _
      cases l with
      | nil => simp [diffs]
      | cons b l =>
        rw [diffs, List.sum_cons, ih (by simp), List.getLast_cons_cons]
        simp
  obtain ⟨a, b, rest, rfl⟩ : ∃ a b rest, es = a :: b :: rest := by
    match es, hes with
    | a :: b :: rest, _ => exact ⟨a, b, rest, rfl⟩
  have hlast : ∀ (es : List (Edge K)) (he : es ≠ []) (hc : cumCounts data es ≠ []),
      (cumCounts data es).getLast hc = countUpTo data (es.getLast he) := by
    intro es
    induction es with
    | nil => intro he; exact absurd rfl he
    | cons a es ih =>
      intro he hc
      cases es with
      | nil => rfl
      | cons b es =>
        have hc' : cumCounts data (b :: es) ≠ [] := by
          intro h; have := cumCounts_length data (b :: es); rw [h] at this; simp at this
        simp only [cumCounts]
        rw [List.getLast_cons hc', ih (by simp) hc', List.getLast_cons_cons]
  have hne : cumCounts data (a :: b :: rest) ≠ [] := by
    intro h; have := cumCounts_length data (a :: b :: rest); rw [h] at this; simp at this
  rw [hsum _ hne, hlast _ (by simp) hne]
  have hhead : (cumCounts data (a :: b :: rest)).head hne = countBelow data a := rfl
  rw [hhead, List.getLast_eq_getElem]
  simp only [List.getElem_cons_zero]
  set e := (a :: b :: rest)[(a :: b :: rest).length - 1]
  have hae : a ≤ e := by
    rcases List.mem_cons.1 (List.getElem_mem (l := a :: b :: rest) (n := (a :: b :: rest).length - 1) (by simp)) with h | h
    · exact h.ge
    · exact (List.pairwise_cons.1 hs).1 _ h
  clear_value e
  clear hlast hhead hne hsum
  unfold countUpTo countBelow
  induction data with
  | nil => rfl
  | cons x data ih =>
    simp only [List.countP_cons, decide_eq_true_eq]
    push_cast
    rcases lt_or_ge (Edge.of x) a with h1 | h1
    · rw [if_pos (h1.le.trans hae), if_pos h1, if_neg (fun h => absurd h.1 (not_le.2 h1))]
      linarith
    · rw [if_neg (not_lt.2 h1)]
      by_cases h2 : Edge.of x ≤ e
      · rw [if_pos h2, if_pos ⟨h1, h2⟩]; linarith
      · rw [if_neg h2, if_neg (fun h => h2 h.2)]; linarith

omit [Field K] in
theorem foldl_min_max : ∀ (xs : List K) (a : K),
    (xs.foldl min a ≤ a ∧ ∀ x ∈ xs, xs.foldl min a ≤ x) ∧ (a ≤ xs.foldl max a ∧ ∀ x ∈ xs, x ≤ xs.foldl max a) ∧
    (xs.foldl min a = a ∨ xs.foldl min a ∈ xs) ∧ (xs.foldl max a = a ∨ xs.foldl max a ∈ xs)
  | [], a => by simp
  | x :: xs, a => by
    obtain ⟨⟨h1, h2⟩, -, h5, -⟩ := foldl_min_max xs (min a x)
    obtain ⟨-, ⟨h3, h4⟩, -, h6⟩ := foldl_min_max xs (max a x)
    refine ⟨⟨h1.trans (min_le_left _ _), ?_⟩, ⟨(le_max_left _ _).trans h3, ?_⟩, ?_, ?_⟩
    · intro y hy
      rcases List.mem_cons.1 hy with rfl | hy
      · exact h1.trans (min_le_right _ _)
      · exact h2 y hy
    · intro y hy
      rcases List.mem_cons.1 hy with rfl | hy
      · exact (le_max_right _ _).trans h3
      · exact h4 y hy
    · simp only [List.foldl_cons]
      rcases h5 with h5 | h5
      · rcases min_choice a x with h | h
        · left; rw [h5, h]
        · right; rw [h5, h]; simp
      · right; simp [h5]
    · simp only [List.foldl_cons]
      rcases h6 with h6 | h6
      · rcases max_choice a x with h | h
        · left; rw [h6, h]
        · right; rw [h6, h]; simp
      · right; simp [h6]

/-- **C67** (a number of bins): `n` bins are `n` intervals of equal width whose edges include all data,
from the minimum to the maximum unless all data are equal. -/
theorem C67_equal_width [IsStrictOrderedRing K] (fmt : Edge K → String) (data : List K) (n : ℤ) (hn : 1 ≤ n)
    (normalize asPct : Bool) (labels : Option (List String)) :
    ∃ lo hi : K, lo < hi ∧ (∀ x ∈ data, lo ≤ x ∧ x ≤ hi) ∧
      ((∃ x ∈ data, ∃ y ∈ data, x ≠ y) → lo ∈ data ∧ hi ∈ data) ∧
      bucketPercentages fmt data (.count n) none normalize asPct labels =
        bucketPercentages fmt data
          (.edges ((List.range (n.toNat + 1)).map fun (i : ℕ) => Edge.of (lo + (hi - lo) * i / n)))
          none normalize asPct labels := by
  have hr : (histRange data).1 < (histRange data).2 ∧
      (∀ x ∈ data, (histRange data).1 ≤ x ∧ x ≤ (histRange data).2) ∧
      ((∃ x ∈ data, ∃ y ∈ data, x ≠ y) → (histRange data).1 ∈ data ∧ (histRange data).2 ∈ data) := by
    cases data with
    | nil => simp [histRange]
    | cons a xs =>
      obtain ⟨⟨h1, h2⟩, ⟨h3, h4⟩, h5, h6⟩ := foldl_min_max xs a
      have hb : ∀ x ∈ a :: xs, xs.foldl min a ≤ x ∧ x ≤ xs.foldl max a := by
        intro x hx
        rcases List.mem_cons.1 hx with rfl | hx
        · exact ⟨h1, h3⟩
        · exact ⟨h2 x hx, h4 x hx⟩
      unfold histRange
      simp only
      split_ifs with h
      · refine ⟨by simp only [h]; linarith, fun x hx => ?_, ?_⟩
        · obtain ⟨b1, b2⟩ := hb x hx
          constructor <;> simp only <;> linarith
        · rintro ⟨x, hx, y, hy, hxy⟩
          obtain ⟨b1, b2⟩ := hb x hx
          obtain ⟨c1, c2⟩ := hb y hy
          rw [h] at b1 c1
          exact absurd (le_antisymm (b2.trans c1) (c2.trans b1)) hxy
      · refine ⟨lt_of_le_of_ne (h1.trans h3) h, hb, fun _ => ⟨?_, ?_⟩⟩
        · simpa using h5
        · simpa using h6
  refine ⟨(histRange data).1, (histRange data).2, hr.1, hr.2.1, hr.2.2, ?_⟩
  set lo := (histRange data).1
  set hi := (histRange data).2
  obtain ⟨m, rfl⟩ : ∃ m : ℕ, n = m := ⟨n.toNat, by omega⟩
  have hm : (0 : K) < m := by
    have : 0 < m := by omega
    exact_mod_cast this
  have hes : (linspace lo hi m).map Edge.of =
      (List.range ((m : ℤ).toNat + 1)).map fun (i : ℕ) => Edge.of (lo + (hi - lo) * i / ((m : ℤ) : K)) := by
    unfold linspace
    rw [List.map_map]
    simp [Function.comp_def]
  have hsorted : ((linspace lo hi m).map Edge.of).Pairwise (· ≤ ·) := by
    unfold linspace
    rw [List.map_map, List.pairwise_map]
    refine List.pairwise_lt_range.imp fun {i j} hij => ?_
    simp only [Function.comp, Edge.of]
    rw [WithBot.coe_le_coe, WithTop.coe_le_coe]
    have h1 : (i : K) ≤ j := by exact_mod_cast hij.le
    have h2 : (hi - lo) * i ≤ (hi - lo) * j := mul_le_mul_of_nonneg_left h1 (by linarith [hr.1])
    have := div_le_div_of_nonneg_right h2 hm.le
    linarith
  have hh : npHistogram data (.count (m : ℤ)) = npHistogram data (.edges ((linspace lo hi m).map Edge.of)) := by
    unfold npHistogram
    simp only [not_not.2 hsorted, if_false, if_neg (show ¬ (m : ℤ) < 1 by omega), Int.toNat_natCast]
    rfl
  rw [← hes]
  unfold bucketPercentages
  simp only [hh]

/-! ### What is refused, and what is wrong -/

/-- **C67** (refused): a wrong number of labels (for data that are not empty). -/
theorem C67_label_mismatch (fmt : Edge K → String) (data : List K) (bins : BinsArg K)
    (cb : List (Edge K × Edge K)) (normalize asPct : Bool) (ls : List String) (hcb : cb ≠ [])
    (hdata : data ≠ []) (h : ls.length ≠ cb.length) :
    bucketPercentages fmt data bins (some cb) normalize asPct (some ls) = .error .valueError := by
  unfold bucketPercentages
  simp only [List.getLast?_eq_getLast_of_ne_nil hcb]
  have h1 := mapExcept_bucketValue (K := K) normalize asPct data.length
    (fun _ => by simpa using hdata) (cb.map fun b => data.countP fun x => InBucket b.1 b.2 x)
  rw [List.map_map, List.map_map] at h1
  show (mapExcept (bucketValue normalize asPct data.length) (cb.map _) >>= _) = _
  erw [h1]
  show (if (ls.length : ℤ) ≠ ((cb.map Prod.fst ++ [(cb.getLast hcb).2]).length : ℤ) - 1 then _ else _) = _
  rw [if_pos]
  · simpa using h

/-- **C67 fails** for the default arguments: `bucket_percentages(data)` is documented to use default bins
but always raises a TypeError. -/
theorem C67_default_fails (fmt : Edge K → String) (data : List K) (normalize asPct : Bool)
    (labels : Option (List String)) :
    bucketPercentages fmt data .none none normalize asPct labels = .error .typeError := rfl

/-- **C67 fails** for the default labels of custom buckets with a gap: buckets `[0, 1)` and `[5, 6)` are
labelled `[0, 5)` and `[5, 6)`; the data point 2 lies in the first bucket according to the labels, but is
not counted. -/
theorem C67_gap_labels_fails (fmt : Edge ℚ → String) (h0 : fmt (Edge.of 0) = "0")
    (h5 : fmt (Edge.of 5) = "5") (h6 : fmt (Edge.of 6) = "6") :
    bucketPercentages fmt [(2 : ℚ)] .none (some [(Edge.of 0, Edge.of 1), (Edge.of 5, Edge.of 6)]) false =
      .ok [("[0, 5)", .int 0), ("[5, 6)", .int 0)] ∧
    InBucket (Edge.of (0 : ℚ)) (Edge.of 5) 2 := by
  set cb : List (Edge ℚ × Edge ℚ) := [(Edge.of 0, Edge.of 1), (Edge.of 5, Edge.of 6)] with hcbdef
  have hcb : cb ≠ [] := by simp [hcbdef]
  have hl : defaultLabels fmt (cb.map Prod.fst ++ [(cb.getLast hcb).2]) = ["[0, 5)", "[5, 6)"] := by
    have e0 : (Edge.of (0 : ℚ) = ⊥) = False := by simp [Edge.of]
    have e5 : (Edge.of (5 : ℚ) = ⊥) = False := by simp [Edge.of]
    simp only [hcbdef, List.map_cons, List.map_nil, List.cons_append, List.nil_append, List.getLast_cons_cons,
      List.getLast_singleton, defaultLabels, e0, e5, if_false, h0, h5, h6]
    decide
  refine ⟨?_, by decide +kernel⟩
  rw [customBins_ok fmt [(2 : ℚ)] .none _ false true none hcb (by simp) ["[0, 5)", "[5, 6)"] hl rfl]
  decide +kernel

/-- **C67 fails** for the last bucket of a histogram: it is labelled `[0, 10)` but counts the point 10. -/
theorem C67_last_bucket_fails (fmt : Edge ℚ → String) (h0 : fmt (Edge.of 0) = "0")
    (h10 : fmt (Edge.of 10) = "10") :
    bucketPercentages fmt [(10 : ℚ)] (.edges [Edge.of 0, Edge.of 10]) none false =
      .ok [("[0, 10)", .int 1)] ∧ ¬ InBucket (Edge.of (0 : ℚ)) (Edge.of 10) 10 := by
  refine ⟨?_, by decide +kernel⟩
  have hs : [Edge.of (0 : ℚ), Edge.of 10].Pairwise (· ≤ ·) := by decide +kernel
  have e0 : (Edge.of (0 : ℚ) = ⊥) = False := by simp [Edge.of]
  have hl : defaultLabels fmt [Edge.of (0 : ℚ), Edge.of 10] = ["[0, 10)"] := by
    simp only [defaultLabels, e0, if_false, h0, h10]
    decide
  unfold bucketPercentages npHistogram
  simp only [not_not.2 hs, if_false, Option.getD_none]
  show (do
      let values ← mapExcept (bucketValue false true 1) (diffs (cumCounts [(10 : ℚ)] [Edge.of 0, Edge.of 10]))
      if ((defaultLabels fmt [Edge.of (0 : ℚ), Edge.of 10]).length : ℤ) ≠ (2 : ℤ) - 1 then .error .valueError
      else .ok (dictOf ((defaultLabels fmt [Edge.of (0 : ℚ), Edge.of 10]).zip values)) :
        Except PyErr (List (String × Scalar ℚ))) = _
  rw [hl]
  decide +kernel

/-- **C67 fails** for repeated labels: counts are dropped.  Two buckets with one point each under the same
label give one entry with the count 1. -/
theorem C67_repeated_label_fails (fmt : Edge ℚ → String) :
    bucketPercentages fmt [(0 : ℚ), 1] .none (some [(Edge.of 0, Edge.of 1), (Edge.of 1, ⊤)]) false true
      (some ["a", "a"]) = .ok [("a", .int 1)] := by
  rw [customBins_ok fmt _ .none _ false true (some ["a", "a"]) (by simp) (by simp) ["a", "a"] rfl rfl]
  decide +kernel

omit [Field K] in
/-- **C67** (default labels of contiguous custom buckets): the label of `[low, high)` is made of `low` and
`high`. -/
theorem C67_default_labels (fmt : Edge K → String) (cb : List (Edge K × Edge K)) (hcb : cb ≠ [])
    (h : Contiguous cb) :
    defaultLabels fmt (cb.map Prod.fst ++ [(cb.getLast hcb).2]) =
      cb.map fun b => (if b.1 = ⊥ then "(" else "[") ++ fmt b.1 ++ ", " ++ fmt b.2 ++ ")" := by
  induction cb with
  | nil => exact absurd rfl hcb
  | cons b cb ih =>
    cases cb with
    | nil => rfl
    | cons c cb =>
      have hbc : b.2 = c.1 := (List.isChain_cons_cons.1 h.2).1
      have := ih (by simp) ⟨fun d hd => h.1 d (by simp [hd]), (List.isChain_cons_cons.1 h.2).2⟩
      rw [List.getLast_cons_cons, List.map_cons (f := fun b => _ ++ _), ← this, hbc]
      rfl

/-! #### The hypotheses are met -/

/-- The documentation's custom bins: `(-inf, 0)`, `[0, 5)`, `[5, 10)`, `[10, inf)`. -/
example (fmt : Edge ℚ → String) := C67_partition fmt [(-1 : ℚ), 0, 4, 5, 12] .none
  [(⊥, Edge.of 0), (Edge.of 0, Edge.of 5), (Edge.of 5, Edge.of 10), (Edge.of 10, ⊤)] (by simp)
  ["Negative", "Low", "Medium", "High"] rfl (by decide)
  ⟨by decide +kernel, by
    simp only [List.isChain_cons_cons, List.isChain_singleton, and_self]⟩
  (by decide +kernel) (by simp)

example (fmt : Edge ℚ → String) := C67_histogram fmt [(-1 : ℚ), 0, 4, 5, 12]
  [⊥, Edge.of 2, Edge.of 4, ⊤] true true ["a", "b", "c"] (by decide +kernel) rfl (by decide) (by simp)

end Verif
