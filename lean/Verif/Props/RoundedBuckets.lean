import Verif.Model.RoundedBuckets
import Verif.Props.Buckets
import Verif.Props.RoundedDists

/-!
# Bucket percentages in floating-point arithmetic (C159)

`fl` is any correct rounding to `p` binary digits (53 for a Python float).
-/

namespace Verif
open Verif.Spec

variable {K : Type} [Field K] [LinearOrder K] [IsStrictOrderedRing K] [FloorRing K] {p : ℕ} {fl : K → K}

/-- `v` is a sound percentage for `c` of `n` data: between 0 and 100, these two only for none and for all, and right up
to two roundings. -/
def SoundPercentage (p c n : ℕ) (v : K) : Prop :=
  0 ≤ v ∧ v ≤ 100 ∧ (v = 0 ↔ c = 0) ∧ (v = 100 ↔ c = n) ∧
    |v - 100 * c / n| ≤ ((1 + ulp p) ^ 2 - 1) * (100 * c / n)

/-- The rounded percentage. -/
def percentFl (fl : K → K) (c n : ℕ) : K := fl (fl ((c : K) / n) * 100)

theorem hundred_float (hp : 7 ≤ p) : IsFloat p (100 : K) :=
  ⟨100, 0, by
    have : (2 : ℤ) ^ 7 ≤ 2 ^ p := pow_le_pow_right₀ (by norm_num) hp
    norm_num at this ⊢
    linarith, by norm_num⟩

omit [FloorRing K] in
theorem four_ulp {n : ℕ} (hn : 8 * n ≤ 2 ^ p) : 8 * ((n : K) * ulp p) ≤ 1 := by
  unfold ulp
  have : ((8 * n : ℕ) : K) ≤ ((2 ^ p : ℕ) : K) := by exact_mod_cast hn
  push_cast at this
  rw [mul_one_div, ← mul_div_assoc, div_le_one (by positivity)]
  exact this

theorem percentFl_err (h : RoundsTo p fl) (c n : ℕ) :
    |percentFl fl c n - 100 * c / n| ≤ ((1 + ulp p) ^ 2 - 1) * (100 * c / n : K) := by
  have hu := ulp_pos (K := K) p
  have hq : (0 : K) ≤ (c : K) / n := by positivity
  have h1 := h.err ((c : K) / n)
  have h2 := h.err (fl ((c : K) / n) * 100)
  have hf : 0 ≤ fl ((c : K) / n) := h.nonneg hq
  unfold percentFl
  rw [abs_of_nonneg hq] at h1
  rw [abs_of_nonneg (mul_nonneg hf (by norm_num))] at h2
  rw [mul_div_assoc]
  set q := (c : K) / n
  rw [abs_le] at *
  constructor <;> nlinarith [mul_nonneg hu.le hq]

/-- More data, a larger percentage. -/
theorem percentFl_lt (h : RoundsTo p fl) {c d n : ℕ} (hcd : c < d) (hd : d ≤ n) (hn : 8 * n ≤ 2 ^ p) :
    percentFl fl c n < percentFl fl d n := by
  have hu := ulp_pos (K := K) p
  have hu8 := four_ulp (K := K) hn
  have hn0 : (0 : K) < n := by exact_mod_cast (show 0 < n by omega)
  have h1 := abs_le.1 (percentFl_err (fl := fl) h c n)
  have h2 := abs_le.1 (percentFl_err (fl := fl) h d n)
  set E := (1 + ulp (K := K) p) ^ 2 - 1 with hE
  have e : ∀ k : ℕ, (100 * k / n : K) * n = 100 * k := fun k => by field_simp
  have hk : ∀ k : ℕ, k ≤ n → (100 * k / n : K) ≤ 100 := by
    intro k hk
    rw [div_le_iff₀ hn0]
    have : (k : K) ≤ n := by exact_mod_cast hk
    linarith
  have gap : (100 : K) / n ≤ 100 * d / n - 100 * c / n := by
    rw [← sub_div, div_le_div_iff_of_pos_right hn0]
    have : (c : K) + 1 ≤ d := by exact_mod_cast hcd
    linarith
  have n1 : (1 : K) ≤ n := by exact_mod_cast (show 1 ≤ n by omega)
  have hu1 : ulp (K := K) p ≤ 1 / 8 := by nlinarith
  have hE0 : 0 < E := by rw [hE]; nlinarith
  have small : E * 100 + E * 100 < 100 / n := by
    rw [lt_div_iff₀ hn0]
    have : E ≤ 17 / 8 * ulp p := by rw [hE]; nlinarith
    nlinarith
  have hc' := mul_le_mul_of_nonneg_left (hk c (by omega)) hE0.le
  have hd' := mul_le_mul_of_nonneg_left (hk d hd) hE0.le
  linarith [h1.2, h2.1]

theorem percentFl_sound (h : RoundsTo p fl) (hp : 7 ≤ p) {c n : ℕ} (hn0 : 0 < n) (hc : c ≤ n) (hn : 8 * n ≤ 2 ^ p) :
    SoundPercentage p c n (percentFl fl c n) := by
  have z : percentFl fl 0 n = 0 := by simp [percentFl, h.zero]
  have o : percentFl fl n n = 100 := by
    have : (n : K) ≠ 0 := by exact_mod_cast hn0.ne'
    simp only [percentFl, div_self this, h.one, one_mul]
    exact h.exact (hundred_float hp)
  have lo : c ≠ 0 → 0 < percentFl fl c n := fun hc0 => z ▸ percentFl_lt h (Nat.pos_of_ne_zero hc0) hc hn
  have hi : c ≠ n → percentFl fl c n < 100 := fun hcn => o ▸ percentFl_lt h (lt_of_le_of_ne hc hcn) le_rfl hn
  refine ⟨?_, ?_, ⟨fun e => ?_, fun e => e ▸ z⟩, ⟨fun e => ?_, fun e => by rw [e, o]⟩, percentFl_err h c n⟩
  · by_cases hc0 : c = 0
    · rw [hc0, z]
    · exact (lo hc0).le
  · by_cases hcn : c = n
    · rw [hcn, o]
    · exact (hi hcn).le
  · by_contra hc0
    exact absurd e (lo hc0).ne'
  · by_contra hcn
    exact absurd e (hi hcn).ne

omit [LinearOrder K] [IsStrictOrderedRing K] [FloorRing K] in
theorem mapExcept_bucketValueFl (total : ℕ) (h : total ≠ 0) (cs : List ℕ) :
    mapExcept (bucketValueFl fl true true total) (cs.map (fun c : ℕ => (c : ℤ))) =
      .ok (cs.map fun c => Scalar.flt (percentFl fl c total)) := by
  rw [mapExcept_ok, List.forall₂_map_left_iff, List.forall₂_map_right_iff, List.forall₂_same]
  intro c _
  unfold bucketValueFl percentFl
  simp [h]

omit [IsStrictOrderedRing K] [FloorRing K] in
theorem customFl_run (fmt : Edge K → String) (data : List K) (bins : BinsArg K) (cb : List (Edge K × Edge K))
    (ls : List String) (hcb : cb ≠ []) (hdata : data ≠ []) (hlen : ls.length = cb.length) :
    bucketPercentagesFl fl fmt data bins (some cb) true true (some ls) =
      .ok (dictOf (ls.zip (cb.map fun b => Scalar.flt (percentFl fl
        (data.countP fun x => InBucket b.1 b.2 x) data.length)))) := by
  unfold bucketPercentagesFl
  simp only [List.getLast?_eq_getLast_of_ne_nil hcb]
  show (do
    let values ← mapExcept (bucketValueFl fl true true data.length) (cb.map fun b =>
          ((data.countP fun x => b.1 ≤ Edge.of x ∧ Edge.of x < b.2 : ℕ) : ℤ))
    if (ls.length : ℤ) ≠ ((cb.map Prod.fst ++ [(cb.getLast hcb).2]).length : ℤ) - 1 then .error .valueError
    else .ok (dictOf (ls.zip values)) : Except PyErr (List (String × Scalar K))) = _
  have h1 := mapExcept_bucketValueFl (fl := fl) data.length (by simpa using hdata)
    (cb.map fun b => data.countP fun x => InBucket b.1 b.2 x)
  rw [List.map_map, List.map_map] at h1
  have e : (cb.map fun b => ((data.countP fun x => b.1 ≤ Edge.of x ∧ Edge.of x < b.2 : ℕ) : ℤ)) =
      cb.map ((fun c : ℕ => (c : ℤ)) ∘ fun b => data.countP fun x => InBucket b.1 b.2 x) :=
    List.map_congr_left fun b _ => rfl
  rw [e, h1]
  show (if (ls.length : ℤ) ≠ ((cb.map Prod.fst ++ [(cb.getLast hcb).2]).length : ℤ) - 1 then _ else _) = _
  rw [if_neg]
  · rfl
  · simp [hlen]

/-- **C159** (custom buckets): with one distinct label per bucket, every percentage is sound for the number of data in
`[low, high)`. -/
theorem C159_custom (h : RoundsTo p fl) (hp : 7 ≤ p) (fmt : Edge K → String) (data : List K) (bins : BinsArg K)
    (cb : List (Edge K × Edge K)) (ls : List String) (hcb : cb ≠ []) (hdata : data ≠ [])
    (hn : 8 * data.length ≤ 2 ^ p) (hlen : ls.length = cb.length) (hnd : ls.Nodup) :
    ∃ d, bucketPercentagesFl fl fmt data bins (some cb) true true (some ls) = .ok d ∧
      (d.map Prod.fst).Nodup ∧ (∀ k, k ∈ d.map Prod.fst ↔ k ∈ ls) ∧
      ∀ i (hi : i < cb.length), ∃ v, dictGet d (ls[i]'(hlen.symm ▸ hi)) = .ok (.flt v) ∧
        SoundPercentage p (data.filter fun x => InBucket (cb[i]).1 (cb[i]).2 x).length data.length v := by
  refine ⟨_, customFl_run fmt data bins cb ls hcb hdata hlen, ?_⟩
  obtain ⟨h1, h2, h3⟩ := zip_dict ls (cb.map fun b => Scalar.flt (percentFl fl
    (data.countP fun x => InBucket b.1 b.2 x) data.length)) (by simp [hlen]) hnd
  refine ⟨h1, h2, fun i hi => ⟨_, by rw [h3 i (hlen.symm ▸ hi), List.getElem_map], ?_⟩⟩
  rw [← List.countP_eq_length_filter]
  exact percentFl_sound h hp (List.length_pos_iff.2 hdata) List.countP_le_length hn

/-- **C159** (histogram): the same for a list of non-decreasing edges, the last bucket including its right end. -/
theorem C159_histogram (h : RoundsTo p fl) (hp : 7 ≤ p) (fmt : Edge K → String) (data : List K) (es : List (Edge K))
    (ls : List String) (hs : es.Pairwise (· ≤ ·)) (hlen : ls.length + 1 = es.length) (hnd : ls.Nodup)
    (hdata : data ≠ []) (hn : 8 * data.length ≤ 2 ^ p) :
    ∃ d, bucketPercentagesFl fl fmt data (.edges es) none true true (some ls) = .ok d ∧
      (d.map Prod.fst).Nodup ∧ (∀ k, k ∈ d.map Prod.fst ↔ k ∈ ls) ∧
      ∀ i (hi : i < ls.length), ∃ v, dictGet d ls[i] = .ok (.flt v) ∧
        SoundPercentage p (data.filter fun x => (es[i]'(by omega)) ≤ Edge.of x ∧
          (Edge.of x < (es[i + 1]'(by omega)) ∨
            (i + 1 = ls.length ∧ Edge.of x = (es[i + 1]'(by omega))))).length data.length v := by
  obtain ⟨cs, h1, h2, h3⟩ := histogram_counts data es hs
  have hcs : ls.length = cs.length := by omega
  have hrun : bucketPercentagesFl fl fmt data (.edges es) none true true (some ls) =
      .ok (dictOf (ls.zip (cs.map fun c => Scalar.flt (percentFl fl c data.length)))) := by
    unfold bucketPercentagesFl npHistogram
    simp only [not_not.2 hs, if_false]
    show (do
      let values ← mapExcept (bucketValueFl fl true true data.length) (diffs (cumCounts data es))
      if (ls.length : ℤ) ≠ (es.length : ℤ) - 1 then .error .valueError
      else .ok (dictOf (ls.zip values)) : Except PyErr (List (String × Scalar K))) = _
    rw [h1, mapExcept_bucketValueFl data.length (by simpa using hdata)]
    show (if (ls.length : ℤ) ≠ (es.length : ℤ) - 1 then _ else _) = _
    rw [if_neg]
    omega
  refine ⟨_, hrun, ?_⟩
  obtain ⟨g1, g2, g3⟩ := zip_dict ls (cs.map fun c => Scalar.flt (percentFl fl c data.length)) (by simp [hcs]) hnd
  refine ⟨g1, g2, fun i hi => ⟨_, by rw [g3 i hi, List.getElem_map], ?_⟩⟩
  have hc := h3 i (by omega)
  rw [List.getElem?_eq_getElem (by omega), Option.some.injEq] at hc
  rw [hc, ← List.countP_eq_length_filter]
  by_cases hl : i + 1 = ls.length
  · rw [if_pos (by omega)]
    simp only [hl, true_and, ← le_iff_lt_or_eq]
    exact percentFl_sound h hp (List.length_pos_iff.2 hdata) List.countP_le_length hn
  · rw [if_neg (by omega)]
    simp only [hl, false_and, or_false]
    exact percentFl_sound h hp (List.length_pos_iff.2 hdata) List.countP_le_length hn

/-- **C159** (order): of two buckets, the one with more data gets the larger percentage, and buckets with equally many
data get the same. -/
theorem C159_order (h : RoundsTo p fl) (fmt : Edge K → String) (data : List K) (bins : BinsArg K)
    (cb : List (Edge K × Edge K)) (ls : List String) (hcb : cb ≠ []) (hdata : data ≠ [])
    (hn : 8 * data.length ≤ 2 ^ p) (hlen : ls.length = cb.length) (hnd : ls.Nodup) :
    ∃ d, bucketPercentagesFl fl fmt data bins (some cb) true true (some ls) = .ok d ∧
      ∀ i (hi : i < cb.length) j (hj : j < cb.length), ∃ v w,
        dictGet d (ls[i]'(hlen.symm ▸ hi)) = .ok (.flt v) ∧ dictGet d (ls[j]'(hlen.symm ▸ hj)) = .ok (.flt w) ∧
        (v < w ↔ (data.filter fun x => InBucket (cb[i]).1 (cb[i]).2 x).length <
          (data.filter fun x => InBucket (cb[j]).1 (cb[j]).2 x).length) ∧
        (v = w ↔ (data.filter fun x => InBucket (cb[i]).1 (cb[i]).2 x).length =
          (data.filter fun x => InBucket (cb[j]).1 (cb[j]).2 x).length) := by
  refine ⟨_, customFl_run fmt data bins cb ls hcb hdata hlen, fun i hi j hj => ?_⟩
  obtain ⟨-, -, h3⟩ := zip_dict ls (cb.map fun b => Scalar.flt (percentFl fl
    (data.countP fun x => InBucket b.1 b.2 x) data.length)) (by simp [hlen]) hnd
  refine ⟨_, _, by rw [h3 i (hlen.symm ▸ hi), List.getElem_map], by rw [h3 j (hlen.symm ▸ hj), List.getElem_map], ?_⟩
  rw [← List.countP_eq_length_filter, ← List.countP_eq_length_filter]
  set a := data.countP fun x => InBucket (cb[i]).1 (cb[i]).2 x
  set b := data.countP fun x => InBucket (cb[j]).1 (cb[j]).2 x
  have ha : a ≤ data.length := List.countP_le_length
  have hb : b ≤ data.length := List.countP_le_length
  rcases lt_trichotomy a b with hab | hab | hab
  · have := percentFl_lt (fl := fl) h hab hb hn
    exact ⟨iff_of_true this hab, iff_of_false this.ne hab.ne⟩
  · rw [hab]; simp
  · have := percentFl_lt (fl := fl) h hab ha hn
    exact ⟨iff_of_false this.not_gt hab.not_gt, iff_of_false this.ne' hab.ne'⟩

/-- **C159, partial** (total).  Full statement: the percentages of contiguous buckets that cover the data add up to 100.
Missing: only up to two roundings; see `C159_total_fails`. -/
theorem C159_total_partial (h : RoundsTo p fl) (fmt : Edge K → String) (data : List K) (bins : BinsArg K)
    (cb : List (Edge K × Edge K)) (hcb : cb ≠ []) (ls : List String) (hlen : ls.length = cb.length)
    (hnd : ls.Nodup) (hcont : Contiguous cb)
    (hcover : ∀ x ∈ data, (cb.head hcb).1 ≤ Edge.of x ∧ Edge.of x < (cb.getLast hcb).2) (hdata : data ≠ []) :
    ∃ d, ∃ vs : List K, bucketPercentagesFl fl fmt data bins (some cb) true true (some ls) = .ok d ∧
      d.map Prod.fst = ls ∧ d.map (fun p => p.2.val?) = vs.map some ∧
      |vs.sum - 100| ≤ ((1 + ulp p) ^ 2 - 1) * 100 := by
  obtain ⟨b, cb', rfl⟩ : ∃ b cb', cb = b :: cb' := by
    cases cb with
    | nil => exact absurd rfl hcb
    | cons b cb' => exact ⟨b, cb', rfl⟩
  set f : Edge K × Edge K → ℕ := fun c => data.countP fun x => InBucket c.1 c.2 x with hf
  have hs := (contiguous_sum data b cb' hcont).1
  have hall : data.countP (fun x => InBucket b.1 ((b :: cb').getLast (by simp)).2 x) = data.length := by
    rw [List.countP_eq_length]
    intro x hx
    exact decide_eq_true (hcover x hx)
  rw [hall] at hs
  have hn : (data.length : K) ≠ 0 := by simpa using hdata
  have hdict : ∀ vs : List (Scalar K), ls.length = vs.length → dictOf (ls.zip vs) = ls.zip vs := by
    intro vs hv
    have : ∀ ps : List (String × Scalar K), (ps.map Prod.fst).Nodup → dictOf ps = ps := by
      intro ps
      induction ps using List.reverseRecOn with
      | nil => intro _; rfl
      | append_singleton ps q ih =>
        intro h
        rw [List.map_append, List.nodup_append] at h
        rw [dictOf_append, ih h.1]
        unfold dictSet
        rw [if_neg]
        intro hm
        exact h.2.2 _ hm q.1 (by simp) rfl
    exact this _ (by rw [List.map_fst_zip hv.le]; exact hnd)
  have key : ∀ l : List (Edge K × Edge K), |(l.map fun c => percentFl fl (f c) data.length).sum
      - 100 * ((l.map f).sum : ℕ) / data.length|
      ≤ ((1 + ulp p) ^ 2 - 1) * (100 * ((l.map f).sum : ℕ) / data.length) := by
    intro l
    induction l with
    | nil => simp
    | cons a l ih =>
      simp only [List.map_cons, List.sum_cons, Nat.cast_add]
      have h1 := abs_le.1 (percentFl_err (fl := fl) h (f a) data.length)
      have h2 := abs_le.1 ih
      rw [mul_add, add_div, mul_add, abs_le]
      constructor <;> linarith [h1.1, h1.2, h2.1, h2.2]
  refine ⟨_, (b :: cb').map fun c => percentFl fl (f c) data.length, customFl_run fmt data bins (b :: cb') ls hcb hdata hlen,
    ?_, ?_, ?_⟩
  · rw [hdict _ (by simpa using hlen), List.map_fst_zip (by simp [hlen])]
  · rw [hdict _ (by simpa using hlen)]
    show (ls.zip _).map (Scalar.val? ∘ Prod.snd) = _
    rw [← List.map_map, List.map_snd_zip (by simp [hlen]), List.map_map, List.map_map]
    exact List.map_congr_left fun c _ => rfl
  · have := key (b :: cb')
    rw [hs, mul_div_assoc, div_self hn, mul_one] at this
    exact this

/-- **C159** (fractions): with `as_percentage=False` every value is the correctly rounded fraction of the data, and with
`normalize=False` the number of data. -/
theorem C159_fraction (h : RoundsTo p fl) (fmt : Edge K → String) (data : List K) (bins : BinsArg K)
    (cb : List (Edge K × Edge K)) (ls : List String) (normalize : Bool) (hcb : cb ≠ []) (hdata : data ≠ [])
    (hlen : ls.length = cb.length) (hnd : ls.Nodup) :
    ∃ d, bucketPercentagesFl fl fmt data bins (some cb) normalize false (some ls) = .ok d ∧
      (d.map Prod.fst).Nodup ∧ (∀ k, k ∈ d.map Prod.fst ↔ k ∈ ls) ∧
      ∀ i (hi : i < cb.length), ∃ c : ℕ, c = (data.filter fun x => InBucket (cb[i]).1 (cb[i]).2 x).length ∧
        dictGet d (ls[i]'(hlen.symm ▸ hi)) = .ok (if normalize then .flt (fl (c / data.length)) else .int c) := by
  set g : ℕ → Scalar K := fun c => if normalize then .flt (fl ((c : K) / data.length)) else .int c with hg
  have hrun : bucketPercentagesFl fl fmt data bins (some cb) normalize false (some ls) =
      .ok (dictOf (ls.zip (cb.map fun b => g (data.countP fun x => InBucket b.1 b.2 x)))) := by
    unfold bucketPercentagesFl
    simp only [List.getLast?_eq_getLast_of_ne_nil hcb]
    show (do
      let values ← mapExcept (bucketValueFl fl normalize false data.length) (cb.map fun b =>
            ((data.countP fun x => b.1 ≤ Edge.of x ∧ Edge.of x < b.2 : ℕ) : ℤ))
      if (ls.length : ℤ) ≠ ((cb.map Prod.fst ++ [(cb.getLast hcb).2]).length : ℤ) - 1 then .error .valueError
      else .ok (dictOf (ls.zip values)) : Except PyErr (List (String × Scalar K))) = _
    have h1 : mapExcept (bucketValueFl fl normalize false data.length) (cb.map fun b =>
        ((data.countP fun x => b.1 ≤ Edge.of x ∧ Edge.of x < b.2 : ℕ) : ℤ)) =
        .ok (cb.map fun b => g (data.countP fun x => InBucket b.1 b.2 x)) := by
      rw [mapExcept_ok, List.forall₂_map_left_iff, List.forall₂_map_right_iff, List.forall₂_same]
      intro b _
      unfold bucketValueFl
      cases normalize with
      | false => rfl
      | true =>
        have : data.length ≠ 0 := by simpa using hdata
        simp only [if_true, if_neg this, hg, Bool.false_eq_true, if_false, mul_one, h.idem, Int.cast_natCast]
        rfl
    rw [h1]
    show (if (ls.length : ℤ) ≠ ((cb.map Prod.fst ++ [(cb.getLast hcb).2]).length : ℤ) - 1 then _ else _) = _
    rw [if_neg]
    simp [hlen]
  refine ⟨_, hrun, ?_⟩
  obtain ⟨h1, h2, h3⟩ := zip_dict ls (cb.map fun b => g (data.countP fun x => InBucket b.1 b.2 x)) (by simp [hlen]) hnd
  refine ⟨h1, h2, fun i hi => ⟨_, rfl, ?_⟩⟩
  rw [h3 i (hlen.symm ▸ hi), List.getElem_map, ← List.countP_eq_length_filter]

theorem third_percent : percentFl (roundBits 53) 1 3 < (100 / 3 : ℚ) := by
  decide +kernel

theorem seven_percent : (7 : ℚ) < percentFl (roundBits 53) 7 100 := by
  decide +kernel

/-- **C159 is violated by the code** (total): three data in three buckets get percentages that do not add up to 100,
even if they are added exactly. -/
theorem C159_total_fails (fmt : Edge ℚ → String) : ∃ a b c : ℚ,
    bucketPercentagesFl (roundBits 53) fmt [0, 1, 2] .none
      (some [(Edge.of 0, Edge.of 1), (Edge.of 1, Edge.of 2), (Edge.of 2, Edge.of 3)]) true true (some ["low", "mid", "high"])
      = .ok [("low", .flt a), ("mid", .flt b), ("high", .flt c)] ∧ a + b + c < 100 := by
  refine ⟨percentFl (roundBits 53) 1 3, percentFl (roundBits 53) 1 3, percentFl (roundBits 53) 1 3, ?_, ?_⟩
  · rw [customFl_run fmt _ _ _ _ (by simp) (by simp) (by simp)]
    rfl
  · linarith [third_percent]

/-- **C159 is violated by the code** (whole percentages): 7 of 100 data are reported as more than 7 percent. -/
theorem C159_whole_fails (fmt : Edge ℚ → String) : ∃ v : ℚ,
    bucketPercentagesFl (roundBits 53) fmt (List.replicate 7 0 ++ List.replicate 93 1) .none
      (some [(Edge.of 0, Edge.of 1)]) true true (some ["low"]) = .ok [("low", .flt v)] ∧ 7 < v := by
  refine ⟨percentFl (roundBits 53) 7 100, ?_, seven_percent⟩
  rw [customFl_run fmt _ _ _ _ (by simp) (by simp) (by simp)]
  rfl

/-- The hypotheses are met: three buckets with doubles. -/
example (fmt : Edge ℚ → String) : ∃ d, bucketPercentagesFl (roundBits 53) fmt [0, 1, 1, 2] .none
    (some [(⊥, Edge.of 1), (Edge.of 1, Edge.of 2), (Edge.of 2, ⊤)]) true true (some ["low", "mid", "high"]) = .ok d ∧
    ∃ v, dictGet d "mid" = .ok (.flt v) ∧ SoundPercentage 53 2 4 v := by
  obtain ⟨d, h1, -, -, h2⟩ := C159_custom (roundBits_roundsTo (K := ℚ) (p := 53) (by norm_num)) (by norm_num) fmt
    [0, 1, 1, 2] .none [(⊥, Edge.of 1), (Edge.of 1, Edge.of 2), (Edge.of 2, ⊤)] ["low", "mid", "high"] (by simp) (by simp)
    (by norm_num) (by simp) (by decide)
  obtain ⟨v, h3, h4⟩ := h2 1 (by simp)
  refine ⟨d, h1, v, h3, ?_⟩
  have : ([0, 1, 1, 2] : List ℚ).filter (fun x => InBucket (Edge.of 1) (Edge.of 2) x) = [1, 1] := by decide +kernel
  simpa [this] using h4

end Verif
