import Verif.Model.RoundedWeighted
import Verif.Props.WeightedPercentiles
import Verif.Props.RoundedHelpers

/-!
# C163: weighted percentiles in floating-point arithmetic
-/

namespace Verif
open Verif.Spec

variable {K : Type} [Field K] [LinearOrder K] [IsStrictOrderedRing K] [FloorRing K] {p : ℕ} {fl : K → K}

/-- What is computed between two points. -/
theorem segment_bounds (h : RoundsTo p fl) (hp : 6 ≤ p) {a b f g x : K} (hf : IsFloat p f) (hfg : f ≤ g) (hax : a ≤ x)
    (hxb : x < b) :
    f ≤ fl (fl (fl (fl (g - f) / fl (b - a)) * fl (x - a)) + f) ∧
    fl (fl (fl (fl (g - f) / fl (b - a)) * fl (x - a)) + f) ≤ g + (5 * ulp p * (g - f) + ulp p * |g|) := by
  have hu := ulp_pos (K := K) p
  have hu6 := ulp_le_64 (K := K) hp
  have hD0 : 0 ≤ fl (g - f) := h.nonneg (by linarith)
  have hD1 := h.le_mul (x := g - f) (by linarith)
  have hE0 : 0 < fl (b - a) := h.pos (by omega) (by linarith)
  have hm0 : 0 ≤ fl (x - a) := h.nonneg (by linarith)
  have hm1 : fl (x - a) ≤ fl (b - a) := h.mono (by linarith)
  set D := fl (g - f)
  set E := fl (b - a)
  set m := fl (x - a)
  have hS0 : 0 ≤ fl (D / E) := h.nonneg (div_nonneg hD0 hE0.le)
  have hS1 := h.le_mul (x := D / E) (div_nonneg hD0 hE0.le)
  set S := fl (D / E)
  have hSm : S * m ≤ (1 + ulp p) * D := by
    have h1 : S * m ≤ S * E := mul_le_mul_of_nonneg_left hm1 hS0
    have h2 : S * E ≤ (1 + ulp p) * (D / E) * E := mul_le_mul_of_nonneg_right hS1 hE0.le
    have h3 : (1 + ulp p) * (D / E) * E = (1 + ulp p) * D := by field_simp
    linarith
  have hq0 : 0 ≤ fl (S * m) := h.nonneg (mul_nonneg hS0 hm0)
  have hq1 := h.le_mul (mul_nonneg hS0 hm0)
  set q := fl (S * m)
  refine ⟨h.le_of_ge hf (by linarith), ?_⟩
  have hu1 : 0 ≤ 1 + ulp (K := K) p := by linarith
  have hq2 : q ≤ (1 + 4 * ulp p) * (g - f) := by
    have h1 : (1 + ulp p) * (S * m) ≤ (1 + ulp p) * ((1 + ulp p) * D) := mul_le_mul_of_nonneg_left hSm hu1
    have h2 : (1 + ulp p) * ((1 + ulp p) * D) ≤ (1 + ulp p) * ((1 + ulp p) * ((1 + ulp p) * (g - f))) :=
      mul_le_mul_of_nonneg_left (mul_le_mul_of_nonneg_left hD1 hu1) hu1
    have h3 : (1 + ulp p) * ((1 + ulp p) * ((1 + ulp p) * (g - f))) ≤ (1 + 4 * ulp p) * (g - f) := by
      have h4 : (1 + ulp (K := K) p) * ((1 + ulp p) * (1 + ulp p)) ≤ 1 + 4 * ulp p := by
        have b1 : ulp (K := K) p * ulp p ≤ 1 / 64 * ulp p := mul_le_mul_of_nonneg_right hu6 hu.le
        have b2 : ulp (K := K) p * (ulp p * ulp p) ≤ 1 / 64 * (ulp p * ulp p) :=
          mul_le_mul_of_nonneg_right hu6 (mul_nonneg hu.le hu.le)
        nlinarith
      have := mul_le_mul_of_nonneg_right h4 (by linarith : 0 ≤ g - f)
      linarith
    linarith
  have hy : q + f ≤ g + 4 * ulp p * (g - f) := by linarith
  have h1 := h.mono hy
  have h2 := (abs_le.1 (h.err (g + 4 * ulp p * (g - f)))).2
  have h3 : |g + 4 * ulp p * (g - f)| ≤ |g| + 4 * ulp p * (g - f) := by
    refine (abs_add_le _ _).trans (le_of_eq ?_)
    rw [abs_of_nonneg (mul_nonneg (by linarith) (by linarith : 0 ≤ g - f))]
  have h4 := mul_le_mul_of_nonneg_left h3 hu.le
  have h5 : ulp p * (4 * ulp p * (g - f)) ≤ ulp p * (g - f) := by
    refine mul_le_mul_of_nonneg_left ?_ hu.le
    have : 4 * ulp p * (g - f) ≤ 1 * (g - f) := mul_le_mul_of_nonneg_right (by linarith) (by linarith)
    linarith
  linarith

theorem segment_mono (h : RoundsTo p fl) {a b f g x x' : K} (hfg : f ≤ g) (hxb : a < b)
    (hxx : x ≤ x') :
    fl (fl (fl (fl (g - f) / fl (b - a)) * fl (x - a)) + f) ≤
      fl (fl (fl (fl (g - f) / fl (b - a)) * fl (x' - a)) + f) := by
  have hS : 0 ≤ fl (fl (g - f) / fl (b - a)) :=
    h.nonneg (div_nonneg (h.nonneg (by linarith)) (h.nonneg (by linarith)))
  have h1 : fl (x - a) ≤ fl (x' - a) := h.mono (by linarith)
  have h2 := h.mono (mul_le_mul_of_nonneg_left h1 hS)
  exact h.mono (by linarith)

theorem interpFl_spec (h : RoundsTo p fl) (hp : 6 ≤ p) (x : K) (ks : List (K × K)) (hne : ks ≠ [])
    (hs : ks.Pairwise fun k l => k.2 ≤ l.2) (hf : ∀ k ∈ ks, IsFloat p k.2) :
    ∃ v, interpFl fl x ks = .ok v ∧ ∃ a ∈ ks.map Prod.snd, ∃ b ∈ ks.map Prod.snd, a ≤ b ∧
      (∀ z ∈ ks.map Prod.snd, z ≤ a ∨ b ≤ z) ∧ a ≤ v ∧ v ≤ b + (5 * ulp p * (b - a) + ulp p * |b|) := by
  have hu := ulp_pos (K := K) p
  have one : ∀ f : K, f ≤ f + (5 * ulp p * (f - f) + ulp p * |f|) := fun f => by
    have := mul_nonneg hu.le (abs_nonneg f)
    rw [sub_self]; linarith
  induction ks with
  | nil => exact absurd rfl hne
  | cons k ks ih =>
    obtain ⟨a, f⟩ := k
    cases ks with
    | nil => exact ⟨f, rfl, f, by simp, f, by simp, le_rfl, by simp, le_rfl, one f⟩
    | cons k' rest =>
      obtain ⟨b, g⟩ := k'
      have hfg : f ≤ g := (List.pairwise_cons.1 hs).1 (b, g) (by simp)
      have hlow : ∀ z ∈ ((a, f) :: (b, g) :: rest).map Prod.snd, f ≤ z := by
        intro z hz
        obtain ⟨k, hk, rfl⟩ := List.mem_map.1 hz
        rcases List.mem_cons.1 hk with rfl | hk
        · exact le_rfl
        · exact (List.pairwise_cons.1 hs).1 k hk
      have hlow' : ∀ z ∈ ((b, g) :: rest).map Prod.snd, g ≤ z := by
        intro z hz
        obtain ⟨k, hk, rfl⟩ := List.mem_map.1 hz
        rcases List.mem_cons.1 hk with rfl | hk
        · exact le_rfl
        · exact (List.pairwise_cons.1 (List.pairwise_cons.1 hs).2).1 k hk
      unfold interpFl
      by_cases h1 : x < a
      · rw [if_pos h1]
        exact ⟨f, rfl, f, by simp, f, by simp, le_rfl, fun z hz => .inr (hlow z hz), le_rfl, one f⟩
      · rw [if_neg h1]
        by_cases h2 : b ≤ x
        · rw [if_pos h2]
          obtain ⟨v, h3, c, hc, d, hd, h4, h5, h6, h7⟩ := ih (by simp) (List.pairwise_cons.1 hs).2
            (fun k hk => hf k (List.mem_cons_of_mem _ hk))
          refine ⟨v, h3, c, List.mem_cons_of_mem _ hc, d, List.mem_cons_of_mem _ hd, h4, ?_, h6, h7⟩
          intro z hz
          rw [List.map_cons] at hz
          rcases List.mem_cons.1 hz with rfl | hz
          · exact .inl (hfg.trans (hlow' c hc))
          · exact h5 z hz
        · rw [if_neg h2]
          obtain ⟨h3, h4⟩ := segment_bounds h hp (hf (a, f) (by simp)) hfg (not_lt.1 h1) (not_le.1 h2)
          refine ⟨_, rfl, f, by simp, g, by simp, hfg, ?_, h3, h4⟩
          intro z hz
          rw [List.map_cons] at hz
          rcases List.mem_cons.1 hz with rfl | hz
          · exact .inl le_rfl
          · exact .inr (hlow' z hz)

theorem interpFl_mono (h : RoundsTo p fl) (hp : 6 ≤ p) {x x' : K} (hxx : x ≤ x') (ks : List (K × K)) (hne : ks ≠ [])
    (hs : ks.Pairwise fun k l => k.2 ≤ l.2) (hf : ∀ k ∈ ks, IsFloat p k.2) {v v' : K}
    (hv : interpFl fl x ks = .ok v) (hv' : interpFl fl x' ks = .ok v') :
    v ≤ v' ∨ ∃ a ∈ ks.map Prod.snd, ∃ b ∈ ks.map Prod.snd, a ≤ b ∧ b ≤ v' ∧
      v ≤ b + (5 * ulp p * (b - a) + ulp p * |b|) := by
  induction ks with
  | nil => exact absurd rfl hne
  | cons k ks ih =>
    obtain ⟨a, f⟩ := k
    cases ks with
    | nil =>
      simp only [interpFl, Except.ok.injEq] at hv hv'
      exact .inl (by rw [← hv, ← hv'])
    | cons k' rest =>
      obtain ⟨b, g⟩ := k'
      have hs' := (List.pairwise_cons.1 hs).2
      have hf' : ∀ k ∈ (b, g) :: rest, IsFloat p k.2 := fun k hk => hf k (List.mem_cons_of_mem _ hk)
      have hfg : f ≤ g := (List.pairwise_cons.1 hs).1 (b, g) (by simp)
      have hle : ∀ ls : List (K × K), ls ≠ [] → ls.Pairwise (fun k l => k.2 ≤ l.2) → (∀ k ∈ ls, IsFloat p k.2) →
          ∀ c, (∀ z ∈ ls.map Prod.snd, c ≤ z) → ∀ w, interpFl fl x' ls = .ok w → c ≤ w := by
        intro ls h1 h2 h3 c hc w hw
        obtain ⟨w', h4, d, hd, -, -, -, -, h5, -⟩ := interpFl_spec h hp x' ls h1 h2 h3
        rw [h4] at hw
        cases hw
        exact (hc d hd).trans h5
      by_cases h1 : x < a
      · have hf1 : f ≤ v' := hle _ (by simp) hs hf f (by
          intro z hz
          obtain ⟨k, hk, rfl⟩ := List.mem_map.1 hz
          rcases List.mem_cons.1 hk with rfl | hk
          · exact le_rfl
          · exact (List.pairwise_cons.1 hs).1 k hk) v' hv'
        unfold interpFl at hv
        rw [if_pos h1] at hv
        cases hv
        exact .inl hf1
      · have h1' : ¬ x' < a := by push Not at h1 ⊢; linarith
        unfold interpFl at hv hv'
        rw [if_neg h1] at hv
        rw [if_neg h1'] at hv'
        by_cases h2 : b ≤ x
        · rw [if_pos h2] at hv
          rw [if_pos (h2.trans hxx)] at hv'
          rcases ih (by simp) hs' hf' hv hv' with h3 | ⟨c, hc, d, hd, h3⟩
          · exact .inl h3
          · exact .inr ⟨c, List.mem_cons_of_mem _ hc, d, List.mem_cons_of_mem _ hd, h3⟩
        · rw [if_neg h2] at hv
          cases hv
          by_cases h3 : b ≤ x'
          · rw [if_pos h3] at hv'
            have hg : g ≤ v' := hle _ (by simp) hs' hf' g (by
              intro z hz
              obtain ⟨k, hk, rfl⟩ := List.mem_map.1 hz
              rcases List.mem_cons.1 hk with rfl | hk
              · exact le_rfl
              · exact (List.pairwise_cons.1 hs').1 k hk) v' hv'
            exact .inr ⟨f, by simp, g, by simp, hfg, hg,
              (segment_bounds h hp (hf (a, f) (by simp)) hfg (not_lt.1 h1) (not_le.1 h2)).2⟩
          · rw [if_neg h3] at hv'
            cases hv'
            exact .inl (segment_mono h hfg (by push Not at h1 h2; linarith) hxx)

omit [IsStrictOrderedRing K] [FloorRing K] in
theorem knotsFl_snd (W : K) (ps : List (K × K)) : ∀ c, (knotsFl fl W c ps).map Prod.snd = ps.map Prod.snd := by
  induction ps with
  | nil => intro _; rfl
  | cons k ps ih => intro c; obtain ⟨w, d⟩ := k; simp [knotsFl, ih]

theorem validWeights_ne {data ws : List K} (hv : ValidWeights data ws) : data ≠ [] := by
  rintro rfl
  obtain ⟨h1, -, w, hw, -⟩ := hv
  rw [List.length_nil, eq_comm, List.length_eq_zero_iff] at h1
  subst h1
  simp at hw

/-- The call is the interpolation between points whose heights are the data in order. -/
theorem weightedFl_run {addUp : List K → K} {argsort : List K → List ℕ} (hA : ∀ d, IsArgsortOf d (argsort d))
    {data ws : List K} (hv : ValidWeights data ws)
    (hadd : ∀ l, (∀ w ∈ l, 0 ≤ w) → (∃ w ∈ l, 0 < w) → 0 < addUp l) (q : K) :
    weightedPercentileFl fl addUp argsort data ws q =
      interpFl fl (fl (q / 100)) (knotsFl fl (addUp ((sortedPairs argsort data ws).map Prod.fst)) 0
        (sortedPairs argsort data ws)) ∧
    0 < addUp ((sortedPairs argsort data ws).map Prod.fst) := by
  obtain ⟨h1, h2, h3, h4, h5⟩ := sortedPairs_props hA hv
  have hpos : 0 < addUp ((sortedPairs argsort data ws).map Prod.fst) := by
    refine hadd _ (fun w hw => ?_) ?_
    · obtain ⟨k, hk, rfl⟩ := List.mem_map.1 hw
      exact h3 k hk
    · obtain ⟨w, hw, hw0⟩ := hv.2.2
      have hm : w ∈ (ws.zip data).map Prod.fst := by
        rw [List.map_fst_zip hv.1.ge]; exact hw
      exact ⟨w, (h1.map Prod.fst).symm.subset hm, hw0⟩
  refine ⟨?_, hpos⟩
  unfold sortedPairs at hpos ⊢
  unfold weightedPercentileFl
  rw [if_neg (not_not.2 hv.1), if_neg (validWeights_ne hv)]
  dsimp only
  rw [if_neg]
  · rintro (⟨w, hw, h6⟩ | h6)
    · exact absurd (hv.2.1 w hw) (not_le.2 h6)
    · exact hpos.ne' h6

theorem knots_ready {argsort : List K → List ℕ} (hA : ∀ d, IsArgsortOf d (argsort d)) {data ws : List K}
    (hv : ValidWeights data ws) (hfl : ∀ x ∈ data, IsFloat p x) (W : K) :
    knotsFl fl W 0 (sortedPairs argsort data ws) ≠ [] ∧
    (knotsFl fl W 0 (sortedPairs argsort data ws)).Pairwise (fun k l => k.2 ≤ l.2) ∧
    (∀ k ∈ knotsFl fl W 0 (sortedPairs argsort data ws), IsFloat p k.2) ∧
    ((knotsFl fl W 0 (sortedPairs argsort data ws)).map Prod.snd).Perm data := by
  obtain ⟨h1, h2, h3, h4, h5⟩ := sortedPairs_props hA hv
  have hsnd := knotsFl_snd (fl := fl) W (sortedPairs argsort data ws) 0
  have hperm : ((knotsFl fl W 0 (sortedPairs argsort data ws)).map Prod.snd).Perm data := by rw [hsnd]; exact h4
  refine ⟨?_, ?_, ?_, hperm⟩
  · intro h0
    rw [h0] at hperm
    exact validWeights_ne hv hperm.symm.eq_nil
  · have : ((knotsFl fl W 0 (sortedPairs argsort data ws)).map Prod.snd).Pairwise (· ≤ ·) := by
      rw [hsnd]
      exact List.pairwise_map.2 h2
    exact List.pairwise_map.1 this
  · intro k hk
    exact hfl _ (hperm.subset (List.mem_map_of_mem hk))

/-- **C163.** For valid weights there is a weighted percentile; it is never below the smaller of two neighbouring data (or
one datum) `a ≤ b`, and above the larger by at most `5 * ulp * (b - a) + ulp * |b|`.  In whatever way the weights are
added up. -/
theorem C163_between (h : RoundsTo p fl) (hp : 6 ≤ p) (addUp : List K → K)
    (hadd : ∀ l, (∀ w ∈ l, 0 ≤ w) → (∃ w ∈ l, 0 < w) → 0 < addUp l) (argsort : List K → List ℕ)
    (hA : ∀ d, IsArgsortOf d (argsort d)) (data ws : List K) (hv : ValidWeights data ws)
    (hfl : ∀ x ∈ data, IsFloat p x) (q : K) :
    ∃ v, weightedPercentileFl fl addUp argsort data ws q = .ok v ∧ ∃ a ∈ data, ∃ b ∈ data, a ≤ b ∧
      (∀ z ∈ data, z ≤ a ∨ b ≤ z) ∧ a ≤ v ∧ v ≤ b + (5 * ulp p * (b - a) + ulp p * |b|) := by
  rw [(weightedFl_run hA hv hadd q).1]
  obtain ⟨h1, h2, h3, h4⟩ := knots_ready (fl := fl) hA hv hfl (addUp ((sortedPairs argsort data ws).map Prod.fst))
  obtain ⟨v, h5, a, ha, b, hb, h6, h7, h8⟩ := interpFl_spec h hp (fl (q / 100)) _ h1 h2 h3
  exact ⟨v, h5, a, h4.subset ha, b, h4.subset hb, h6, fun z hz => h7 z (h4.symm.subset hz), h8⟩

/-- **C163.** So it is at least the smallest datum, and at most `11 * ulp * M` above the largest, for data between
`-M` and `M`. -/
theorem C163_range_partial (h : RoundsTo p fl) (hp : 6 ≤ p) (addUp : List K → K)
    (hadd : ∀ l, (∀ w ∈ l, 0 ≤ w) → (∃ w ∈ l, 0 < w) → 0 < addUp l) (argsort : List K → List ℕ)
    (hA : ∀ d, IsArgsortOf d (argsort d)) (data ws : List K) (hv : ValidWeights data ws)
    (hfl : ∀ x ∈ data, IsFloat p x) (M : K) (hM : ∀ x ∈ data, |x| ≤ M) (q : K) :
    ∃ v, weightedPercentileFl fl addUp argsort data ws q = .ok v ∧ (∃ x ∈ data, x ≤ v) ∧
      ∃ x ∈ data, v ≤ x + 11 * ulp p * M := by
  have hu := ulp_pos (K := K) p
  obtain ⟨v, h1, a, ha, b, hb, h2, -, h3, h4⟩ := C163_between h hp addUp hadd argsort hA data ws hv hfl q
  refine ⟨v, h1, ⟨a, ha, h3⟩, b, hb, h4.trans ?_⟩
  have h5 := abs_le.1 (hM a ha)
  have h6 := hM b hb
  have h7 := abs_le.1 h6
  have h8 : 5 * ulp p * (b - a) ≤ 5 * ulp p * (2 * M) := mul_le_mul_of_nonneg_left (by linarith) (by linarith)
  have h9 := mul_le_mul_of_nonneg_left h6 hu.le
  linarith

/-- **C163.** A higher percentile is not lower by more than `11 * ulp * M`, for data between `-M` and `M`. -/
theorem C163_monotone_partial (h : RoundsTo p fl) (hp : 6 ≤ p) (addUp : List K → K)
    (hadd : ∀ l, (∀ w ∈ l, 0 ≤ w) → (∃ w ∈ l, 0 < w) → 0 < addUp l) (argsort : List K → List ℕ)
    (hA : ∀ d, IsArgsortOf d (argsort d)) (data ws : List K) (hv : ValidWeights data ws)
    (hfl : ∀ x ∈ data, IsFloat p x) (M : K) (hM : ∀ x ∈ data, |x| ≤ M) {q q' v v' : K} (hqq : q ≤ q')
    (hq : weightedPercentileFl fl addUp argsort data ws q = .ok v)
    (hq' : weightedPercentileFl fl addUp argsort data ws q' = .ok v') :
    v ≤ v' + 11 * ulp p * M := by
  have hu := ulp_pos (K := K) p
  rw [(weightedFl_run hA hv hadd q).1] at hq
  rw [(weightedFl_run hA hv hadd q').1] at hq'
  obtain ⟨h1, h2, h3, h4⟩ := knots_ready (fl := fl) hA hv hfl (addUp ((sortedPairs argsort data ws).map Prod.fst))
  have hx : fl (q / 100) ≤ fl (q' / 100) := h.mono (div_le_div_of_nonneg_right hqq (by norm_num))
  rcases interpFl_mono h hp hx _ h1 h2 h3 hq hq' with h5 | ⟨a, ha, b, hb, h6, h7, h8⟩
  · have hM0 : 0 ≤ M := by
      obtain ⟨v, -, a, ha, -⟩ := C163_between h hp addUp hadd argsort hA data ws hv hfl q
      exact (abs_nonneg a).trans (hM a ha)
    have : 0 ≤ 11 * ulp p * M := mul_nonneg (by linarith) hM0
    linarith
  · have h5 := abs_le.1 (hM a (h4.subset ha))
    have h6 := hM b (h4.subset hb)
    have h7' := abs_le.1 h6
    have h8' : 5 * ulp p * (b - a) ≤ 5 * ulp p * (2 * M) := mul_le_mul_of_nonneg_left (by linarith) (by linarith)
    have h9 := mul_le_mul_of_nonneg_left h6 hu.le
    linarith

/-- **C163.** With positive weights, the percentile 0 is the smallest datum, exactly. -/
theorem C163_zero (h : RoundsTo p fl) (hp : 6 ≤ p) (addUp : List K → K)
    (hadd : ∀ l, (∀ w ∈ l, 0 ≤ w) → (∃ w ∈ l, 0 < w) → 0 < addUp l) (argsort : List K → List ℕ)
    (hA : ∀ d, IsArgsortOf d (argsort d)) (data ws : List K) (hv : ValidWeights data ws) (hpos : ∀ w ∈ ws, 0 < w)
    (hwf : ∀ w ∈ ws, IsFloat p w) :
    ∃ x ∈ data, weightedPercentileFl fl addUp argsort data ws 0 = .ok x ∧ ∀ z ∈ data, x ≤ z := by
  obtain ⟨hr, hW⟩ := weightedFl_run (fl := fl) hA hv hadd 0
  obtain ⟨h1, h2, h3, h4, h5⟩ := sortedPairs_props hA hv
  rw [hr]
  set W := addUp ((sortedPairs argsort data ws).map Prod.fst)
  cases hs : sortedPairs argsort data ws with
  | nil => rw [hs] at h4; exact absurd h4.symm.eq_nil (validWeights_ne hv)
  | cons k rest =>
    obtain ⟨w, d⟩ := k
    rw [hs] at h2 h4 h1
    have hmem : w ∈ ws := by
      have : w ∈ (ws.zip data).map Prod.fst := (h1.map Prod.fst).subset (by simp)
      rwa [List.map_fst_zip hv.1.ge] at this
    have hw := hpos w hmem
    have hwf' := hwf w hmem
    have hhalf : fl (1 / 2 * w) = 1 / 2 * w := by
      have := isFloat_mul_zpow hwf' (-1)
      rw [show w * (2 : K) ^ (-1 : ℤ) = 1 / 2 * w by rw [zpow_neg_one]; ring] at this
      exact h.exact this
    have ha : 0 < fl (fl (fl (0 + w) - fl (1 / 2 * w)) / W) := by
      refine h.pos (by omega) (div_pos (h.pos (by omega) ?_) hW)
      rw [zero_add, h.exact hwf', hhalf]
      linarith
    have hx : fl (0 / 100) = 0 := by rw [zero_div, h.zero]
    refine ⟨d, h4.subset (by simp), ?_, ?_⟩
    · rw [hx, knotsFl]
      cases hk : knotsFl fl W (fl (0 + w)) rest with
      | nil => rfl
      | cons k' rest' => rw [interpFl, if_pos ha]
    · intro z hz
      have := h4.symm.subset hz
      obtain ⟨k, hk, rfl⟩ := List.mem_map.1 this
      rcases List.mem_cons.1 hk with rfl | hk
      · exact le_rfl
      · exact (List.pairwise_cons.1 h2).1 k hk

/-! ### Where it fails -/

/-- The floats nearest to -579.1, 4.2 and 4.20000000000001. -/
def topData : List ℚ := [roundBits 53 (-5791 / 10), roundBits 53 (42 / 10), roundBits 53 (4.20000000000001)]

theorem topData_argsort {argsort : List ℚ → List ℕ} (hA : ∀ d, IsArgsortOf d (argsort d)) :
    argsort topData = [0, 1, 2] := by
  obtain ⟨h1, h2⟩ := hA topData
  have h1 : argsort topData ∈ ([0, 1, 2] : List ℕ).permutations := List.mem_permutations.2 h1
  generalize argsort topData = o at *
  have a1 : topData.getD 0 0 < topData.getD 1 0 := by decide +kernel
  have a2 : topData.getD 1 0 < topData.getD 2 0 := by decide +kernel
  simp only [List.permutations, List.permutationsAux, List.permutationsAux.rec, List.permutationsAux2,
    List.foldr] at h1
  generalize topData.getD = G at *
  fin_cases h1 <;> simp at h2 ⊢ <;> linarith

theorem topData_run {addUp : List ℚ → ℚ} (hadd : addUp [1, 98, 1] = 100) {argsort : List ℚ → List ℕ}
    (hA : ∀ d, IsArgsortOf d (argsort d)) (q : ℚ) :
    weightedPercentileFl (roundBits 53) addUp argsort topData [1, 98, 1] q =
      interpFl (roundBits 53) (roundBits 53 (q / 100)) (knotsFl (roundBits 53) 100 0
        [(1, topData.getD 0 0), (98, topData.getD 1 0), (1, topData.getD 2 0)]) := by
  unfold weightedPercentileFl
  rw [topData_argsort hA]
  simp only [List.map_cons, List.map_nil]
  have e1 : addUp [[(1 : ℚ), 98, 1].getD 0 0, [(1 : ℚ), 98, 1].getD 1 0, [(1 : ℚ), 98, 1].getD 2 0] = 100 := hadd
  rw [e1]
  rw [if_neg (by simp [topData]), if_neg (by simp [topData]), if_neg (by norm_num)]
  rfl

/-- **C163 fails** at the top: a weighted percentile of doubles can lie above all the data, and above a higher percentile.
With the data -579.1, 4.2, 4.20000000000001 and the weights 1, 98, 1, the percentile 49.99999999999999 is
4.2000000000000455, and the median is 4.2. -/
theorem C163_top_fails (addUp : List ℚ → ℚ) (hadd : addUp [1, 98, 1] = 100) (argsort : List ℚ → List ℕ)
    (hA : ∀ d, IsArgsortOf d (argsort d)) :
    ∃ q < (50 : ℚ), IsFloat 53 q ∧ ∃ v w, weightedPercentileFl (roundBits 53) addUp argsort topData [1, 98, 1] q = .ok v ∧
      (∀ x ∈ topData, x < v) ∧
      weightedPercentileFl (roundBits 53) addUp argsort topData [1, 98, 1] 50 = .ok w ∧ w < v := by
  refine ⟨7036874417766399 / 2 ^ 47, by norm_num, ⟨7036874417766399, -47, by norm_num, by norm_num⟩,
    roundBits 53 (roundBits 53 (roundBits 53 (roundBits 53 (topData.getD 1 0 - topData.getD 0 0) /
      roundBits 53 (1 / 2 - roundBits 53 (1 / 200))) * roundBits 53 (roundBits 53 (7036874417766399 / 2 ^ 47 / 100) -
        roundBits 53 (1 / 200))) + topData.getD 0 0), topData.getD 1 0, ?_, by decide +kernel, ?_, by decide +kernel⟩
  · rw [topData_run hadd hA]
    decide +kernel
  · rw [topData_run hadd hA]
    decide +kernel

/-! ### Examples -/

/-- The hypotheses are met by these data, and by the usual sum. -/
example (argsort : List ℚ → List ℕ) (hA : ∀ d, IsArgsortOf d (argsort d)) :
    ∃ v, weightedPercentileFl (roundBits 53) List.sum argsort topData [1, 98, 1] 30 = .ok v ∧
      (∃ x ∈ topData, x ≤ v) ∧ ∃ x ∈ topData, v ≤ x + 11 * ulp 53 * 580 := by
  refine C163_range_partial (roundBits_roundsTo (by norm_num)) (by norm_num) _ ?_ _ hA _ _ ?_ ?_ _ ?_ _
  · intro l h0 ⟨w, hw, hw0⟩
    exact hw0.trans_le (List.single_le_sum h0 w hw)
  · exact ⟨rfl, by intro w hw; fin_cases hw <;> norm_num, 1, by simp, by norm_num⟩
  · intro x hx
    fin_cases hx <;> exact roundBits_float _
  · decide +kernel

end Verif
