import Verif.Model.RoundedTables
import Verif.Props.RoundedPercentiles
import Verif.Props.RoundedRound

/-!
# C170: tables of rounded percentiles in floating-point arithmetic
-/

namespace Verif

variable {K : Type} [Field K] [LinearOrder K] [IsStrictOrderedRing K] [FloorRing K] {p : ℕ} {fl : K → K}

/-- Both are numbers, and the first is at most the second. -/
def NumLE (a b : Scalar K) : Prop := ∃ x y, a.val? = some x ∧ b.val? = some y ∧ x ≤ y

theorem percentilesDigitsFl_ok {k : ℤ} {data ps : List K} {out : List (Scalar K)}
    (h : percentilesDigitsFl fl k data ps = .ok out) :
    ∃ vs, npPercentileFl fl data ps = .ok vs ∧ out = vs.map (roundScalarFl fl k) := by
  unfold percentilesDigitsFl at h
  rcases hv : npPercentileFl fl data ps with e | vs
  · rw [hv] at h; cases h
  · rw [hv] at h
    exact ⟨vs, rfl, (Except.ok.inj h).symm⟩

/-- **C170.** There is a value for each percentile, and a table of growing percentiles with digits never goes down. -/
theorem C170_ordered (h : RoundsTo p fl) (hp : 1 ≤ p) (k : ℤ) {data ps : List K} (hf : ∀ x ∈ data, IsFloat p x)
    (hne : data ≠ []) (hps : ∀ q ∈ ps, 0 ≤ q ∧ q ≤ 100) (hs : ps.Pairwise (· ≤ ·)) :
    ∃ out, percentilesDigitsFl fl k data ps = .ok out ∧ out.length = ps.length ∧ out.Pairwise NumLE := by
  obtain ⟨vs, h1, h2⟩ := C137_defined (fl := fl) data ps hps hne
  refine ⟨vs.map (roundScalarFl fl k), by simp only [percentilesDigitsFl, h1]; rfl, by simpa using h2, ?_⟩
  rw [List.pairwise_map]
  exact (C137_monotone h hp hf h1 hs).imp fun hab => C167_monotone h k hab

/-- **C170.** The values lie between the rounded smallest and the rounded largest number of the data. -/
theorem C170_between (h : RoundsTo p fl) (hp : 1 ≤ p) (k : ℤ) {data ps : List K} {out : List (Scalar K)}
    (hf : ∀ x ∈ data, IsFloat p x) (hok : percentilesDigitsFl fl k data ps = .ok out) {lo hi : K}
    (hb : ∀ x ∈ data, lo ≤ x ∧ x ≤ hi) :
    ∀ v ∈ out, NumLE (roundScalarFl fl k lo) v ∧ NumLE v (roundScalarFl fl k hi) := by
  obtain ⟨vs, h1, rfl⟩ := percentilesDigitsFl_ok hok
  intro v hv
  obtain ⟨w, hw, rfl⟩ := List.mem_map.1 hv
  obtain ⟨b1, b2⟩ := C137_between h hp hf h1 hb w hw
  exact ⟨C167_monotone h k b1, C167_monotone h k b2⟩

/-- **C170.** For data that are decimal numbers with up to `k` digits (below `2^p / 8` units of the last one), the table
stays between the smallest and the largest of the data, and these are the percentiles 0 and 100. -/
theorem C170_decimal_data (h : RoundsTo p fl) (hp : 1 ≤ p) {k : ℕ} (hk : 1 ≤ k) {data : List K} (hne : data ≠ [])
    (hn : data.length ≤ 2 ^ p) (hd : ∀ x ∈ data, ∃ m : ℤ, 8 * |(m : K)| ≤ 2 ^ p ∧ x = fl (m / 10 ^ k)) :
    ∃ lo ∈ data, ∃ hi ∈ data, percentilesDigitsFl fl k data [0, 100] = .ok [.flt lo, .flt hi] ∧
      ∀ ps out, percentilesDigitsFl fl k data ps = .ok out →
        ∀ v ∈ out, NumLE (.flt lo) v ∧ NumLE v (.flt hi) := by
  have hf : ∀ x ∈ data, IsFloat p x := fun x hx => by
    obtain ⟨m, -, rfl⟩ := hd x hx
    exact h.float _
  have hkeep : ∀ x ∈ data, roundScalarFl fl k x = .flt x := fun x hx => by
    obtain ⟨m, hm, rfl⟩ := hd x hx
    exact C167_keeps h hk hm
  obtain ⟨vs, h1, -⟩ := C137_defined (fl := fl) data [0, 100] (by
    intro q hq
    simp only [List.mem_cons, List.not_mem_nil, or_false] at hq
    rcases hq with rfl | rfl <;> norm_num) hne
  obtain ⟨lo, hi, rfl, hlo, hhi, hb⟩ := C137_extremes h hf hn h1
  refine ⟨lo, hlo, hi, hhi, ?_, ?_⟩
  · have e : percentilesDigitsFl fl k data [0, 100] = .ok ([lo, hi].map (roundScalarFl fl k)) := by
      simp only [percentilesDigitsFl, h1]; rfl
    rw [e, List.map_cons, List.map_cons, List.map_nil, hkeep lo hlo, hkeep hi hhi]
  · intro ps out hout v hv
    have := C170_between h hp k hf hout hb v hv
    rwa [hkeep lo hlo, hkeep hi hhi] at this

/-- **C170.** The rounded credible interval brackets the rounded median. -/
theorem C170_interval (h : RoundsTo p fl) (hp : 5 ≤ p) (k : ℤ) {data : List K} (hf : ∀ x ∈ data, IsFloat p x)
    (hne : data ≠ []) {c : K} (h0 : 0 ≤ c) (h1 : c ≤ 100) :
    ∃ l m r, medianAndCIDigitsFl fl k data c = .ok (l, m, r) ∧ NumLE l m ∧ NumLE m r := by
  obtain ⟨lo, hlo⟩ : ∃ lo, ∀ x ∈ data, lo ≤ x := by
    obtain ⟨lo, -, hlo⟩ := data.toFinset.exists_min_image id (by simpa using hne)
    exact ⟨lo, fun x hx => hlo x (by simpa using hx)⟩
  obtain ⟨hi, hhi⟩ : ∃ hi, ∀ x ∈ data, x ≤ hi := by
    obtain ⟨hi, -, hhi⟩ := data.toFinset.exists_max_image id (by simpa using hne)
    exact ⟨hi, fun x hx => hhi x (by simpa using hx)⟩
  obtain ⟨l, m, r, e, -, h2, h3, -⟩ := C137_interval h hp hf hne h0 h1 fun x hx => ⟨hlo x hx, hhi x hx⟩
  exact ⟨_, _, _, by simp only [medianAndCIDigitsFl, e]; rfl, C167_monotone h k h2, C167_monotone h k h3⟩

/-- **C170 fails** (a table with digits stays within the data): with 2 digits the largest percentile of 0.001, 0.126 is 0.13. -/
theorem C170_beyond_fails :
    let data := [roundBits 53 (1 / 1000 : ℚ), roundBits 53 (126 / 1000)]
    percentilesDigitsFl (roundBits 53) 2 data [100] = .ok [.flt (roundBits 53 (13 / 100))] ∧
    ∀ x ∈ data, x < roundBits 53 (13 / 100) := by decide +kernel

/-- Percentiles of 0.1, 0.2, 0.7 with one digit. -/
example : percentilesDigitsFl (roundBits 53) 1 [roundBits 53 (7 / 10 : ℚ), roundBits 53 (1 / 10), roundBits 53 (2 / 10)]
    [0, 50, 90, 100] = .ok [.flt (roundBits 53 (1 / 10)), .flt (roundBits 53 (2 / 10)), .flt (roundBits 53 (6 / 10)),
      .flt (roundBits 53 (7 / 10))] := by decide +kernel

end Verif
