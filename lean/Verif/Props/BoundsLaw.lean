import Verif.Lemmas.BoundsLaw
import Verif.Props.Denote

/-!
# C101: bounds keep the distribution between them and put the rest on the bounds
-/

namespace Verif

open MeasureTheory ProbabilityTheory Spec

/-! ## Where the mass of a bounded value lies -/

theorem clamp_between {μ : Measure ℝ} {a b : ℝ} (hab : a < b) :
    μ.map (clamp (some a) (some b)) {a} = μ (Set.Iic a) ∧
    μ.map (clamp (some a) (some b)) {b} = μ (Set.Ici b) ∧
    (∀ B, MeasurableSet B → B ⊆ Set.Ioo a b → μ.map (clamp (some a) (some b)) B = μ B) ∧
    μ.map (clamp (some a) (some b)) (Set.Icc a b)ᶜ = 0 := by
  have hm := measurable_clamp (some a) (some b)
  refine ⟨?_, ?_, fun B hB hs => ?_, ?_⟩
  · rw [Measure.map_apply hm (measurableSet_singleton a)]
    congr 1
    ext x
    simp only [clamp, Set.mem_preimage, Set.mem_singleton_iff, Set.mem_Iic]
    constructor
    · intro h
      rcases min_choice (max x a) b with e | e
      · rw [e] at h
        exact h ▸ le_max_left x a
      · rw [e] at h
        exact absurd h hab.ne'
    · intro h
      rw [max_eq_right h, min_eq_left hab.le]
  · rw [Measure.map_apply hm (measurableSet_singleton b)]
    congr 1
    ext x
    simp only [clamp, Set.mem_preimage, Set.mem_singleton_iff, Set.mem_Ici]
    constructor
    · intro h
      have h1 : b ≤ max x a := min_eq_right_iff.1 h
      rcases le_max_iff.1 h1 with h2 | h2
      · exact h2
      · exact absurd h2 (not_le.2 hab)
    · intro h
      exact min_eq_right (h.trans (le_max_left x a))
  · rw [Measure.map_apply hm hB]
    congr 1
    ext x
    simp only [clamp, Set.mem_preimage]
    rcases le_or_gt x a with h1 | h1
    · rw [max_eq_right h1, min_eq_left hab.le]
      exact ⟨fun h => absurd (hs h).1 (lt_irrefl _), fun h => absurd (hs h).1 (not_lt.2 h1)⟩
    · rcases le_or_gt b x with h2 | h2
      · rw [max_eq_left h1.le, min_eq_right h2]
        exact ⟨fun h => absurd (hs h).2 (lt_irrefl _), fun h => absurd (hs h).2 (not_lt.2 h2)⟩
      · rw [max_eq_left h1.le, min_eq_left h2.le]
  · rw [Measure.map_apply hm measurableSet_Icc.compl]
    convert measure_empty (μ := μ)
    ext x
    simp only [clamp, Set.mem_preimage, Set.mem_compl_iff, Set.mem_Icc, Set.mem_empty_iff_false, iff_false,
      not_not]
    exact ⟨le_min (le_max_right _ _) hab.le, min_le_right _ _⟩

theorem clamp_below {μ : Measure ℝ} {a : ℝ} :
    μ.map (clamp (some a) none) {a} = μ (Set.Iic a) ∧
    (∀ B, MeasurableSet B → B ⊆ Set.Ioi a → μ.map (clamp (some a) none) B = μ B) ∧
    μ.map (clamp (some a) none) (Set.Iio a) = 0 := by
  have hm := measurable_clamp (some a) none
  refine ⟨?_, fun B hB hs => ?_, ?_⟩
  · rw [Measure.map_apply hm (measurableSet_singleton a)]
    congr 1
    ext x
    simp [clamp]
  · rw [Measure.map_apply hm hB]
    congr 1
    ext x
    simp only [clamp, Set.mem_preimage]
    rcases le_or_gt x a with h1 | h1
    · rw [max_eq_right h1]
      exact ⟨fun h => absurd (hs h) (lt_irrefl a), fun h => absurd (hs h) (not_lt.2 h1)⟩
    · rw [max_eq_left h1.le]
  · rw [Measure.map_apply hm measurableSet_Iio]
    convert measure_empty (μ := μ)
    ext x
    simp [clamp]

theorem clamp_above {μ : Measure ℝ} {b : ℝ} :
    μ.map (clamp none (some b)) {b} = μ (Set.Ici b) ∧
    (∀ B, MeasurableSet B → B ⊆ Set.Iio b → μ.map (clamp none (some b)) B = μ B) ∧
    μ.map (clamp none (some b)) (Set.Ioi b) = 0 := by
  have hm := measurable_clamp none (some b)
  refine ⟨?_, fun B hB hs => ?_, ?_⟩
  · rw [Measure.map_apply hm (measurableSet_singleton b)]
    congr 1
    ext x
    simp [clamp]
  · rw [Measure.map_apply hm hB]
    congr 1
    ext x
    simp only [clamp, Set.mem_preimage]
    rcases le_or_gt b x with h1 | h1
    · rw [min_eq_right h1]
      exact ⟨fun h => absurd (hs h) (lt_irrefl b), fun h => absurd (hs h) (not_lt.2 h1)⟩
    · rw [min_eq_left h1.le]
  · rw [Measure.map_apply hm measurableSet_Ioi]
    convert measure_empty (μ := μ)
    ext x
    simp [clamp]

section

variable {Ω : Type} [MeasurableSpace Ω] (S : IdealSource Ω) {E : Env (ℕ → Ω) ℝ} (hE : S.Drives E)
  (hU : S.primLaw (.uniform 0 1) = some unitLaw)

include hE hU in
/-- **C101**: `sample(d, n, lclip, rclip)` with any bounds (also crossing ones) gives `n` independent values; each
has the law of a value of `d` moved into the interval. -/
theorem C101_bounds {d : Obj (St (ℕ → Ω) ℝ) ℝ} {μ : Measure ℝ} (hd : Denotes S.primLaw d μ)
    (hown : d.clips = (none, none)) {lc rc : Option (Scalar ℝ)} {lo hi : Option ℝ} (hlo : IsBound lc lo)
    (hhi : IsBound rc hi) {n : ℕ} (hn : 1 ≤ n) (left : ℕ → ℕ → Option (List (Scalar ℝ))) :
    ∃ X : Fin n → (ℕ → Ω) → ℝ, (∀ i, Measurable (X i)) ∧
      (∀ᵐ ω ∂(Measure.infinitePi fun _ : ℕ => S.law), ∃ z s',
        sampleObj E d n lc rc ⟨ω, left⟩ = (.ok z, s') ∧ Reads n z fun i => X i ω) ∧
      (∀ i, (Measure.infinitePi fun _ : ℕ => S.law).map (X i) = μ.map (clamp lo hi)) ∧
      iIndepFun X (Measure.infinitePi fun _ : ℕ => S.law) := by
  obtain ⟨hp, h⟩ := denotes_bounds S (left := left) hE hU hd hown hlo hhi hn
  exact h.independent S

include hE hU in
/-- **C101**: between two bounds `a < b` the chances are those of `d`; the chance to get `a` is the chance that
`d` is at most `a`, the chance to get `b` the chance that `d` is at least `b`, and nothing is outside. -/
theorem C101_between {d : Obj (St (ℕ → Ω) ℝ) ℝ} {μ : Measure ℝ} (hd : Denotes S.primLaw d μ)
    (hown : d.clips = (none, none)) {lc rc : Scalar ℝ} {a b : ℝ} (ha : IsReal lc a) (hb : IsReal rc b)
    (hab : a < b) {n : ℕ} (hn : 1 ≤ n) (left : ℕ → ℕ → Option (List (Scalar ℝ))) :
    ∃ X : Fin n → (ℕ → Ω) → ℝ, (∀ i, Measurable (X i)) ∧
      (∀ᵐ ω ∂(Measure.infinitePi fun _ : ℕ => S.law), ∃ z s',
        sampleObj E d n (some lc) (some rc) ⟨ω, left⟩ = (.ok z, s') ∧ Reads n z fun i => X i ω) ∧
      iIndepFun X (Measure.infinitePi fun _ : ℕ => S.law) ∧
      ∀ i, (Measure.infinitePi fun _ : ℕ => S.law) {ω | X i ω = a} = μ (Set.Iic a) ∧
        (Measure.infinitePi fun _ : ℕ => S.law) {ω | X i ω = b} = μ (Set.Ici b) ∧
        (∀ B, MeasurableSet B → B ⊆ Set.Ioo a b →
          (Measure.infinitePi fun _ : ℕ => S.law) {ω | X i ω ∈ B} = μ B) ∧
        (Measure.infinitePi fun _ : ℕ => S.law) {ω | X i ω ∉ Set.Icc a b} = 0 := by
  obtain ⟨X, hX, hae, hlaw, hind⟩ := C101_bounds S hE hU hd hown (lc := some lc) (rc := some rc)
    (lo := some a) (hi := some b) ha hb hn left
  obtain ⟨h1, h2, h3, h4⟩ := clamp_between (μ := μ) hab
  have hev : ∀ i B, MeasurableSet B → (Measure.infinitePi fun _ : ℕ => S.law) {ω | X i ω ∈ B}
      = μ.map (clamp (some a) (some b)) B := fun i B hB => by
    rw [← hlaw i, Measure.map_apply (hX i) hB]
    rfl
  exact ⟨X, hX, hae, hind, fun i => ⟨(hev i _ (measurableSet_singleton a)).trans h1,
    (hev i _ (measurableSet_singleton b)).trans h2, fun B hB hs => (hev i B hB).trans (h3 B hB hs),
    (hev i _ measurableSet_Icc.compl).trans h4⟩⟩

include hE hU in
/-- **C101**: with a lower bound alone. -/
theorem C101_above {d : Obj (St (ℕ → Ω) ℝ) ℝ} {μ : Measure ℝ} (hd : Denotes S.primLaw d μ)
    (hown : d.clips = (none, none)) {lc : Scalar ℝ} {a : ℝ} (ha : IsReal lc a)
    {n : ℕ} (hn : 1 ≤ n) (left : ℕ → ℕ → Option (List (Scalar ℝ))) :
    ∃ X : Fin n → (ℕ → Ω) → ℝ, (∀ i, Measurable (X i)) ∧
      (∀ᵐ ω ∂(Measure.infinitePi fun _ : ℕ => S.law), ∃ z s',
        sampleObj E d n (some lc) none ⟨ω, left⟩ = (.ok z, s') ∧ Reads n z fun i => X i ω) ∧
      iIndepFun X (Measure.infinitePi fun _ : ℕ => S.law) ∧
      ∀ i, (Measure.infinitePi fun _ : ℕ => S.law) {ω | X i ω = a} = μ (Set.Iic a) ∧
        (∀ B, MeasurableSet B → B ⊆ Set.Ioi a →
          (Measure.infinitePi fun _ : ℕ => S.law) {ω | X i ω ∈ B} = μ B) ∧
        (Measure.infinitePi fun _ : ℕ => S.law) {ω | X i ω < a} = 0 := by
  obtain ⟨X, hX, hae, hlaw, hind⟩ := C101_bounds S hE hU hd hown (lc := some lc) (rc := none)
    (lo := some a) (hi := none) ha trivial hn left
  obtain ⟨h1, h2, h3⟩ := clamp_below (μ := μ) (a := a)
  have hev : ∀ i B, MeasurableSet B → (Measure.infinitePi fun _ : ℕ => S.law) {ω | X i ω ∈ B}
      = μ.map (clamp (some a) none) B := fun i B hB => by
    rw [← hlaw i, Measure.map_apply (hX i) hB]
    rfl
  exact ⟨X, hX, hae, hind, fun i => ⟨(hev i _ (measurableSet_singleton a)).trans h1,
    fun B hB hs => (hev i B hB).trans (h2 B hB hs), (hev i _ measurableSet_Iio).trans h3⟩⟩

include hE hU in
/-- **C101**: with an upper bound alone. -/
theorem C101_below {d : Obj (St (ℕ → Ω) ℝ) ℝ} {μ : Measure ℝ} (hd : Denotes S.primLaw d μ)
    (hown : d.clips = (none, none)) {rc : Scalar ℝ} {b : ℝ} (hb : IsReal rc b)
    {n : ℕ} (hn : 1 ≤ n) (left : ℕ → ℕ → Option (List (Scalar ℝ))) :
    ∃ X : Fin n → (ℕ → Ω) → ℝ, (∀ i, Measurable (X i)) ∧
      (∀ᵐ ω ∂(Measure.infinitePi fun _ : ℕ => S.law), ∃ z s',
        sampleObj E d n none (some rc) ⟨ω, left⟩ = (.ok z, s') ∧ Reads n z fun i => X i ω) ∧
      iIndepFun X (Measure.infinitePi fun _ : ℕ => S.law) ∧
      ∀ i, (Measure.infinitePi fun _ : ℕ => S.law) {ω | X i ω = b} = μ (Set.Ici b) ∧
        (∀ B, MeasurableSet B → B ⊆ Set.Iio b →
          (Measure.infinitePi fun _ : ℕ => S.law) {ω | X i ω ∈ B} = μ B) ∧
        (Measure.infinitePi fun _ : ℕ => S.law) {ω | b < X i ω} = 0 := by
  obtain ⟨X, hX, hae, hlaw, hind⟩ := C101_bounds S hE hU hd hown (lc := none) (rc := some rc)
    (lo := none) (hi := some b) trivial hb hn left
  obtain ⟨h1, h2, h3⟩ := clamp_above (μ := μ) (b := b)
  have hev : ∀ i B, MeasurableSet B → (Measure.infinitePi fun _ : ℕ => S.law) {ω | X i ω ∈ B}
      = μ.map (clamp none (some b)) B := fun i B hB => by
    rw [← hlaw i, Measure.map_apply (hX i) hB]
    rfl
  exact ⟨X, hX, hae, hind, fun i => ⟨(hev i _ (measurableSet_singleton b)).trans h1,
    fun B hB hs => (hev i B hB).trans (h2 B hB hs), (hev i _ measurableSet_Ioi).trans h3⟩⟩

end

/-- **C101**: it makes no difference whether the bounds are given to the distribution or to the call. -/
theorem C101_own_or_call {σ : Type} (E : Env σ ℝ) (n : ℕ) (lc rc : Option (Scalar ℝ)) (st : St σ ℝ) :
    (∀ l, sampleObj E (.leaf l lc rc) n none none st = sampleObj E (.leaf l none none) n lc rc st) ∧
    (∀ k ds ws, sampleObj E (.mix k ds ws lc rc) n none none st
      = sampleObj E (.mix k ds ws none none) n lc rc st) := by
  have hl : combineL lc (none : Option (Scalar ℝ)) = .ok lc := by cases lc <;> rfl
  have hr : combineR rc (none : Option (Scalar ℝ)) = .ok rc := by cases rc <;> rfl
  have hl' : combineL (none : Option (Scalar ℝ)) lc = .ok lc := rfl
  have hr' : combineR (none : Option (Scalar ℝ)) rc = .ok rc := rfl
  constructor
  · intro l
    simp only [sampleObj, withClips, Obj.clips, hl, hr, hl', hr']
    rfl
  · intro k ds ws
    simp only [sampleObj, withClips, Obj.clips, hl, hr, hl', hr']
    rfl

/-- `sample(norm(mean=1, sd=2) + norm(mean=0, sd=1), 100, lclip=0)`: the value 0 appears with the chance that the
sum is at most 0. -/
example : ∃ (μ : Measure ℝ) (X : Fin 100 → (ℕ → ℝ × ℝ) → ℝ),
    (∀ᵐ ω ∂(Measure.infinitePi fun _ : ℕ => demoSource.law), ∃ z s',
      sampleObj idealEnv (.bin (.op .add) (.leaf (.normal 1 2) none none) (.leaf (.normal 0 1) none none)) 100
        (some (.int 0)) none ⟨ω, fun _ _ => none⟩ = (.ok z, s') ∧ Reads 100 z fun i => X i ω) ∧
    ∀ i, (Measure.infinitePi fun _ : ℕ => demoSource.law) {ω | X i ω = 0} = μ (Set.Iic 0) := by
  have hd := Denotes.bin (o := .add) rfl
    (denotes_normal (T := St (ℕ → ℝ × ℝ) ℝ) (demoSource_normal 1 (s := 2) (by norm_num)))
    (denotes_normal (T := St (ℕ → ℝ × ℝ) ℝ) (demoSource_normal 0 (s := 1) (by norm_num)))
    (.of_forall fun _ => trivial)
  obtain ⟨X, -, hae, -, h⟩ := C101_above demoSource (E := idealEnv) idealEnv_driven demoSource_uniform hd rfl
    (lc := .int 0) (a := 0) (Or.inr ⟨0, rfl, by simp⟩) (n := 100) (by norm_num) fun _ _ => none
  exact ⟨_, X, hae, fun i => (h i).1⟩

end Verif
