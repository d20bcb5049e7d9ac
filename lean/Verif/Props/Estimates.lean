import Verif.Props.Denote
import Verif.Props.CredibleIntervals
import Verif.Spec.Quantile

/-!
# C90: percentiles and credible intervals of samples estimate those of the law

`get_percentiles(sample(d, n), p)`, `get_mean_and_ci(sample(d, n), cred)` and
`get_median_and_ci(sample(d, n), cred)` with an ideal source of randomness.
-/

namespace Verif

open MeasureTheory ProbabilityTheory Spec Filter

theorem isReal_unique {v : Scalar ℝ} {r r' : ℝ} (h : IsReal v r) (h' : IsReal v r') : r = r' := by
  rcases h with rfl | ⟨z, rfl, rfl⟩ <;> rcases h' with h' | ⟨z', h', rfl⟩
  · injection h'
  · cases h'
  · cases h'
  · injection h' with h'
    rw [h']

theorem reads_unique {vs : List (Scalar ℝ)} {xs ys : List ℝ} (h : List.Forall₂ IsReal vs xs)
    (h' : List.Forall₂ IsReal vs ys) : xs = ys := by
  induction h generalizing ys with
  | nil => cases h'; rfl
  | cons h1 _ ih =>
    cases h' with
    | cons h2 h3 => rw [isReal_unique h1 h2, ih h3]

theorem bad_mono {Ω : Type} [MeasurableSpace Ω] (P : Measure Ω) [IsProbabilityMeasure P] {A B : Ω → Prop}
    (h : ∀ ω, A ω → B ω) : P.real {ω | ¬ B ω} ≤ P.real {ω | ¬ A ω} :=
  measureReal_mono fun _ hω hA => hω (h _ hA)

/-- Where a percentile of `n` numbers can be, from the frequencies of two tails. -/
theorem percentile_of_frequency (argsort : List ℝ → List ℕ) {xs : List ℝ} {n : ℕ} (hn : 1 ≤ n)
    (hl : xs.length = n) {p : ℝ} (h0 : 0 ≤ p) (h1 : p ≤ 100) {a b : ℝ}
    (ha : ((xs.countP fun x => x < a : ℕ) : ℝ) / n ≤ p / 100 - 1 / n)
    (hb : ((xs.countP fun x => b < x : ℕ) : ℝ) / n ≤ 1 - p / 100 - 1 / n) :
    ∃ v, getPercentiles argsort xs (.one p) = .ok (.one (.flt v)) ∧ a ≤ v ∧ v ≤ b := by
  have hne : xs ≠ [] := by rintro rfl; simp at hl; omega
  obtain ⟨v, hv⟩ := (C63_total argsort xs p false).1 hne h0 h1
  refine ⟨v, hv, ?_⟩
  obtain ⟨r1, r2⟩ := C63_rank argsort xs p v hv
  have hn0 : (0 : ℝ) < n := by exact_mod_cast hn
  rw [hl] at r1 r2
  rw [div_le_iff₀ hn0, sub_mul, div_mul_cancel₀ _ hn0.ne'] at ha hb
  have hp : 0 ≤ p / 100 := by positivity
  have hp1 : p / 100 ≤ 1 := by rw [div_le_one (by norm_num)]; exact h1
  constructor
  · by_contra hlt
    have : xs.countP (fun x => x ≤ v) ≤ xs.countP (fun x => x < a) :=
      List.countP_mono_left fun x _ hx => by
        simp only [decide_eq_true_eq] at hx ⊢
        linarith
    have : ((xs.countP (fun x => x ≤ v) : ℕ) : ℝ) ≤ (xs.countP (fun x => x < a) : ℕ) := by
      exact_mod_cast this
    nlinarith
  · by_contra hlt
    have : xs.countP (fun x => v ≤ x) ≤ xs.countP (fun x => b < x) :=
      List.countP_mono_left fun x _ hx => by
        simp only [decide_eq_true_eq] at hx ⊢
        linarith
    have : ((xs.countP (fun x => v ≤ x) : ℕ) : ℝ) ≤ (xs.countP (fun x => b < x) : ℕ) := by
      exact_mod_cast this
    nlinarith

section

variable {Ω : Type} [MeasurableSpace Ω] (S : IdealSource Ω) {E : Env (ℕ → Ω) ℝ} (hE : S.Drives E)
  (hU : S.primLaw (.uniform 0 1) = some (volume.restrict (Set.Ico 0 1)))

include hE hU

/-- **C90** (with a bound): if the law has at most `p/100 - 1/n - ε` below `a` and at most
`1 - p/100 - 1/n - ε` above `b`, then the `p`-th percentile of `n` samples lies between `a` and `b`, except
with probability at most `4 exp(-2 n ε²)`. -/
theorem C90_percentile {d : Obj (St (ℕ → Ω) ℝ) ℝ} {μ : Measure ℝ} (hd : Denotes S.primLaw d μ)
    (argsort : List ℝ → List ℕ) {n : ℕ} (hn : 1 ≤ n) (left : ℕ → ℕ → Option (List (Scalar ℝ)))
    {p a b ε : ℝ} (h0 : 0 ≤ p) (h1 : p ≤ 100) (hε : 0 < ε)
    (ha : μ.real (Set.Iio a) ≤ p / 100 - 1 / n - ε) (hb : μ.real (Set.Ioi b) ≤ 1 - p / 100 - 1 / n - ε) :
    (Measure.infinitePi fun _ : ℕ => S.law).real
      {ω | ¬ ∃ z s' xs v, sampleObj E d n none none ⟨ω, left⟩ = (.ok z, s') ∧
        List.Forall₂ IsReal z.toList xs ∧
        getPercentiles argsort xs (.one p) = .ok (.one (.flt v)) ∧ a ≤ v ∧ v ≤ b}
      ≤ 4 * Real.exp (-2 * n * ε ^ 2) := by
  obtain ⟨hp, X, hX, hae, hlaw, hind⟩ := C86_independent_samples S hE hU hd hn left
  set P := Measure.infinitePi fun _ : ℕ => S.law with hP
  have hA : {x : ℝ | decide (x < a) = true} = Set.Iio a := by ext; simp
  have hB : {x : ℝ | decide (b < x) = true} = Set.Ioi b := by ext; simp
  have e1 := frequency_bound hn hX hlaw hind (fun x => decide (x < a)) (by rw [hA]; exact measurableSet_Iio) hε
  have e2 := frequency_bound hn hX hlaw hind (fun x => decide (b < x)) (by rw [hB]; exact measurableSet_Ioi) hε
  rw [hA] at e1
  rw [hB] at e2
  have e3 : 4 * Real.exp (-2 * n * ε ^ 2) = 2 * Real.exp (-2 * n * ε ^ 2) + 2 * Real.exp (-2 * n * ε ^ 2) := by
    ring
  rw [e3]
  refine le_trans (ENNReal.toReal_mono (measure_ne_top _ _) (measure_mono_ae ?_))
    ((measureReal_union_le _ _).trans (add_le_add e1 e2))
  filter_upwards [hae] with ω hω hbad
  obtain ⟨z, s', hz, hR⟩ := hω
  by_contra hlt
  obtain ⟨l1, l2⟩ := not_or.1 hlt
  have l1' := abs_lt.1 (not_le.1 (show ¬ ε ≤ |_| from l1))
  have l2' := abs_lt.1 (not_le.1 (show ¬ ε ≤ |_| from l2))
  obtain ⟨v, hv, hav, hvb⟩ := percentile_of_frequency argsort (xs := List.ofFn fun i => X i ω) hn (by simp)
    h0 h1 (a := a) (b := b) (by linarith [l1'.2]) (by linarith [l2'.2])
  exact hbad ⟨z, s', _, v, hz, hR.2, hv, hav, hvb⟩

/-- **C90**: percentiles of samples converge to the quantiles of the law (in probability). -/
theorem C90_percentile_limit {d : Obj (St (ℕ → Ω) ℝ) ℝ} {μ : Measure ℝ} (hd : Denotes S.primLaw d μ)
    (argsort : List ℝ → List ℕ) (left : ℕ → ℕ → Option (List (Scalar ℝ))) {p x : ℝ} (h0 : 0 ≤ p)
    (h1 : p ≤ 100) (hx : IsQuantile μ (p / 100) x) {η : ℝ} (hη : 0 < η) :
    Tendsto (fun n => (Measure.infinitePi fun _ : ℕ => S.law).real
      {ω | ¬ ∃ z s' xs v, sampleObj E d n none none ⟨ω, left⟩ = (.ok z, s') ∧
        List.Forall₂ IsReal z.toList xs ∧
        getPercentiles argsort xs (.one p) = .ok (.one (.flt v)) ∧ |v - x| ≤ η}) atTop (nhds 0) := by
  have hlo := hx.below (x - η) (by linarith)
  have hhi := hx.above (x + η) (by linarith)
  obtain ⟨δ, hδ, hδ1, hδ2⟩ : ∃ δ : ℝ, 0 < δ ∧ μ.real (Set.Iio (x - η)) ≤ p / 100 - 2 * δ ∧
      μ.real (Set.Ioi (x + η)) ≤ 1 - p / 100 - 2 * δ := by
    refine ⟨min (p / 100 - μ.real (Set.Iio (x - η))) (1 - p / 100 - μ.real (Set.Ioi (x + η))) / 2, ?_, ?_, ?_⟩
    · have := lt_min (sub_pos.2 hlo) (sub_pos.2 hhi)
      positivity
    · have := min_le_left (p / 100 - μ.real (Set.Iio (x - η))) (1 - p / 100 - μ.real (Set.Ioi (x + η)))
      linarith
    · have := min_le_right (p / 100 - μ.real (Set.Iio (x - η))) (1 - p / 100 - μ.real (Set.Ioi (x + η)))
      linarith
  have hlim : Tendsto (fun n : ℕ => 4 * Real.exp (-2 * n * δ ^ 2)) atTop (nhds 0) := by
    rw [← mul_zero (4 : ℝ)]
    refine Tendsto.const_mul 4 (Real.tendsto_exp_atBot.comp ?_)
    have e : (fun n : ℕ => -2 * (n : ℝ) * δ ^ 2) = fun n : ℕ => (n : ℝ) * (-2 * δ ^ 2) := by
      ext n; ring
    rw [e]
    exact tendsto_natCast_atTop_atTop.atTop_mul_const_of_neg (by nlinarith [sq_pos_of_pos hδ])
  refine tendsto_of_tendsto_of_tendsto_of_le_of_le' tendsto_const_nhds hlim
    (Eventually.of_forall fun n => measureReal_nonneg) ?_
  filter_upwards [eventually_ge_atTop 1, eventually_ge_atTop ⌈1 / δ⌉₊] with n hn hn'
  have hn0 : (0 : ℝ) < n := by exact_mod_cast hn
  have h1n : 1 / (n : ℝ) ≤ δ := by
    rw [div_le_iff₀ hn0, mul_comm, ← div_le_iff₀ hδ]
    exact (Nat.le_ceil _).trans (by exact_mod_cast hn')
  refine le_trans (bad_mono _ fun ω h => ?_)
    (C90_percentile S hE hU hd argsort hn left h0 h1 hδ (a := x - η) (b := x + η) (by linarith) (by linarith))
  obtain ⟨z, s', xs, v, e1, e2, e3, e4, e5⟩ := h
  exact ⟨z, s', xs, v, e1, e2, e3, abs_le.2 ⟨by linarith, by linarith⟩⟩

omit hE hU in
/-- Three conditions on the samples: each fails with a probability that tends to 0, hence so do they
together. -/
theorem tendsto_bad {d : Obj (St (ℕ → Ω) ℝ) ℝ} {left : ℕ → ℕ → Option (List (Scalar ℝ))}
    {A B C : ℕ → List ℝ → Prop}
    (hA : Tendsto (fun n => (Measure.infinitePi fun _ : ℕ => S.law).real
      {ω | ¬ ∃ z s' xs, sampleObj E d n none none ⟨ω, left⟩ = (.ok z, s') ∧
        List.Forall₂ IsReal z.toList xs ∧ A n xs}) atTop (nhds 0))
    (hB : Tendsto (fun n => (Measure.infinitePi fun _ : ℕ => S.law).real
      {ω | ¬ ∃ z s' xs, sampleObj E d n none none ⟨ω, left⟩ = (.ok z, s') ∧
        List.Forall₂ IsReal z.toList xs ∧ B n xs}) atTop (nhds 0))
    (hC : Tendsto (fun n => (Measure.infinitePi fun _ : ℕ => S.law).real
      {ω | ¬ ∃ z s' xs, sampleObj E d n none none ⟨ω, left⟩ = (.ok z, s') ∧
        List.Forall₂ IsReal z.toList xs ∧ C n xs}) atTop (nhds 0)) :
    Tendsto (fun n => (Measure.infinitePi fun _ : ℕ => S.law).real
      {ω | ¬ ∃ z s' xs, sampleObj E d n none none ⟨ω, left⟩ = (.ok z, s') ∧
        List.Forall₂ IsReal z.toList xs ∧ A n xs ∧ B n xs ∧ C n xs}) atTop (nhds 0) := by
  have hsum := (hA.add hB).add hC
  rw [add_zero, add_zero] at hsum
  refine squeeze_zero (fun n => measureReal_nonneg) (fun n => ?_) hsum
  refine le_trans (measureReal_mono ?_)
    ((measureReal_union_le _ _).trans (add_le_add_left (measureReal_union_le _ _) _))
  intro ω hω
  by_contra hbad
  rw [Set.mem_union, Set.mem_union, not_or, not_or] at hbad
  obtain ⟨⟨h1, h2⟩, h3⟩ := hbad
  simp only [Set.mem_ofPred_eq, not_not] at h1 h2 h3
  obtain ⟨z, s', xs, e1, e2, e3⟩ := h1
  obtain ⟨z2, s2, xs2, f1, f2, f3⟩ := h2
  obtain ⟨z3, s3, xs3, g1, g2, g3⟩ := h3
  obtain ⟨rfl, rfl⟩ : z2 = z ∧ s2 = s' := by
    rw [e1] at f1; simp only [Prod.mk.injEq, Except.ok.injEq] at f1; exact ⟨f1.1.symm, f1.2.symm⟩
  obtain ⟨rfl, rfl⟩ : z3 = z2 ∧ s3 = s2 := by
    rw [e1] at g1; simp only [Prod.mk.injEq, Except.ok.injEq] at g1; exact ⟨g1.1.symm, g1.2.symm⟩
  obtain rfl := reads_unique f2 e2
  obtain rfl := reads_unique g2 e2
  exact hω ⟨z3, s3, xs3, e1, e2, e3, f3, g3⟩

/-- **C90**: `get_median_and_ci(sample(d, n), cred)` converges to the median and the central interval of the
law. -/
theorem C90_median_ci_limit {d : Obj (St (ℕ → Ω) ℝ) ℝ} {μ : Measure ℝ} (hd : Denotes S.primLaw d μ)
    (argsort : List ℝ → List ℕ) (left : ℕ → ℕ → Option (List (Scalar ℝ))) {cred m l u : ℝ} (h0 : 0 ≤ cred)
    (h1 : cred ≤ 100) (hm : IsQuantile μ (1 / 2) m) (hl : IsQuantile μ ((1 - cred / 100) / 2) l)
    (hu : IsQuantile μ (1 - (1 - cred / 100) / 2) u) {η : ℝ} (hη : 0 < η) :
    Tendsto (fun n => (Measure.infinitePi fun _ : ℕ => S.law).real
      {ω | ¬ ∃ z s' xs, sampleObj E d n none none ⟨ω, left⟩ = (.ok z, s') ∧
        List.Forall₂ IsReal z.toList xs ∧
        ∃ m' l' u', getMedianAndCI argsort xs cred = .ok ⟨.flt m', .flt l', .flt u'⟩ ∧
          |m' - m| ≤ η ∧ |l' - l| ≤ η ∧ |u' - u| ≤ η}) atTop (nhds 0) := by
  have hA := C90_percentile_limit S hE hU hd argsort left (p := 50) (x := m) (by norm_num) (by norm_num)
    (by norm_num at hm ⊢; exact hm) hη
  have hB := C90_percentile_limit S hE hU hd argsort left (p := (100 - cred) / 2) (x := l) (by linarith)
    (by linarith) (by convert hl using 1; ring) hη
  have hC := C90_percentile_limit S hE hU hd argsort left (p := 100 - (100 - cred) / 2) (x := u) (by linarith)
    (by linarith) (by convert hu using 1; ring) hη
  have reorder : ∀ (p x : ℝ) n, {ω : ℕ → Ω | ¬ ∃ z s' xs v, sampleObj E d n none none ⟨ω, left⟩ = (.ok z, s') ∧
        List.Forall₂ IsReal z.toList xs ∧
        getPercentiles argsort xs (.one p) = .ok (.one (.flt v)) ∧ |v - x| ≤ η} =
      {ω | ¬ ∃ z s' xs, sampleObj E d n none none ⟨ω, left⟩ = (.ok z, s') ∧
        List.Forall₂ IsReal z.toList xs ∧
        ∃ v, getPercentiles argsort xs (.one p) = .ok (.one (.flt v)) ∧ |v - x| ≤ η} := by
    intro p x n
    ext ω
    simp only [Set.mem_ofPred_eq, exists_and_left]
  simp only [reorder] at hA hB hC
  have hABC := tendsto_bad S hA hB hC
  refine squeeze_zero (fun n => measureReal_nonneg) (fun n => bad_mono _ fun ω h => ?_) hABC
  obtain ⟨z, s', xs, e1, e2, ⟨v1, a1, b1⟩, ⟨v2, a2, b2⟩, v3, a3, b3⟩ := h
  exact ⟨z, s', xs, e1, e2, v1, v2, v3, (C65_median ..).2 ⟨a1, a2, a3⟩, b1, b2, b3⟩

/-- **C90**: `get_mean_and_ci(sample(d, n), cred)` converges to the mean and the central interval of the
law. -/
theorem C90_mean_ci_limit {d : Obj (St (ℕ → Ω) ℝ) ℝ} {μ : Measure ℝ} (hd : Denotes S.primLaw d μ)
    (hμ : MemLp id 2 μ)
    (argsort : List ℝ → List ℕ) (left : ℕ → ℕ → Option (List (Scalar ℝ))) {cred l u : ℝ} (h0 : 0 ≤ cred)
    (h1 : cred ≤ 100) (hl : IsQuantile μ ((1 - cred / 100) / 2) l)
    (hu : IsQuantile μ (1 - (1 - cred / 100) / 2) u) {η : ℝ} (hη : 0 < η) :
    Tendsto (fun n => (Measure.infinitePi fun _ : ℕ => S.law).real
      {ω | ¬ ∃ z s' xs, sampleObj E d n none none ⟨ω, left⟩ = (.ok z, s') ∧
        List.Forall₂ IsReal z.toList xs ∧
        ∃ m' l' u', getMeanAndCI argsort xs cred = .ok ⟨.flt m', .flt l', .flt u'⟩ ∧
          |m' - ∫ x, x ∂μ| ≤ η ∧ |l' - l| ≤ η ∧ |u' - u| ≤ η}) atTop (nhds 0) := by
  have hB := C90_percentile_limit S hE hU hd argsort left (p := (100 - cred) / 2) (x := l) (by linarith)
    (by linarith) (by convert hl using 1; ring) hη
  have hC := C90_percentile_limit S hE hU hd argsort left (p := 100 - (100 - cred) / 2) (x := u) (by linarith)
    (by linarith) (by convert hu using 1; ring) hη
  have reorder : ∀ (p x : ℝ) n, {ω : ℕ → Ω | ¬ ∃ z s' xs v, sampleObj E d n none none ⟨ω, left⟩ = (.ok z, s') ∧
        List.Forall₂ IsReal z.toList xs ∧
        getPercentiles argsort xs (.one p) = .ok (.one (.flt v)) ∧ |v - x| ≤ η} =
      {ω | ¬ ∃ z s' xs, sampleObj E d n none none ⟨ω, left⟩ = (.ok z, s') ∧
        List.Forall₂ IsReal z.toList xs ∧
        ∃ v, getPercentiles argsort xs (.one p) = .ok (.one (.flt v)) ∧ |v - x| ≤ η} := by
    intro p x n
    ext ω
    simp only [Set.mem_ofPred_eq, exists_and_left]
  simp only [reorder] at hB hC
  have hA : Tendsto (fun n => (Measure.infinitePi fun _ : ℕ => S.law).real
      {ω | ¬ ∃ z s' xs, sampleObj E d n none none ⟨ω, left⟩ = (.ok z, s') ∧
        List.Forall₂ IsReal z.toList xs ∧ |xs.sum / (xs.length : ℝ) - ∫ x, x ∂μ| ≤ η}) atTop (nhds 0) := by
    have hlim : Tendsto (fun n : ℕ => Var[id; μ] / (n * η ^ 2)) atTop (nhds 0) :=
      Tendsto.const_div_atTop (tendsto_natCast_atTop_atTop.atTop_mul_const (by positivity)) _
    refine tendsto_of_tendsto_of_tendsto_of_le_of_le' tendsto_const_nhds hlim
      (Eventually.of_forall fun n => measureReal_nonneg) ?_
    filter_upwards [eventually_ge_atTop 1] with n hn
    have hb := C87_mean S hE hU hd hμ hn left hη
    obtain ⟨hp, X, hX, hae, -, -⟩ := C86_independent_samples S hE hU hd hn left
    refine ENNReal.toReal_le_of_le_ofReal (by positivity [variance_nonneg id μ]) (le_trans (measure_mono_ae ?_) hb)
    filter_upwards [hae] with ω hω hbad h
    obtain ⟨z, s', xs, e1, e2, e3⟩ := h
    refine hbad ⟨z, s', xs, e1, e2, ?_⟩
    obtain ⟨z', s2, f1, f2⟩ := hω
    rw [e1] at f1
    simp only [Prod.mk.injEq, Except.ok.injEq] at f1
    obtain ⟨rfl, rfl⟩ := f1
    have hlen : xs.length = n := by
      rw [reads_unique e2 f2.2]; simp
    rw [hlen]
    exact e3.le
  have hABC := tendsto_bad S hA hB hC
  refine squeeze_zero (fun n => measureReal_nonneg) (fun n => bad_mono _ fun ω h => ?_) hABC
  obtain ⟨z, s', xs, e1, e2, b1, ⟨v2, a2, b2⟩, v3, a3, b3⟩ := h
  exact ⟨z, s', xs, e1, e2, _, v2, v3, (C65_mean ..).2 ⟨rfl, a2, a3⟩, b1, b2, b3⟩

end

/-! ## Normal and lognormal distributions -/

theorem normalLaw_pos (m : ℝ) {s : ℝ} (hs : 0 < s) {a b : ℝ} (hab : a < b) :
    0 < (normalLaw m s).real (Set.Ioo a b) := by
  have hv : (NNReal.mk (s ^ 2) (sq_nonneg s) : NNReal) ≠ 0 := by
    intro h
    have := congrArg NNReal.toReal h
    simp at this
    exact hs.ne' this
  refine ENNReal.toReal_pos (fun h => ?_) (measure_ne_top _ _)
  have := gaussianReal_absolutelyContinuous' m hv h
  rw [Real.volume_Ioo, ENNReal.ofReal_eq_zero] at this
  linarith

theorem isQuantile_of_below {μ : Measure ℝ} [IsProbabilityMeasure μ] {p x : ℝ}
    (hpos : ∀ a b, a < b → 0 < μ.real (Set.Ioo a b)) (h : μ.real (Set.Iio x) = p) : IsQuantile μ p x := by
  constructor
  · intro a ha
    have hd : Disjoint (Set.Iio a) (Set.Ioo a x) := Set.disjoint_left.2 fun z h1 h2 => lt_asymm h1 h2.1
    have := measureReal_union (μ := μ) hd measurableSet_Ioo
    have hle : μ.real (Set.Iio a ∪ Set.Ioo a x) ≤ μ.real (Set.Iio x) :=
      measureReal_mono (Set.union_subset (Set.Iio_subset_Iio ha.le) fun z hz => hz.2)
    linarith [hpos a x ha]
  · intro b hb
    have hd : Disjoint (Set.Ioi b) (Set.Ioo x b) := Set.disjoint_left.2 fun z h1 h2 => lt_asymm h1 h2.2
    have e1 := measureReal_union (μ := μ) hd measurableSet_Ioo
    have hle : μ.real (Set.Ioi b ∪ Set.Ioo x b) ≤ μ.real (Set.Iio x)ᶜ :=
      measureReal_mono (Set.union_subset (fun z hz => not_lt.2 (hb.trans hz).le) fun z hz => not_lt.2 hz.1.le)
    rw [probReal_compl_eq_one_sub measurableSet_Iio, h] at hle
    linarith [hpos x b hb]

theorem isQuantile_of_above {μ : Measure ℝ} [IsProbabilityMeasure μ] {p x : ℝ}
    (hpos : ∀ a b, a < b → 0 < μ.real (Set.Ioo a b)) (h : μ.real (Set.Ioi x) = 1 - p) :
    IsQuantile μ p x := by
  constructor
  · intro a ha
    have hd : Disjoint (Set.Iio a) (Set.Ioo a x) := Set.disjoint_left.2 fun z h1 h2 => lt_asymm h1 h2.1
    have e1 := measureReal_union (μ := μ) hd measurableSet_Ioo
    have hle : μ.real (Set.Iio a ∪ Set.Ioo a x) ≤ μ.real (Set.Ioi x)ᶜ :=
      measureReal_mono (Set.union_subset (fun z hz => not_lt.2 (lt_trans hz ha).le) fun z hz => not_lt.2 hz.2.le)
    rw [probReal_compl_eq_one_sub measurableSet_Ioi, h] at hle
    linarith [hpos a x ha]
  · intro b hb
    have hd : Disjoint (Set.Ioi b) (Set.Ioo x b) := Set.disjoint_left.2 fun z h1 h2 => lt_asymm h1 h2.2
    have := measureReal_union (μ := μ) hd measurableSet_Ioo
    have hle : μ.real (Set.Ioi b ∪ Set.Ioo x b) ≤ μ.real (Set.Ioi x) :=
      measureReal_mono (Set.union_subset (Set.Ioi_subset_Ioi hb.le) fun z hz => hz.1)
    linarith [hpos x b hb]

/-- The median of a normal law is its mean. -/
theorem isQuantile_normal_half (m : ℝ) {s : ℝ} (hs : 0 < s) : IsQuantile (normalLaw m s) (1 / 2) m := by
  refine isQuantile_of_below (fun a b => normalLaw_pos m hs) ?_
  have hsym : (normalLaw m s).map (fun x => 2 * m - x) = normalLaw m s := by
    have h1 := gaussianReal_map_const_sub (μ := m) (v := .mk (s ^ 2) (sq_nonneg s)) (2 * m)
    rw [normalLaw, h1]
    congr 1
    ring
  have hv : (NNReal.mk (s ^ 2) (sq_nonneg s) : NNReal) ≠ 0 := by
    intro h
    have := congrArg NNReal.toReal h
    simp at this
    exact hs.ne' this
  have : NullSingletonClass (normalLaw m s) := nullSingletonClass_gaussianReal hv
  have e1 : (normalLaw m s).real (Set.Iio m) = (normalLaw m s).real (Set.Ioi m) := by
    conv_lhs => rw [← hsym]
    rw [Measure.real, Measure.real, Measure.map_apply (by fun_prop) measurableSet_Iio]
    congr 2
    ext x
    simp only [Set.mem_preimage, Set.mem_Iio, Set.mem_Ioi]
    constructor <;> intro h <;> linarith
  have e2 : (normalLaw m s).real (Set.Ioi m) = 1 - (normalLaw m s).real (Set.Iio m) := by
    have : (normalLaw m s).real (Set.Iio m) = (normalLaw m s).real (Set.Iic m) := by
      rw [Measure.real, Measure.real, measure_congr Iio_ae_eq_Iic]
    rw [this, ← probReal_compl_eq_one_sub measurableSet_Iic, Set.compl_Iic]
  linarith

/-- Quantiles of the exponential of a variable. -/
theorem isQuantile_exp {μ : Measure ℝ} {p x : ℝ} (hp : 0 < p) (h : IsQuantile μ p x) :
    IsQuantile (μ.map Real.exp) p (Real.exp x) := by
  constructor
  · intro a ha
    rw [Measure.real, Measure.map_apply Real.measurable_exp measurableSet_Iio]
    rcases le_or_gt a 0 with h0 | h0
    · have : Real.exp ⁻¹' Set.Iio a = ∅ := by
        ext z
        simp only [Set.mem_preimage, Set.mem_Iio, Set.mem_empty_iff_false, iff_false, not_lt]
        exact h0.trans (Real.exp_pos z).le
      simpa [this] using hp
    · have : Real.exp ⁻¹' Set.Iio a = Set.Iio (Real.log a) := by
        ext z
        exact (Real.lt_log_iff_exp_lt h0).symm
      rw [this]
      exact h.below _ ((Real.log_lt_iff_lt_exp h0).2 ha)
  · intro b hb
    have h0 : 0 < b := (Real.exp_pos x).trans hb
    rw [Measure.real, Measure.map_apply Real.measurable_exp measurableSet_Ioi]
    have : Real.exp ⁻¹' Set.Ioi b = Set.Ioi (Real.log b) := by
      ext z
      exact (Real.log_lt_iff_lt_exp h0).symm
    rw [this]
    exact h.above _ ((Real.lt_log_iff_exp_lt h0).2 hb)

/-- The ends of the central interval of a normal law are quantiles. -/
theorem isQuantile_of_CI {m s x y cred : ℝ} (hs : 0 < s) (h1 : cred < 100)
    (h : HasCI (normalLaw m s) x y cred) :
    IsQuantile (normalLaw m s) ((1 - cred / 100) / 2) x ∧
    IsQuantile (normalLaw m s) (1 - (1 - cred / 100) / 2) y := by
  have hc : 0 ≤ (1 - cred / 100) / 2 := by linarith
  constructor
  · refine isQuantile_of_below (fun a b => normalLaw_pos m hs) ?_
    rw [Measure.real, h.below, ENNReal.toReal_ofReal hc]
  · refine isQuantile_of_above (fun a b => normalLaw_pos m hs) ?_
    rw [Measure.real, h.above, ENNReal.toReal_ofReal hc]
    ring

section

variable {Ω : Type} [MeasurableSpace Ω] (S : IdealSource Ω) {E : Env (ℕ → Ω) ℝ} (hE : S.Drives E)
  (hU : S.primLaw (.uniform 0 1) = some (volume.restrict (Set.Ico 0 1)))

include hE hU

/-- **C90**: `get_mean_and_ci(sample(norm(x, y, cred), n), cred)` converges to the mean `(x + y) / 2` and the
interval `[x, y]` the user gave. -/
theorem C90_norm_recovered (hN : ∀ m s, 0 < s → S.primLaw (.normal m s) = some (normalLaw m s))
    {ppf : ℝ → ℝ} (hp : IsPpf ppf) {x y cred : ℝ} (hxy : x < y) (h0 : 0 < cred) (h1 : cred < 100)
    (argsort : List ℝ → List ℕ) (left : ℕ → ℕ → Option (List (Scalar ℝ))) :
    ∃ m s, normalInit ppf (some x) (some y) none none cred = .ok ⟨some m, some s⟩ ∧
      ∀ η : ℝ, 0 < η → Tendsto (fun n => (Measure.infinitePi fun _ : ℕ => S.law).real
        {ω | ¬ ∃ z s' xs, sampleObj E (.leaf (.normal m s) none none) n none none ⟨ω, left⟩ = (.ok z, s') ∧
          List.Forall₂ IsReal z.toList xs ∧
          ∃ m' l' u', getMeanAndCI argsort xs cred = .ok ⟨.flt m', .flt l', .flt u'⟩ ∧
            |m' - (x + y) / 2| ≤ η ∧ |l' - x| ≤ η ∧ |u' - y| ≤ η}) atTop (nhds 0) := by
  obtain ⟨m, s, h, hm, hs, hc⟩ := C38_norm_interval hp hxy h0 h1
  refine ⟨m, s, h, fun η hη => ?_⟩
  obtain ⟨q1, q2⟩ := isQuantile_of_CI hs h1 hc
  have := C90_mean_ci_limit S hE hU (denotes_normal (T := St (ℕ → Ω) ℝ) (hN m s hs))
    (memLp_id_gaussianReal 2) argsort left h0.le h1.le q1 q2 hη
  have e : ∫ x, x ∂(normalLaw m s) = (x + y) / 2 := by rw [← hm]; exact integral_id_gaussianReal
  rw [e] at this
  exact this

/-- **C90**: `get_median_and_ci(sample(lognorm(x, y, cred), n), cred)` converges to the median `√(x y)` and the
interval `[x, y]` the user gave. -/
theorem C90_lognorm_recovered
    (hN : ∀ m s, 0 < s → S.primLaw (.lognormal m s) = some (lognormalLaw m s))
    {ppf : ℝ → ℝ} (hp : IsPpf ppf) {x y cred : ℝ} (hx : 0 < x) (hxy : x < y) (h0 : 0 < cred)
    (h1 : cred < 100) (argsort : List ℝ → List ℕ) (left : ℕ → ℕ → Option (List (Scalar ℝ))) :
    ∃ f m s, lognormInit ppf { x := some x, y := some y, cred := cred } = .ok f ∧
      f.normMean = some m ∧ f.normSd = some s ∧
      ∀ η : ℝ, 0 < η → Tendsto (fun n => (Measure.infinitePi fun _ : ℕ => S.law).real
        {ω | ¬ ∃ z s' xs,
          sampleObj E (.leaf (.lognormal m s) none none) n none none ⟨ω, left⟩ = (.ok z, s') ∧
          List.Forall₂ IsReal z.toList xs ∧
          ∃ m' l' u', getMedianAndCI argsort xs cred = .ok ⟨.flt m', .flt l', .flt u'⟩ ∧
            |m' - Real.sqrt (x * y)| ≤ η ∧ |l' - x| ≤ η ∧ |u' - y| ≤ η}) atTop (nhds 0) := by
  have hy : 0 < y := hx.trans hxy
  obtain ⟨hs, hci⟩ := normal_CI hp h0 h1 (Real.log_lt_log hx hxy)
  refine ⟨_, _, _, lognormInit_xy ppf cred hx hxy.le, rfl, rfl, fun η hη => ?_⟩
  obtain ⟨q1, q2⟩ := isQuantile_of_CI hs h1 hci
  have q3 := isQuantile_exp (by norm_num) (isQuantile_normal_half ((Real.log x + Real.log y) / 2) hs)
  have q1' := isQuantile_exp (by linarith) q1
  have q2' := isQuantile_exp (by linarith) q2
  rw [Real.exp_log hx] at q1'
  rw [Real.exp_log hy] at q2'
  have e : Real.exp ((Real.log x + Real.log y) / 2) = Real.sqrt (x * y) := by
    rw [← Real.log_mul hx.ne' hy.ne', Real.exp_half, Real.exp_log (mul_pos hx hy)]
  rw [e] at q3
  exact C90_median_ci_limit S hE hU (denotes_lognormal (T := St (ℕ → Ω) ℝ) (hN _ _ hs)) argsort left h0.le
    h1.le q3 q1' q2' hη

end

/-! ## Examples -/

/-- `norm(-1, 3)` at the default credibility, with the example source. -/
example : ∃ ppf m s, IsPpf ppf ∧ normalInit ppf (some (-1)) (some 3) none none 90 = .ok ⟨some m, some s⟩ ∧
    ∀ η : ℝ, 0 < η → Tendsto (fun n => (Measure.infinitePi fun _ : ℕ => demoSource.law).real
      {ω | ¬ ∃ z s' xs, sampleObj idealEnv (.leaf (.normal m s) none none) n none none
          ⟨ω, fun _ _ => none⟩ = (.ok z, s') ∧ List.Forall₂ IsReal z.toList xs ∧
        ∃ m' l' u', getMeanAndCI (fun _ => []) xs 90 = .ok ⟨.flt m', .flt l', .flt u'⟩ ∧
          |m' - (-1 + 3) / 2| ≤ η ∧ |l' - -1| ≤ η ∧ |u' - 3| ≤ η}) atTop (nhds 0) := by
  obtain ⟨ppf, hp⟩ := exists_ppf
  obtain ⟨m, s, h, hf⟩ := C90_norm_recovered demoSource (E := idealEnv) idealEnv_driven demoSource_uniform
    (fun m s hs => demoSource_normal m hs.le) hp (x := -1) (y := 3) (cred := 90) (by norm_num) (by norm_num)
    (by norm_num) (fun _ => []) fun _ _ => none
  exact ⟨ppf, m, s, hp, h, hf⟩

example : ∃ ppf f m s, IsPpf ppf ∧
    lognormInit ppf { x := some 1, y := some 9, cred := 90 } = .ok f ∧ f.normMean = some m ∧
    f.normSd = some s ∧
    ∀ η : ℝ, 0 < η → Tendsto (fun n => (Measure.infinitePi fun _ : ℕ => demoSource.law).real
      {ω | ¬ ∃ z s' xs, sampleObj idealEnv (.leaf (.lognormal m s) none none) n none none
          ⟨ω, fun _ _ => none⟩ = (.ok z, s') ∧ List.Forall₂ IsReal z.toList xs ∧
        ∃ m' l' u', getMedianAndCI (fun _ => []) xs 90 = .ok ⟨.flt m', .flt l', .flt u'⟩ ∧
          |m' - Real.sqrt (1 * 9)| ≤ η ∧ |l' - 1| ≤ η ∧ |u' - 9| ≤ η}) atTop (nhds 0) := by
  obtain ⟨ppf, hp⟩ := exists_ppf
  obtain ⟨f, m, s, h, hm, hs, hf⟩ := C90_lognorm_recovered demoSource (E := idealEnv) idealEnv_driven demoSource_uniform
    (fun m s hs => demoSource_lognormal m hs.le) hp (x := 1) (y := 9) (cred := 90) (by norm_num)
    (by norm_num) (by norm_num) (by norm_num) (fun _ => []) fun _ _ => none
  exact ⟨ppf, f, m, s, hp, h, hm, hs, hf⟩

/-- The median of 1000 samples of `norm(mean=0, sd=1)` is between `-t` and `t`, if at most 40% of the law lies
on either side, except with the stated probability. -/
example (t : ℝ) (h1 : (normalLaw 0 1).real (Set.Iio (-t)) ≤ 0.4) (h2 : (normalLaw 0 1).real (Set.Ioi t) ≤ 0.4) :
    (Measure.infinitePi fun _ : ℕ => demoSource.law).real
      {ω | ¬ ∃ z s' xs v, sampleObj idealEnv (.leaf (.normal 0 1) none none) 1000 none none
          ⟨ω, fun _ _ => none⟩ = (.ok z, s') ∧ List.Forall₂ IsReal z.toList xs ∧
        getPercentiles (fun _ => []) xs (.one 50) = .ok (.one (.flt v)) ∧ -t ≤ v ∧ v ≤ t}
      ≤ 4 * Real.exp (-2 * (1000 : ℕ) * 0.09 ^ 2) :=
  C90_percentile demoSource (E := idealEnv) idealEnv_driven demoSource_uniform
    (denotes_normal (T := St (ℕ → ℝ × ℝ) ℝ) (demoSource_normal 0 (s := 1) (by norm_num))) (fun _ => [])
    (by norm_num) _ (by norm_num) (by norm_num) (by norm_num) (by norm_num at h1 ⊢; linarith)
    (by norm_num at h2 ⊢; linarith)

end Verif
