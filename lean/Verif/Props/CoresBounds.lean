import Verif.Lemmas.CoresBounds
import Verif.Props.CacheBounds
import Verif.Props.BoundsLaw
import Verif.Props.ExpectedValue

/-!
# C148: bounds with several cores
-/

namespace Verif

open MeasureTheory ProbabilityTheory Spec

section
variable {σ K : Type} [Field K] [LinearOrder K] [FloorRing K] [IsStrictOrderedRing K]

/-! ## Helper lemmas -/

/-- What clamping achieves. -/
theorem clampOf_bounds {lows highs : List (Scalar K)} {v0 v : Scalar K} (h : ClampOf lows highs v0 v) :
    (∀ u ∈ highs, ScalarLe v u) ∧
    ((∀ l ∈ lows, ∀ u ∈ highs, ScalarLe l u) → ∀ l ∈ lows, ScalarLe l v) := by
  rcases h with ⟨rfl, rfl, -⟩ | ⟨x0, ls, hs, hx0, hls, hhs, hval⟩
  · simp
  · constructor
    · intro u hu
      obtain ⟨y, hy, huy⟩ := mem_val_of_map hhs hu
      exact ⟨_, y, hval, huy, (foldl_min_le _ _).2 y hy⟩
    · intro hcons l hl
      obtain ⟨y, hy, hly⟩ := mem_val_of_map hls hl
      refine ⟨y, _, hly, hval, le_foldl_min ((le_foldl_max _ _).2 y hy) ?_⟩
      intro b hb
      obtain ⟨u, hu, huy⟩ := mem_bound_of_map hhs hb
      obtain ⟨p, q, hp, hq, hpq⟩ := hcons l hl u hu
      rw [hly] at hp; rw [huy] at hq
      cases hp; cases hq
      exact hpq

omit [FloorRing K] [IsStrictOrderedRing K] in
theorem number_of_val {v : Scalar K} {x : K} (h : v.val? = some x) :
    ((∃ z, v = .int z) ∨ (∃ x, v = .flt x) ∨ (∃ b, v = .bool b)) ∧ (asFloat v).val? = some x := by
  cases v with
  | int z => exact ⟨Or.inl ⟨z, rfl⟩, h⟩
  | flt y => exact ⟨Or.inr (Or.inl ⟨y, rfl⟩), h⟩
  | bool b => exact ⟨Or.inr (Or.inr ⟨b, rfl⟩), by cases b <;> simpa [asFloat, Scalar.val?, Scalar.num?, Num.val] using h⟩
  | str s => simp [Scalar.val?, Scalar.num?] at h
  | none => simp [Scalar.val?, Scalar.num?] at h

theorem clampOf_value {lows highs : List (Scalar K)} {v0 v : Scalar K} (h : ClampOf lows highs v0 v)
    (h0 : (lows ++ highs) ≠ []) : ∃ x y, v0.val? = some x ∧ v.val? = some y := by
  rcases h with ⟨rfl, rfl, -⟩ | ⟨x, ls, hs, hx, -, -, hv⟩
  · exact absurd rfl h0
  · exact ⟨x, _, hx, hv⟩

/-- The batches of a successful call with some bound hold numbers, and the result is their concatenation, clamped to the
bounds of the call. -/
theorem cores_bounded {E : Env σ K} {sched : Sched} {cores : ℕ} (hc : 2 ≤ cores) (hv : sched.Valid cores)
    {d : Obj (St σ K) K} {n : ℕ} {lc rc : Option (Scalar K)} {m m' : MSt σ K}
    (hclean : ∀ i, i < cores → m.tmp i = none) {z : Samples K}
    (h : sampleCores E sched cores d n lc rc m = (.ok z, m')) (h0 : lowerBounds d lc ++ upperBounds d rc ≠ []) :
    ∃ cuts bs, coreCuts n cores = .ok cuts ∧
      List.Forall₂ (fun cut b => ∃ s s', sampleObj E d cut lc rc s = (.ok b, s')) cuts bs ∧
      (∀ w ∈ bs.flatMap Samples.toList, ∃ k s s' b, sampleObj E d k lc rc s = (.ok b, s') ∧ w ∈ b.toList ∧
        ∃ x, w.val? = some x) ∧
      List.Forall₂ (ClampOf lc.toList rc.toList) ((bs.flatMap Samples.toList).map asFloat) z.toList := by
  obtain ⟨cuts, bs, h1, h2, h3, -⟩ := C25_result_partial E sched cores hc hv d n lc rc m m' hclean z h
  have hw : ∀ w ∈ bs.flatMap Samples.toList, ∃ k s s' b, sampleObj E d k lc rc s = (.ok b, s') ∧ w ∈ b.toList ∧
      ∃ x, w.val? = some x := by
    intro w hw
    obtain ⟨b, hb, hwb⟩ := List.mem_flatMap.1 hw
    obtain ⟨i, hi, rfl⟩ := List.mem_iff_getElem.1 hb
    have hl := h2.length_eq
    obtain ⟨s, s', hs⟩ := h2.get (i := i) (by omega) hi
    refine ⟨_, s, s', _, hs, hwb, ?_⟩
    obtain ⟨hn, l, r, x, g1, g2, g3, g4⟩ := withClips_ok.1 hs
    have hf := clamp_of_combine g1 g2 g4
    obtain ⟨j, hj, rfl⟩ := List.mem_iff_getElem.1 hwb
    have hx : j < x.toList.length := by rw [hf.length_eq]; exact hj
    obtain ⟨x, y, -, hy⟩ := clampOf_value (hf.get hx hj) h0
    exact ⟨y, hy⟩
  refine ⟨cuts, bs, h1, h2, hw, ?_⟩
  have hhom : Homogeneous (bs.flatMap Samples.toList) := Or.inl fun w hm => by
    obtain ⟨-, -, -, -, -, -, x, hx⟩ := hw w hm
    exact (number_of_val hx).1
  exact applyClips_clampOf (h3 hhom)

/-! ## C148 -/

/-- **C148**, the bounds given to `sample`: with several cores every returned value is at most `rclip`, and at least
`lclip` if `lclip ≤ rclip`, whatever files lie around and whatever the workers did. -/
theorem C148_call (E : Env σ K) (sched : Sched) (cores : ℕ) (hc : 2 ≤ cores) (d : Obj (St σ K) K) (n : ℕ)
    (lc rc : Option (Scalar K)) (m m' : MSt σ K) (z : Samples K)
    (h : sampleCores E sched cores d n lc rc m = (.ok z, m')) (v : Scalar K) (hv : v ∈ z.toList) :
    (∀ u, rc = some u → ScalarLe v u) ∧
    ((∀ l u, lc = some l → rc = some u → ScalarLe l u) → ∀ l, lc = some l → ScalarLe l v) := by
  obtain ⟨-, cuts, own, bs, -, -, -, h4, -⟩ := multicore_ok hc h
  have hf := applyClips_clampOf h4
  obtain ⟨i, hi, rfl⟩ := List.mem_iff_getElem.1 hv
  have hx := hf.length_eq
  have := clampOf_bounds (hf.get (i := i) (by omega) hi)
  exact ⟨fun u hu => this.1 u (by simp [hu]), fun ho l hl => this.2 (fun l hl u hu => ho l u (by simpa using hl)
    (by simpa using hu)) l (by simp [hl])⟩

/-- **C148**, together with the bounds the distribution was built with: if all the lower bounds are at most all the
upper bounds and no `test-core` files were left over, every value is within all of them.  (Missing: bounds that cross and
left-over files, see `C148_crossed_fails` and `C148_left_over_fails`.) -/
theorem C148_bounds_partial (E : Env σ K) (sched : Sched) (cores : ℕ) (hc : 2 ≤ cores) (hs : sched.Valid cores)
    (d : Obj (St σ K) K) (a b : Option (Scalar K)) (hd : BuiltWith d a b) (n : ℕ) (lc rc : Option (Scalar K))
    (m m' : MSt σ K) (hclean : ∀ i, i < cores → m.tmp i = none) (z : Samples K)
    (h : sampleCores E sched cores d n lc rc m = (.ok z, m'))
    (hord : ∀ l u, (lc = some l ∨ a = some l) → (rc = some u ∨ b = some u) → ScalarLe l u)
    (v : Scalar K) (hv : v ∈ z.toList) :
    (∀ u, rc = some u ∨ b = some u → ScalarLe v u) ∧ (∀ l, lc = some l ∨ a = some l → ScalarLe l v) := by
  by_cases h0 : lowerBounds d lc ++ upperBounds d rc = []
  · have hcl := hd.clips_eq
    simp only [lowerBounds, upperBounds, hcl, List.append_eq_nil_iff, Option.toList_eq_nil_iff] at h0
    obtain ⟨⟨rfl, rfl⟩, rfl, rfl⟩ := h0
    simp
  obtain ⟨cuts, bs, -, -, hw, hf⟩ := cores_bounded hc hs hclean h h0
  obtain ⟨i, hi, rfl⟩ := List.mem_iff_getElem.1 hv
  have hlen := hf.length_eq
  have hcl := hf.get (i := i) (by omega) hi
  simp only [List.get_eq_getElem, List.getElem_map] at hcl
  have hi' : i < (bs.flatMap Samples.toList).length := by rw [List.length_map] at hlen; omega
  obtain ⟨k, s, s', w, hsam, hmem, x, hx⟩ := hw _ (List.getElem_mem hi')
  have hin := C12_built_with E d a b hd k lc rc s s' w hsam _ hmem
  have hfl := (number_of_val hx).2
  constructor
  · intro u hu
    refine (clampOf_keeps hcl u).2 ?_ fun l hl => hord l u (Or.inl (by simpa using hl)) hu
    obtain ⟨p, q, hp, hq, hpq⟩ := hin.1 u hu
    rw [hx] at hp
    cases hp
    exact ⟨_, q, hfl, hq, hpq⟩
  · intro l hl
    refine (clampOf_keeps hcl l).1 ?_ fun u hu => hord l u hl (Or.inl (by simpa using hu))
    obtain ⟨p, q, hp, hq, hpq⟩ := hin.2 hord l hl
    rw [hx] at hq
    cases hq
    exact ⟨p, _, hp, hfl, hpq⟩

/-- **C148 fails** when the bounds cross: the distribution was built with an upper bound `u` and `sample` is given a
larger lower bound `l`.  On one core every sample is `u`; on several cores every sample is `l`, because the lower bound
is applied once more to the collected batches – the upper bound of the distribution does not hold. -/
theorem C148_crossed_fails (E : Env σ K) (d : Obj (St σ K) K) (a : Option (Scalar K)) (u l : Scalar K)
    (hd : BuiltWith d a (some u)) {x y : K} (hl : l.val? = some x) (hu : u.val? = some y) (hyx : y < x) (n : ℕ)
    (z : Samples K) :
    (∀ s s', sampleObj E d n (some l) none s = (.ok z, s') → ∀ v ∈ z.toList, v.val? = some y) ∧
    ∀ (sched : Sched) (cores : ℕ) (m m' : MSt σ K), 2 ≤ cores → sched.Valid cores → (∀ i, i < cores → m.tmp i = none) →
      sampleCores E sched cores d n (some l) none m = (.ok z, m') → ∀ v ∈ z.toList, v.val? = some x := by
  have key : ∀ n (z : Samples K) s s', sampleObj E d n (some l) none s = (.ok z, s') →
      ∀ v ∈ z.toList, v.val? = some y := by
    intro n z s s' h v hv
    obtain ⟨hn, l', r, w, g1, g2, g3, g4⟩ := withClips_ok.1 h
    have hf := clamp_of_combine g1 g2 g4
    rw [hd.clips_eq] at hf
    obtain ⟨i, hi, rfl⟩ := List.mem_iff_getElem.1 hv
    have hlen := hf.length_eq
    have hc := hf.get (i := i) (by omega) hi
    simp only [List.get_eq_getElem, Option.toList_some, Option.toList_none, List.nil_append, List.cons_append] at hc
    rcases hc with ⟨e, -⟩ | ⟨x0, ls, hs, hx0, hls, hhs, hval⟩
    · cases e
    · obtain ⟨p, hp, hpl⟩ := mem_val_of_map hls (List.mem_cons_self (a := l))
      rw [hl] at hpl
      cases hpl
      match hs, hhs with
      | [q], hhs =>
        simp only [List.map_cons, List.map_nil, List.cons.injEq, and_true, hu] at hhs
        cases hhs
        rw [hval, List.foldl_cons, List.foldl_nil, min_eq_right (hyx.le.trans ((le_foldl_max _ _).2 x hp))]
      | [], hhs => simp at hhs
      | _ :: _ :: _, hhs => simp at hhs
  refine ⟨key n z, fun sched cores m m' hc hs hclean h v hv => ?_⟩
  obtain ⟨cuts, bs, -, -, hw, hf⟩ := cores_bounded hc hs hclean h (by simp [lowerBounds])
  obtain ⟨i, hi, rfl⟩ := List.mem_iff_getElem.1 hv
  have hlen := hf.length_eq
  have hcl := hf.get (i := i) (by omega) hi
  simp only [List.get_eq_getElem, List.getElem_map] at hcl
  have hi' : i < (bs.flatMap Samples.toList).length := by rw [List.length_map] at hlen; omega
  obtain ⟨k, s, s', w, hsam, hmem, x', hx⟩ := hw _ (List.getElem_mem hi')
  have hy := key k w s s' hsam _ hmem
  have hfl := (number_of_val hy).2
  rcases hcl with ⟨e, -⟩ | ⟨x0, ls, hs, hx0, hls, hhs, hval⟩
  · cases e
  · rw [hfl] at hx0
    cases hx0
    simp only [Option.toList_none, List.map_nil] at hhs
    obtain rfl := List.map_eq_nil_iff.1 hhs.symm
    match ls, hls with
    | [q], hls =>
      simp only [Option.toList_some, List.map_cons, List.map_nil, List.cons.injEq, and_true, hl] at hls
      cases hls
      rw [hval]
      simp [max_eq_right hyx.le]
    | [], hls => simp at hls
    | _ :: _ :: _, hls => simp at hls

/-- Both cases of `C148_crossed_fails` occur: `sample(norm(0, 1, rclip=3), 2, lclip=5)` on one and on two cores. -/
example :
    (sampleObj demoEnv (.leaf (.normal 0 1) none (some (.int 3))) 2 (some (.int 5)) none (demoSt 0)).1
      = .ok (.arr [.flt 3, .flt 3]) ∧
    (sampleCores demoEnv [(0, 0)] 2 (.leaf (.normal 0 1) none (some (.int 3))) 2 (some (.int 5)) none
      ⟨demoSt 0, fun _ => none⟩).1 = .ok (.arr [.flt 5, .flt 5]) := by
  constructor <;> decide +kernel

/-- **C148 fails** with a left-over `test-core-0.npy`: `sample(norm(0, 1, lclip=0), n=1, cores=2)` returns what is in the
file, outside the bound of the distribution. -/
theorem C148_left_over_fails :
    (sampleCores demoEnv [(0, 0)] 2 (.leaf (.normal 0 1) (some (.int 0)) none) 1 none none
      ⟨demoSt 0, fun i => if i = 0 then some (.arr [.flt (-100)]) else none⟩).1 = .ok (.arr [.flt (-100), .flt 0]) ∧
    ¬ ScalarLe (.int 0) (.flt (-100) : Scalar ℚ) := by
  refine ⟨by decide +kernel, ?_⟩
  rintro ⟨x, y, hx, hy, h⟩
  simp only [Scalar.val?, Scalar.num?, Num.val, Option.map_some, Option.some.injEq, Int.cast_zero] at hx hy
  subst hx hy
  norm_num at h

/-- The hypotheses of `C148_bounds_partial` are met: own bound 1/5, bound of the call 1/2, five samples on two cores. -/
example : Sched.Valid [(0, 0)] 2 ∧
    BuiltWith (.leaf (.normal 0 1) (some (.flt (1 / 5))) none : Obj (St ℕ ℚ) ℚ) (some (.flt (1 / 5))) none ∧
    (sampleCores demoEnv [(0, 0)] 2 (.leaf (.normal 0 1) (some (.flt (1 / 5))) none) 5 none (some (.flt (1 / 2)))
      ⟨demoSt 0, fun _ => none⟩).1
    = .ok (.arr [.flt (1 / 5), .flt (3 / 10), .flt (1 / 5), .flt (3 / 10), .flt (1 / 2)]) := by
  refine ⟨?_, .leaf _ _ _, by decide +kernel⟩
  unfold Sched.Valid
  decide

end

section
variable {Ω : Type} [MeasurableSpace Ω] (S : IdealSource Ω) {E : Env (ℕ → Ω) ℝ} (hE : S.Drives E)
  (hU : S.primLaw (.uniform 0 1) = some (volume.restrict (Set.Ico 0 1)))

theorem clamp_clamp (lo hi : Option ℝ) (x : ℝ) : clamp lo hi (clamp lo hi x) = clamp lo hi x := by
  cases lo <;> cases hi <;> simp only [clamp]
  · exact min_eq_left (min_le_right _ _)
  · exact max_eq_left (le_max_right _ _)
  · rename_i a b
    rcases le_total a b with h | h
    · rw [max_eq_left (le_min (le_max_right _ _) h), min_eq_left (min_le_right _ _)]
    · rw [min_eq_right (h.trans (le_max_right _ _)), min_eq_right (h.trans (le_max_right _ _))]

include hE hU in
/-- **C148**, the law: `sample(d, n, lclip, rclip, cores=c)` of a distribution without bounds of its own almost surely
succeeds, however the pool distributes the tasks; the result is made of `c` batches in a row, and within each batch the
numbers are independent, each with the law of a value of `d` moved into the interval – as on one core (C101). -/
theorem C148_law {d : Obj (St (ℕ → Ω) ℝ) ℝ} {μ : Measure ℝ} (hd : Denotes S.primLaw d μ)
    (hown : d.clips = (none, none)) {lc rc : Option (Scalar ℝ)} {lo hi : Option ℝ} (hlo : IsBound lc lo)
    (hhi : IsBound rc hi) {cores n : ℕ} (hc : 2 ≤ cores) (hn : cores ≤ n) {sched : Sched} (hv : sched.Valid cores)
    (left : ℕ → ℕ → Option (List (Scalar ℝ))) (tmp : ℕ → Option (Samples ℝ)) :
    ∃ (k : ℕ → ℕ) (Y : (i : ℕ) → Fin (k i) → (ℕ → Ω) → ℝ), (∀ i, i + 1 < cores → k i = n / cores) ∧
      k (cores - 1) = n / cores + n % cores ∧
      (∀ i < cores, (∀ j, Measurable (Y i j)) ∧
        (∀ j, (Measure.infinitePi fun _ : ℕ => S.law).map (Y i j) = μ.map (clamp lo hi)) ∧
        iIndepFun (Y i) (Measure.infinitePi fun _ : ℕ => S.law)) ∧
      ∀ᵐ ω ∂(Measure.infinitePi fun _ : ℕ => S.law), ∃ z m',
        sampleCores E sched cores d n lc rc ⟨⟨ω, left⟩, tmp⟩ = (.ok z, m') ∧
        List.Forall₂ IsReal z.toList ((List.range cores).flatMap fun i => List.ofFn fun j => Y i j ω) := by
  have hm := measurable_clamp lo hi
  have hp := (denotes_bounds S (left := left) hE hU hd hown hlo hhi (le_refl 1)).1
  obtain ⟨k, Y, h1, h2, h3, h4⟩ := cores_law_bounds S hlo hhi
    (fun n hn => (denotes_bounds S (left := left) hE hU hd hown hlo hhi hn).2) hc hn hv tmp
  refine ⟨k, fun i j ω => clamp lo hi (Y i ω j), h1, h2, fun i hi' => ?_, ?_⟩
  · obtain ⟨e1, e2⟩ := iIndep_of_pi (P := streamLaw S.law) (h3 i hi').measurable (h3 i hi').map_eq
    have hY : ∀ j, Measurable fun ω => Y i ω j := fun j => (measurable_pi_apply j).comp (h3 i hi').measurable
    refine ⟨fun j => hm.comp (hY j), fun j => ?_, e2.comp (fun _ => clamp lo hi) fun _ => hm⟩
    change (Measure.infinitePi fun _ : ℕ => S.law).map (clamp lo hi ∘ fun ω => Y i ω j) = _
    rw [← Measure.map_map hm (hY j)]
    have e := e1 j
    rw [streamLaw] at e
    rw [e, Measure.map_map hm hm]
    congr 1
    funext x
    exact clamp_clamp lo hi x
  · filter_upwards [h4] with ω hω
    obtain ⟨z, m', hz, hR⟩ := hω
    refine ⟨z, m', hz, ?_⟩
    convert hR using 1
    rw [List.map_flatMap]
    congr 1
    funext i
    simp [Function.comp_def]

end

/-- 1000 samples of `norm(mean=0, sd=1)` with `rclip=1` on 4 cores: the first batch has 250 numbers, and each is exactly 1
with the chance that the normal distribution is at least 1. -/
example {sched : Sched} (hv : sched.Valid 4) : ∃ (k : ℕ → ℕ) (Y : (i : ℕ) → Fin (k i) → (ℕ → ℝ × ℝ) → ℝ), k 0 = 250 ∧
    (∀ j, (Measure.infinitePi fun _ : ℕ => demoSource.law) {ω | Y 0 j ω = 1} = normalLaw 0 1 (Set.Ici 1)) ∧
    ∀ᵐ ω ∂(Measure.infinitePi fun _ : ℕ => demoSource.law), ∃ z m',
      sampleCores idealEnv sched 4 (.leaf (.normal 0 1) none none) 1000 none (some (.int 1))
        ⟨⟨ω, fun _ _ => none⟩, fun _ => none⟩ = (.ok z, m') ∧
      List.Forall₂ IsReal z.toList ((List.range 4).flatMap fun i => List.ofFn fun j => Y i j ω) := by
  have hd := denotes_normal (T := St (ℕ → ℝ × ℝ) ℝ) (demoSource_normal 0 zero_le_one)
  obtain ⟨k, Y, h1, -, h3, h4⟩ := C148_law demoSource idealEnv_driven demoSource_uniform hd rfl (lc := none)
    (rc := some (.int 1)) (lo := none) (hi := some 1) trivial (Or.inr ⟨1, rfl, by norm_num⟩) (n := 1000) (by norm_num)
    (by norm_num) hv (fun _ _ => none) fun _ => none
  refine ⟨k, Y, h1 0 (by norm_num), fun j => ?_, h4⟩
  obtain ⟨hm, hl, -⟩ := h3 0 (by norm_num)
  have := (clamp_above (μ := normalLaw 0 1) (b := 1)).1
  rw [← this, ← hl j, Measure.map_apply (hm j) (measurableSet_singleton _)]
  rfl

end Verif
