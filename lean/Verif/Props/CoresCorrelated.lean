import Verif.Props.Multicore
import Verif.Props.JointDraw

/-!
# Correlated variables and several cores: C134

`sample(a, n, cores=c)` for a variable `a` that `correlate` returned.
-/

namespace Verif

variable {σ K : Type} [Field K] [LinearOrder K] [FloorRing K]

/-- Every file a pool leaves was there before or holds a batch drawn for its core, by a process that saw the
left-over samples of the parent. -/
theorem runWorkers_left (E : Env σ K) (d : Obj (St σ K) K) (cuts : List ℕ) (lc rc : Option (Scalar K))
    (L : ℕ → ℕ → Option (List (Scalar K))) (sched : Sched) :
    ∀ (procs : ℕ → St σ K) (tmp : ℕ → Option (Samples K)) (i : ℕ) (z : Samples K), (∀ p, (procs p).left = L) →
      runWorkers E d cuts lc rc sched procs tmp i = some z →
      tmp i = some z ∨ (i ∈ sched.map Prod.snd ∧
        ∃ s s', s.left = L ∧ sampleObj E d (cuts.getD i 0) lc rc s = (.ok z, s')) := by
  induction sched with
  | nil => intro procs tmp i z _ h; exact Or.inl h
  | cons a rest ih =>
    obtain ⟨p, core⟩ := a
    intro procs tmp i z hL h
    have hL' : ∀ q, ((workerStep E d cuts lc rc procs tmp p core).1 q).left = L := by
      intro q
      have hp : (onCopy (sampleObj E d (cuts.getD core 0) lc rc) (procs p)).2.left = L := hL p
      unfold workerStep
      split
      · rename_i w s' hs
        rw [hs] at hp
        simp only
        split_ifs
        · exact hp
        · exact hL q
      · rename_i w s' hs
        rw [hs] at hp
        simp only
        split_ifs
        · exact hp
        · exact hL q
    rcases ih _ _ i z hL' h with h1 | ⟨h1, h2⟩
    · unfold workerStep at h1
      split at h1
      · rename_i w s' hs
        simp only at h1
        split_ifs at h1 with hi
        · cases h1
          subst hi
          exact Or.inr ⟨by simp, _, _, hL p, onCopy_ok hs⟩
        · exact Or.inl h1
      · exact Or.inl h1
    · refine Or.inr ⟨?_, h2⟩
      simp only [List.map_cons, List.mem_cons]
      exact Or.inr h1

/-- What a successful multi-core call in a clean directory did, with the left-over samples each core saw. -/
theorem cores_left {E : Env σ K} {sched : Sched} {cores : ℕ} (hc : 2 ≤ cores)
    {d : Obj (St σ K) K} {n : ℕ} {lc rc : Option (Scalar K)} {m m' : MSt σ K}
    (hclean : ∀ i, i < cores → m.tmp i = none) {z : Samples K}
    (h : sampleCores E sched cores d n lc rc m = (.ok z, m')) :
    ∃ b : ℕ → Samples K,
      (∀ i, i + 1 < cores → ∃ s s', s.left = m.inner.left ∧ sampleObj E d (n / cores) lc rc s = (.ok (b i), s')) ∧
      sampleObj E d (n / cores + n % cores) lc rc m.inner = (.ok (b (cores - 1)), m'.inner) ∧
      applyClips E.powf lc rc
        (.arr (((List.range cores).map b).foldl (fun acc b => npConcat E.fmt acc b.toList) [])) = .ok z := by
  obtain ⟨-, cuts, own, bs, h1, h2, h3, h4, -⟩ := multicore_ok hc h
  obtain ⟨-, -, hcut, hlast⟩ := coreCuts_getD h1
  have hlen := h3.length_eq
  rw [List.length_range] at hlen
  have hget : ∀ i (hi : i < bs.length), bs.getD i own = bs[i] := fun i hi => by
    rw [List.getD_eq_getElem?_getD, List.getElem?_eq_getElem hi]; rfl
  have hmap : (List.range cores).map (fun i => bs.getD i own) = bs := by
    refine List.ext_getElem (by simp [hlen]) fun i hi1 hi2 => ?_
    rw [List.getElem_map, List.getElem_range, hget i hi2]
  refine ⟨fun i => bs.getD i own, fun i hi => ?_, ?_, by rw [hmap]; exact h4⟩
  · have hi2 : i < bs.length := by omega
    have := h3.get (i := i) (by simp; omega) hi2
    simp only [List.get_eq_getElem, List.getElem_range] at this
    rw [if_neg (by omega)] at this
    rcases runWorkers_left E d cuts lc rc m.inner.left sched _ _ i _ (fun _ => rfl) this with h6 | ⟨-, s, s', h6, h7⟩
    · rw [hclean i (by omega)] at h6; cases h6
    · rw [hcut i hi] at h7
      simp only [hget i hi2]
      exact ⟨s, s', h6, h7⟩
  · have hi2 : cores - 1 < bs.length := by omega
    have := h3.get (i := cores - 1) (by simp; omega) hi2
    simp only [List.get_eq_getElem, List.getElem_range, if_true] at this
    rw [hlast] at h2
    simp only [hget _ hi2]
    rw [← Option.some.inj this]
    exact h2

theorem foldl_flts (fmt : Scalar K → String) (cols : ℕ → List K) (l : List ℕ) :
    (l.map fun k => (Samples.arr ((cols k).map .flt) : Samples K)).foldl
        (fun acc b => npConcat fmt acc b.toList) [] = (l.flatMap cols).map .flt := by
  rw [concat_homogeneous]
  · simp only [List.flatMap_map, Samples.toList, List.map_flatMap, List.map_map]
    rfl
  · left
    intro v hv
    simp only [List.flatMap_map, Samples.toList, List.mem_flatMap, List.mem_map] at hv
    obtain ⟨_, _, x, _, rfl⟩ := hv
    exact Or.inr (Or.inl ⟨x, rfl⟩)

/-- A variable with left-over samples: a plain `sample` call returns them. -/
theorem corr_kept {E : Env σ K} {g m : ℕ} {members : Fin m → Obj (St σ K) K} (hav : ∀ j, (members j).Avoids g)
    {i : Fin m} (hi : (members i).clips = (none, none)) {n : ℕ} {s s' : St σ K} {z : Samples K} {xs : List (Scalar K)}
    (hleft : s.left g i = some xs)
    (h : sampleObj E (.corr g m members i) n none none s = (.ok z, s')) :
    z = .arr xs ∧ s'.left g = fun j => if j = i.1 then none else s.left g j := by
  have hs := corr_step (E := E) hav i ⟨n, none, none⟩ s
  simp only [h, hi] at hs
  rcases hs with ⟨⟨e, he⟩, -⟩ | ⟨ys, l, u, h1, h2, h3, h4, h5⟩ | ⟨cols, c, l, u, h1, -⟩
  · cases he
  · rw [hleft] at h1
    cases h1
    cases h2
    cases h3
    exact ⟨Except.ok.inj h4, h5⟩
  · rw [hleft] at h1; cases h1

/-- A variable without left-over samples: a plain `sample` call returns its column of a joint draw and keeps the
other columns. -/
theorem corr_fresh {E : Env σ K} {g m : ℕ} {members : Fin m → Obj (St σ K) K} (hav : ∀ j, (members j).Avoids g)
    {i : Fin m} (hi : (members i).clips = (none, none)) {n : ℕ} {s s' : St σ K} {z : Samples K}
    (hleft : s.left g i = none)
    (h : sampleObj E (.corr g m members i) n none none s = (.ok z, s')) :
    ∃ cols c, IsJointDraw E g m members n cols ∧ cols[i.1]? = some c ∧ z = .arr (c.map .flt) ∧
      ∀ j c', j ≠ i.1 → cols[j]? = some c' → s'.left g j = some (c'.map .flt) := by
  have hs := corr_step (E := E) hav i ⟨n, none, none⟩ s
  simp only [h, hi] at hs
  rcases hs with ⟨⟨e, he⟩, -⟩ | ⟨ys, l, u, h1, -⟩ | ⟨cols, c, l, u, -, h1, h2, h3, h4, h5, h6⟩
  · cases he
  · rw [hleft] at h1; cases h1
  · cases h3
    cases h4
    refine ⟨cols, c, h1, h2, Except.ok.inj h5, fun j c' hj hc' => ?_⟩
    rw [h6]
    simp only [hj, ne_eq, not_false_eq_true, if_true, hc']

/-! ## C134 -/

/-- **C134, the first call.** A successful `sample(a, n, cores=c)` of a member of a group of which nothing has been
sampled yet, in a clean directory and however the tasks are distributed: every core makes a joint draw of its own, the
result is the concatenation of `a`'s columns.  Of the other columns only those of the last core's joint draw are kept
for the other variables. -/
theorem C134_first_partial {E : Env σ K} {sched : Sched} {cores : ℕ} (hc : 2 ≤ cores)
    {g k : ℕ} {members : Fin k → Obj (St σ K) K} (hav : ∀ j, (members j).Avoids g) {i : Fin k}
    (hi : (members i).clips = (none, none)) {n : ℕ} {m m' : MSt σ K} (hclean : ∀ i, i < cores → m.tmp i = none)
    (hfresh : m.inner.left g i = none) {z : Samples K}
    (h : sampleCores E sched cores (.corr g k members i) n none none m = (.ok z, m')) :
    ∃ (cols : ℕ → List (List K)) (c : ℕ → List K),
      (∀ q, q + 1 < cores → IsJointDraw E g k members (n / cores) (cols q)) ∧
      IsJointDraw E g k members (n / cores + n % cores) (cols (cores - 1)) ∧
      (∀ q, q < cores → (cols q)[i.1]? = some (c q)) ∧
      z = .arr (((List.range cores).flatMap c).map .flt) ∧
      ∀ j c', j ≠ i.1 → (cols (cores - 1))[j]? = some c' → m'.inner.left g j = some (c'.map .flt) := by
  obtain ⟨b, h1, h2, h3⟩ := cores_left hc hclean h
  obtain ⟨colsL, cL, h4, h5, h6, h7⟩ := corr_fresh hav hi hfresh h2
  have hw : ∀ q, ∃ cols c, q + 1 < cores → IsJointDraw E g k members (n / cores) cols ∧ cols[i.1]? = some c ∧
      b q = .arr (c.map .flt) := fun q => by
    by_cases hq : q + 1 < cores
    · obtain ⟨s, s', hs, hb⟩ := h1 q hq
      obtain ⟨cols, c, h8, h9, h10, -⟩ := corr_fresh hav hi (by rw [hs]; exact hfresh) hb
      exact ⟨cols, c, fun _ => ⟨h8, h9, h10⟩⟩
    · exact ⟨[], [], fun h => absurd h hq⟩
  choose cols c hw using hw
  refine ⟨fun q => if q + 1 < cores then cols q else colsL, fun q => if q + 1 < cores then c q else cL,
    fun q hq => by simp only [hq, if_true]; exact (hw q hq).1, ?_, fun q hq => ?_, ?_, ?_⟩
  · simp only [show ¬ cores - 1 + 1 < cores by omega, if_false]; exact h4
  · by_cases hq' : q + 1 < cores
    · simp only [hq', if_true]; exact (hw q hq').2.1
    · simp only [hq', if_false]; exact h5
  · have hb : (List.range cores).map b = (List.range cores).map
        fun q => (Samples.arr ((if q + 1 < cores then c q else cL).map .flt) : Samples K) := by
      refine List.map_congr_left fun q hq => ?_
      have hq := List.mem_range.1 hq
      by_cases hq' : q + 1 < cores
      · rw [if_pos hq']; exact (hw q hq').2.2
      · rw [if_neg hq', ← h6]; congr 1; omega
    rw [hb, foldl_flts, applyClips_none] at h3
    exact (Except.ok.inj h3).symm
  · simp only [show ¬ cores - 1 + 1 < cores by omega, if_false]; exact h7

/-- **C134 fails: left-over samples are handed out once per core.** If samples of the variable are left over from a
joint draw, then `sample(b, n, cores=c)` returns these samples, all of them, `c` times over, whatever `n` is. -/
theorem C134_kept_fails {E : Env σ K} {sched : Sched} {cores : ℕ} (hc : 2 ≤ cores)
    {g k : ℕ} {members : Fin k → Obj (St σ K) K} (hav : ∀ j, (members j).Avoids g) {i : Fin k}
    (hi : (members i).clips = (none, none)) {n : ℕ} {m m' : MSt σ K} (hclean : ∀ i, i < cores → m.tmp i = none)
    {c : List K} (hkept : m.inner.left g i = some (c.map .flt)) {z : Samples K}
    (h : sampleCores E sched cores (.corr g k members i) n none none m = (.ok z, m')) :
    z = .arr ((List.replicate cores c).flatten.map .flt) ∧
      m'.inner.left g = fun j => if j = i.1 then none else m.inner.left g j := by
  obtain ⟨b, h1, h2, h3⟩ := cores_left hc hclean h
  obtain ⟨h4, h5⟩ := corr_kept hav hi hkept h2
  refine ⟨?_, h5⟩
  have hb : (List.range cores).map b = (List.range cores).map fun _ => (Samples.arr (c.map .flt) : Samples K) := by
    refine List.map_congr_left fun q hq => ?_
    have hq := List.mem_range.1 hq
    by_cases hq' : q + 1 < cores
    · obtain ⟨s, s', hs, hb⟩ := h1 q hq'
      exact (corr_kept hav hi (by rw [hs]; exact hkept) hb).1
    · rw [← h4]; congr 1; omega
  rw [hb, foldl_flts E.fmt (fun _ => c), applyClips_none] at h3
  rw [← Except.ok.inj h3, List.flatMap_def, List.map_const', List.length_range]

/-- **C134, two variables one after the other.** After `sample(a, n, cores=c)` and `sample(b, n, cores=c)` on a fresh
group: every core made a joint draw; the first result is `a`'s columns of all of them, the second is `b`'s column of
the *last* core's draw, `c` times. -/
theorem C134_pair_partial {E : Env σ K} {sched sched' : Sched} {cores : ℕ} (hc : 2 ≤ cores)
    {g k : ℕ} {members : Fin k → Obj (St σ K) K} (hav : ∀ j, (members j).Avoids g)
    (hind : ∀ a b, E.induce g a = .ok b → b.length = a.length) {i j : Fin k} (hij : j ≠ i)
    (hi : (members i).clips = (none, none)) (hj : (members j).clips = (none, none))
    {n n' : ℕ} {m m' m'' : MSt σ K} (hclean : ∀ i, i < cores → m.tmp i = none)
    (hclean' : ∀ i, i < cores → m'.tmp i = none)
    (hfresh : m.inner.left g i = none) {za zb : Samples K}
    (ha : sampleCores E sched cores (.corr g k members i) n none none m = (.ok za, m'))
    (hb : sampleCores E sched' cores (.corr g k members j) n' none none m' = (.ok zb, m'')) :
    ∃ (cols : ℕ → List (List K)) (a : ℕ → List K) (b : List K),
      (∀ q, q + 1 < cores → IsJointDraw E g k members (n / cores) (cols q)) ∧
      IsJointDraw E g k members (n / cores + n % cores) (cols (cores - 1)) ∧
      (∀ q, q < cores → (cols q)[i.1]? = some (a q)) ∧ (cols (cores - 1))[j.1]? = some b ∧
      za = .arr (((List.range cores).flatMap a).map .flt) ∧
      zb = .arr ((List.replicate cores b).flatten.map .flt) := by
  obtain ⟨cols, a, h1, h2, h3, h4, h5⟩ := C134_first_partial hc hav hi hclean hfresh ha
  have hl : (cols (cores - 1)).length = k := joint_length hind h2
  have hb' : (cols (cores - 1))[j.1]? = some ((cols (cores - 1))[j.1]'(by rw [hl]; exact j.2)) :=
    List.getElem?_eq_getElem _
  have hne : j.1 ≠ i.1 := fun h => hij (Fin.ext h)
  exact ⟨cols, a, _, h1, h2, h3, hb', h4, (C134_kept_fails hc hav hj hclean' (h5 _ _ hne hb') hb).1⟩

/-- **C134, what remains of the full property.** The two results agree with one joint draw at the end: the last
`n / c + n % c` samples of both are the two variables' columns of one joint draw. -/
theorem C134_end_partial {E : Env σ K} {sched sched' : Sched} {cores : ℕ} (hc : 2 ≤ cores)
    {g k : ℕ} {members : Fin k → Obj (St σ K) K} (hav : ∀ j, (members j).Avoids g)
    (hind : ∀ a b, E.induce g a = .ok b → b.length = a.length) {i j : Fin k} (hij : j ≠ i)
    (hi : (members i).clips = (none, none)) (hj : (members j).clips = (none, none))
    {n n' : ℕ} {m m' m'' : MSt σ K} (hclean : ∀ i, i < cores → m.tmp i = none)
    (hclean' : ∀ i, i < cores → m'.tmp i = none)
    (hfresh : m.inner.left g i = none) {za zb : Samples K}
    (ha : sampleCores E sched cores (.corr g k members i) n none none m = (.ok za, m'))
    (hb : sampleCores E sched' cores (.corr g k members j) n' none none m' = (.ok zb, m'')) :
    ∃ cols a b, IsJointDraw E g k members (n / cores + n % cores) cols ∧
      cols[i.1]? = some a ∧ cols[j.1]? = some b ∧
      a.map .flt <:+ za.toList ∧ b.map .flt <:+ zb.toList := by
  obtain ⟨cols, a, b, -, h2, h3, h4, rfl, rfl⟩ :=
    C134_pair_partial hc hav hind hij hi hj hclean hclean' hfresh ha hb
  refine ⟨_, _, b, h2, h3 (cores - 1) (by omega), h4, ?_, ?_⟩
  · obtain ⟨p, rfl⟩ : ∃ p, cores = p + 1 := ⟨cores - 1, by omega⟩
    simp only [Samples.toList, List.range_succ, List.flatMap_append, List.flatMap_singleton, List.map_append,
      Nat.add_sub_cancel]
    exact List.suffix_append _ _
  · obtain ⟨p, rfl⟩ : ∃ p, cores = p + 1 := ⟨cores - 1, by omega⟩
    simp only [Samples.toList, List.replicate_succ', List.flatten_append, List.flatten_singleton, List.map_append]
    exact List.suffix_append _ _

theorem column_length {E : Env σ K} {g k : ℕ} {members : Fin k → Obj (St σ K) K}
    (hindc : ∀ a b, E.induce g a = .ok b → ∀ n, (∀ c ∈ a, c.length = n) → ∀ c ∈ b, c.length = n)
    {n : ℕ} {cols : List (List K)} (h : IsJointDraw E g k members n cols) {i : ℕ} {c : List K}
    (hc : cols[i]? = some c) : c.length = n := by
  obtain ⟨s, s1, xs, indep, -, h2, h3⟩ := h
  refine hindc _ _ h3 n (fun d hd => ?_) c (List.mem_of_getElem? hc)
  clear h3 hc
  induction h2 with
  | nil => cases hd
  | cons h _ ih =>
    rcases List.mem_cons.1 hd with rfl | hd
    · unfold toColumn at h
      simp only [bind, Except.bind] at h
      split at h
      · cases h
      · split_ifs at h with h'
        cases h
        exact h'
    · exact ih hd

/-- **C134 fails: the numbers of samples differ.** The first call returns `n` samples, the second `c (n / c + n % c)`,
which is more than `n` whenever `n` is not a multiple of the number of cores. -/
theorem C134_count_fails {E : Env σ K} {sched sched' : Sched} {cores : ℕ} (hc : 2 ≤ cores)
    {g k : ℕ} {members : Fin k → Obj (St σ K) K} (hav : ∀ j, (members j).Avoids g)
    (hind : ∀ a b, E.induce g a = .ok b → b.length = a.length)
    (hindc : ∀ a b, E.induce g a = .ok b → ∀ n, (∀ c ∈ a, c.length = n) → ∀ c ∈ b, c.length = n)
    {i j : Fin k} (hij : j ≠ i)
    (hi : (members i).clips = (none, none)) (hj : (members j).clips = (none, none))
    {n : ℕ} {m m' m'' : MSt σ K} (hclean : ∀ i, i < cores → m.tmp i = none)
    (hclean' : ∀ i, i < cores → m'.tmp i = none)
    (hfresh : m.inner.left g i = none) {za zb : Samples K}
    (ha : sampleCores E sched cores (.corr g k members i) n none none m = (.ok za, m'))
    (hb : sampleCores E sched' cores (.corr g k members j) n none none m' = (.ok zb, m'')) :
    za.toList.length = n ∧ zb.toList.length = cores * (n / cores + n % cores) ∧
      (¬ cores ∣ n → n < zb.toList.length) := by
  obtain ⟨cols, a, b, h1, h2, h3, h4, rfl, rfl⟩ :=
    C134_pair_partial hc hav hind hij hi hj hclean hclean' hfresh ha hb
  have hbl := column_length hindc h2 h4
  have hdm := Nat.div_add_mod n cores
  have hz : ((List.replicate cores b).flatten.map (Scalar.flt (K := K))).length
      = cores * (n / cores + n % cores) := by
    simp [hbl]
  refine ⟨?_, hz, fun hdvd => ?_⟩
  · obtain ⟨p, rfl⟩ : ∃ p, cores = p + 1 := ⟨cores - 1, by omega⟩
    have hal : ∀ q ∈ List.range p, (a q).length = n / (p + 1) := fun q hq =>
      column_length hindc (h1 q (by have := List.mem_range.1 hq; omega)) (h3 q (by have := List.mem_range.1 hq; omega))
    have hlast : (a p).length = n / (p + 1) + n % (p + 1) := column_length hindc h2 (h3 p (by omega))
    have hsum : ((List.range p).flatMap a).length = p * (n / (p + 1)) := by
      rw [List.length_flatMap, List.map_congr_left hal, List.map_const', List.sum_replicate_nat, List.length_range]
    simp only [Samples.toList, List.length_map, List.range_succ, List.flatMap_append, List.flatMap_singleton,
      List.length_append, hsum, hlast]
    have : (p + 1) * (n / (p + 1)) = p * (n / (p + 1)) + n / (p + 1) := by ring
    omega
  · show n < ((List.replicate cores b).flatten.map (Scalar.flt (K := K))).length
    rw [hz, Nat.mul_add]
    have hpos : 0 < n % cores := Nat.pos_of_ne_zero fun h => hdvd (Nat.dvd_of_mod_eq_zero h)
    have : 2 * (n % cores) ≤ cores * (n % cores) := Nat.mul_le_mul_right _ hc
    omega

/-- **C134 fails: the other variable on one core.** After `sample(a, n, cores=c)`, `sample(b, n)` returns the
`n / c + n % c` samples left over from the last core's batch: fewer than `n` as soon as every core has a sample. -/
theorem C134_one_core_fails {E : Env σ K} {sched : Sched} {cores : ℕ} (hc : 2 ≤ cores)
    {g k : ℕ} {members : Fin k → Obj (St σ K) K} (hav : ∀ j, (members j).Avoids g)
    (hind : ∀ a b, E.induce g a = .ok b → b.length = a.length)
    (hindc : ∀ a b, E.induce g a = .ok b → ∀ n, (∀ c ∈ a, c.length = n) → ∀ c ∈ b, c.length = n)
    {i j : Fin k} (hij : j ≠ i)
    (hi : (members i).clips = (none, none)) (hj : (members j).clips = (none, none))
    {n n' : ℕ} (hn : cores ≤ n) {m m' : MSt σ K} (hclean : ∀ i, i < cores → m.tmp i = none)
    (hfresh : m.inner.left g i = none) {za zb : Samples K} {s'' : St σ K}
    (ha : sampleCores E sched cores (.corr g k members i) n none none m = (.ok za, m'))
    (hb : sampleObj E (.corr g k members j) n' none none m'.inner = (.ok zb, s'')) :
    zb.toList.length = n / cores + n % cores ∧ zb.toList.length < n := by
  obtain ⟨cols, a, h1, h2, h3, h4, h5⟩ := C134_first_partial hc hav hi hclean hfresh ha
  have hl : (cols (cores - 1)).length = k := joint_length hind h2
  have hb' : (cols (cores - 1))[j.1]? = some ((cols (cores - 1))[j.1]'(by rw [hl]; exact j.2)) :=
    List.getElem?_eq_getElem _
  have hne : j.1 ≠ i.1 := fun h => hij (Fin.ext h)
  obtain ⟨rfl, -⟩ := corr_kept hav hj (h5 _ _ hne hb') hb
  have hlen := column_length hindc h2 hb'
  have hz : (Samples.arr (((cols (cores - 1))[j.1]'(by rw [hl]; exact j.2)).map .flt) : Samples K).toList.length
      = n / cores + n % cores := by simp [Samples.toList, hlen]
  refine ⟨hz, ?_⟩
  rw [hz]
  have hdm := Nat.div_add_mod n cores
  have hpos : 0 < n / cores := Nat.div_pos hn (by omega)
  have : 2 * (n / cores) ≤ cores * (n / cores) := Nat.mul_le_mul_right _ hc
  omega

/-- **C134, both variables in one expression.** `sample(a + b, n, cores=c)` (or any other binary operation) on a fresh
group: every core evaluates the operation on the two columns of one joint draw of its own.  So sampling the
expression instead of the variables keeps the correlation. -/
theorem C134_expression {E : Env σ K} {sched : Sched} {cores : ℕ} (hc : 2 ≤ cores)
    {g k : ℕ} {members : Fin k → Obj (St σ K) K} (hav : ∀ j, (members j).Avoids g)
    (hind : ∀ a b, E.induce g a = .ok b → b.length = a.length) {i j : Fin k} (hij : j ≠ i)
    (hi : (members i).clips = (none, none)) (hj : (members j).clips = (none, none)) (f : BinFn)
    {n : ℕ} {m m' : MSt σ K} (hclean : ∀ i, i < cores → m.tmp i = none)
    (hfresh : m.inner.left g i = none) {z : Samples K}
    (h : sampleCores E sched cores (.bin f (.corr g k members i) (.corr g k members j)) n none none m = (.ok z, m')) :
    ∃ r : ℕ → Samples K,
      (∀ q, q < cores → ∃ cols a b,
        IsJointDraw E g k members (if q + 1 < cores then n / cores else n / cores + n % cores) cols ∧
        cols[i.1]? = some a ∧ cols[j.1]? = some b ∧
        binFnSamples E f (.arr (a.map .flt)) (.arr (b.map .flt)) = .ok (r q)) ∧
      (Homogeneous ((List.range cores).flatMap fun q => (r q).toList) →
        z = .arr (((List.range cores).flatMap fun q => (r q).toList).map asFloat)) := by
  obtain ⟨r, h1, h2, h3⟩ := cores_left hc hclean h
  have key : ∀ {N : ℕ} {s s' : St σ K} {z : Samples K}, s.left g i = none →
      sampleObj E (.bin f (.corr g k members i) (.corr g k members j)) N none none s = (.ok z, s') →
      ∃ cols a b, IsJointDraw E g k members N cols ∧ cols[i.1]? = some a ∧ cols[j.1]? = some b ∧
        binFnSamples E f (.arr (a.map .flt)) (.arr (b.map .flt)) = .ok z := by
    intro N s s' z hl hz
    obtain ⟨-, l, u, x, hl', hu', hx, hcl⟩ := withClips_ok.1 hz
    cases hl'
    cases hu'
    have hcl : Except.ok x = Except.ok z := hcl
    cases hcl
    rw [rawObj] at hx
    obtain ⟨xa, s1, hxa, hx⟩ := SM.bind_ok.1 hx
    obtain ⟨xb, s2, hxb, hx⟩ := SM.bind_ok.1 hx
    obtain ⟨hx, -⟩ := SM.lift_ok.1 hx
    obtain ⟨cols, a, g1, g2, rfl, g4⟩ := corr_fresh hav hi hl hxa
    have hlen : cols.length = k := joint_length hind g1
    have hb' : cols[j.1]? = some (cols[j.1]'(by rw [hlen]; exact j.2)) := List.getElem?_eq_getElem _
    have hne : j.1 ≠ i.1 := fun h => hij (Fin.ext h)
    obtain ⟨rfl, -⟩ := corr_kept hav hj (g4 _ _ hne hb') hxb
    exact ⟨cols, a, _, g1, g2, hb', hx⟩
  refine ⟨r, fun q hq => ?_, fun hh => ?_⟩
  · by_cases hq' : q + 1 < cores
    · obtain ⟨s, s', hs, hr⟩ := h1 q hq'
      rw [if_pos hq']
      exact key (by rw [hs]; exact hfresh) hr
    · rw [if_neg hq']
      have : q = cores - 1 := by omega
      subst this
      exact key hfresh h2
  · rw [concat_homogeneous E.fmt _ (by simpa only [List.flatMap_map] using hh), applyClips_none] at h3
    simpa only [List.flatMap_map] using (Except.ok.inj h3).symm

/-! ### Concrete runs -/

/-- `sample(a, 7, cores=3)` with both worker tasks in one process, then `sample(b, 7, cores=3)`: the second result has
nine samples, and its samples belong to `a`'s last three. -/
theorem C134_example_fails :
    let first := sampleCores demoEnv [(0, 0), (0, 1)] 3 (.corr 0 2 pairMembers 0) 7 none none
      ⟨demoSt 0, fun _ => none⟩
    let second := sampleCores demoEnv [(0, 0), (1, 1)] 3 (.corr 0 2 pairMembers 1) 7 none none first.2
    first.1 = .ok (.arr [.flt 0, .flt 3, .flt 2, .flt 5, .flt 0, .flt 3, .flt 6]) ∧
    second.1 = .ok (.arr [.flt 18, .flt 4, .flt 10, .flt 18, .flt 4, .flt 10, .flt 18, .flt 4, .flt 10]) ∧
    (∀ i, i < 3 → first.2.tmp i = none) := by
  refine ⟨?_, ?_, ?_⟩ <;> decide +kernel

/-- The hypotheses of the theorems above are met by these two calls. -/
example :
    let first := sampleCores demoEnv [(0, 0), (0, 1)] 3 (.corr 0 2 pairMembers 0) 7 none none
      ⟨demoSt 0, fun _ => none⟩
    let second := sampleCores demoEnv [(0, 0), (1, 1)] 3 (.corr 0 2 pairMembers 1) 7 none none first.2
    ∃ za zb, first.1 = .ok za ∧ second.1 = .ok zb ∧ za.toList.length = 7 ∧ 7 < zb.toList.length := by
  intro first second
  obtain ⟨h1, h2, h3⟩ := C134_example_fails
  refine ⟨_, _, h1, h2, ?_⟩
  have h := C134_count_fails (E := demoEnv) (sched := [(0, 0), (0, 1)]) (sched' := [(0, 0), (1, 1)]) (cores := 3)
    (by omega) pairMembers_avoid (by rintro a b ⟨⟩; rfl) (by rintro a b ⟨⟩ n h; exact h)
    (i := 0) (j := 1) (by decide) rfl rfl (n := 7) (fun _ _ => rfl) h3 rfl
    (Prod.ext h1 rfl) (Prod.ext h2 rfl)
  exact ⟨h.1, h.2.2 (by decide)⟩

/-- Six samples of the sum of the two variables on two cores: the hypotheses of `C134_expression` are met. -/
example : (sampleCores demoEnv [(0, 0)] 2 (.bin (.op .add) (.corr 0 2 pairMembers 0) (.corr 0 2 pairMembers 1)) 6 none none
      ⟨demoSt 0, fun _ => none⟩).1
    = .ok (.arr [.flt 18, .flt 7, .flt 16, .flt 18, .flt 7, .flt 16]) := by decide +kernel

end Verif
