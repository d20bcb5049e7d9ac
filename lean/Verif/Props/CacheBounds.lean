import Verif.Props.SampleCache
import Verif.Props.Clip

/-! # C107: bounds of calls that use the sample cache -/

namespace Verif

variable {σ K : Type} [Field K] [LinearOrder K] [FloorRing K] [IsStrictOrderedRing K]

/-- The lower bounds of a call lie below its upper bounds: those passed to `sample` and those of the
distribution, taken together. -/
def BoundsInOrder (d : Obj (St σ K) K) (lc rc : Option (Scalar K)) : Prop :=
  ∀ l ∈ lowerBounds d lc, ∀ u ∈ upperBounds d rc, ScalarLe l u

/-- Every sample lies within the bounds passed to `sample` and within those of the distribution. -/
def Within (d : Obj (St σ K) K) (lc rc : Option (Scalar K)) (z : Samples K) : Prop :=
  ∀ v ∈ z.toList, (∀ l ∈ lowerBounds d lc, ScalarLe l v) ∧ ∀ u ∈ upperBounds d rc, ScalarLe v u

/-- Clamping keeps a bound that was met before, if the bounds clamped to do not contradict it. -/
theorem clampOf_keeps {lows highs : List (Scalar K)} {v0 v : Scalar K} (h : ClampOf lows highs v0 v)
    (a : Scalar K) : (ScalarLe a v0 → (∀ u ∈ highs, ScalarLe a u) → ScalarLe a v) ∧
    (ScalarLe v0 a → (∀ l ∈ lows, ScalarLe l a) → ScalarLe v a) := by
  rcases h with ⟨-, -, rfl⟩ | ⟨x, ls, hs, hx, hls, hhs, hv⟩
  · exact ⟨fun h _ => h, fun h _ => h⟩
  · constructor
    · rintro ⟨p, q, hp, hq, hpq⟩ hu
      rw [hx] at hq
      cases hq
      refine ⟨p, _, hp, hv, le_foldl_min (hpq.trans (le_foldl_max _ _).1) ?_⟩
      intro b hb
      obtain ⟨u, hum, huy⟩ := mem_bound_of_map hhs hb
      obtain ⟨p', q', hp', hq', hpq'⟩ := hu u hum
      rw [hp] at hp'; rw [huy] at hq'
      cases hp'; cases hq'; exact hpq'
    · rintro ⟨p, q, hp, hq, hpq⟩ hl
      rw [hx] at hp
      cases hp
      refine ⟨_, q, hv, hq, (foldl_min_le _ _).1.trans (foldl_max_le hpq ?_)⟩
      intro b hb
      obtain ⟨l, hlm, hly⟩ := mem_bound_of_map hls hb
      obtain ⟨p', q', hp', hq', hpq'⟩ := hl l hlm
      rw [hq] at hq'; rw [hly] at hp'
      cases hp'; cases hq'; exact hpq'

theorem applyClips_clampOf {powf : K → K → Option K} {lc rc : Option (Scalar K)} {w z : Samples K}
    (h : applyClips powf lc rc w = .ok z) :
    List.Forall₂ (ClampOf lc.toList rc.toList) w.toList z.toList := by
  have h1 : combineL lc none = .ok lc := by cases lc <;> rfl
  have h2 : combineR rc none = .ok rc := by cases rc <;> rfl
  simpa using clamp_of_combine h1 h2 h

theorem sampleCores_within (E : Env σ K) (sched : Sched) (cores : ℕ) (hc : cores ≤ 1)
    (d : Obj (St σ K) K) (n : ℕ) (lc rc : Option (Scalar K)) (hb : BoundsInOrder d lc rc)
    (m m' : MSt σ K) (z : Samples K) (h : sampleCores E sched cores d n lc rc m = (.ok z, m')) :
    Within d lc rc z := by
  have hn : 1 ≤ n := by
    rcases Nat.eq_zero_or_pos n with h0 | h0
    · subst h0
      simp [sampleCores] at h
    · exact h0
  have h1 := (sampleCores_one E sched cores hc d n hn lc rc m).1
  rw [h] at h1
  intro v hv
  have := C12_bounds E d n lc rc m.inner _ z (Prod.ext h1.symm rfl) v hv
  exact ⟨this.2 hb, this.1⟩

/-- **C107**, the bounds of the call itself: in every history of calls in which the entry of `d` was
only ever written by calls for `d` with bounds in order, on one core, without files to load, every call
for `d` – answered from the cache or not – returns samples within its own bounds and within those of
`d`, whatever bounds the call that filled the cache had.  (Missing: bounds out of order; and see
`C107_leak_fails` for what the bounds of the *earlier* call do.) -/
theorem C107_within_partial (E : Env σ K) (key : Obj (St σ K) K → String) (d : Obj (St σ K) K)
    (ops : List (CacheOp σ K))
    (hops : ∀ op ∈ ops, op.opts.memcache = true → key op.d = key d →
      truthyName op.opts.load = none ∧ op.d = d ∧ op.opts.cores ≤ 1 ∧ BoundsInOrder d op.lc op.rc)
    (c : CSt σ K) (hc : c.mem (key d) = none) (o : CacheOpts) (hl : truthyName o.load = none)
    (hco : o.cores ≤ 1) (n : ℕ) (lc rc : Option (Scalar K)) (hb : BoundsInOrder d lc rc)
    (z : Samples K) (c' : CSt σ K)
    (h : cachedSample E key o d n lc rc (runCache E key ops c) = (.ok z, c')) :
    Within d lc rc z := by
  have hinv := runCache_invariant E key (key d) (Within d none none) ops
    (fun op ho hm hk => (hops op ho hm hk).1)
    (fun op ho hm hk s s' z hz => by
      obtain ⟨-, h1, h2, h3⟩ := hops op ho hm hk
      rw [h1] at hz
      have := sampleCores_within E _ _ h2 d _ _ _ h3 s s' z hz
      intro v hv
      exact ⟨fun l hl => (this v hv).1 l (by
          simp only [lowerBounds, List.mem_append] at hl ⊢
          exact Or.inr (by simpa using hl)),
        fun u hu => (this v hv).2 u (by
          simp only [upperBounds, List.mem_append] at hu ⊢
          exact Or.inr (by simpa using hu))⟩) c
    (by intro v hv; rw [hc] at hv; cases hv)
  rcases cachedSample_result hl h with ⟨w, -, hw, hz⟩ | ⟨s', hz⟩
  · have hin := hinv w hw
    have hf := applyClips_clampOf hz
    intro v hv
    obtain ⟨i, hi, rfl⟩ := List.mem_iff_getElem.1 hv
    have hx : i < w.toList.length := by rw [hf.length_eq]; exact hi
    have hcl := hf.get hx hi
    simp only [List.get_eq_getElem] at hcl
    have hw0 := hin _ (List.getElem_mem hx)
    constructor
    · intro l hlm
      rcases List.mem_append.1 hlm with hlm | hlm
      · -- a bound of the call
        rcases hcl with ⟨e1, -, -⟩ | ⟨x, ls, hs, hx0, hls, hhs, hval⟩
        · rw [e1] at hlm; cases hlm
        · obtain ⟨y, hy, hly⟩ := mem_val_of_map hls hlm
          refine ⟨y, _, hly, hval, le_foldl_min ((le_foldl_max _ _).2 y hy) ?_⟩
          intro b hbm
          obtain ⟨u, hu, huy⟩ := mem_bound_of_map hhs hbm
          obtain ⟨p, q, hp, hq, hpq⟩ := hb l (List.mem_append.2 (Or.inl hlm)) u
            (List.mem_append.2 (Or.inl hu))
          rw [hly] at hp; rw [huy] at hq
          cases hp; cases hq; exact hpq
      · refine (clampOf_keeps hcl l).1 (hw0.1 l (by simpa [lowerBounds] using hlm)) ?_
        intro u hu
        exact hb l (List.mem_append.2 (Or.inr hlm)) u (List.mem_append.2 (Or.inl hu))
    · intro u hum
      rcases List.mem_append.1 hum with hum | hum
      · rcases hcl with ⟨-, e2, -⟩ | ⟨x, ls, hs, hx0, hls, hhs, hval⟩
        · rw [e2] at hum; cases hum
        · obtain ⟨y, hy, huy⟩ := mem_val_of_map hhs hum
          exact ⟨_, y, hval, huy, (foldl_min_le _ _).2 y hy⟩
      · refine (clampOf_keeps hcl u).2 (hw0.2 u (by simpa [upperBounds] using hum)) ?_
        intro l hlm
        exact hb l (List.mem_append.2 (Or.inl hlm)) u (List.mem_append.2 (Or.inr hum))
  · exact sampleCores_within E _ _ hco d n lc rc hb _ s' z hz

/-- **C107**, no influence from other calls, where it holds: if no `memcache=True` call for `d` in the
history passes bounds, then what a call for `d` returns is the clamp, to the bounds of this call and of
nobody else, of samples drawn from `d` without any bounds passed. -/
theorem C107_own_bounds_partial (E : Env σ K) (key : Obj (St σ K) K → String) (d : Obj (St σ K) K)
    (ops : List (CacheOp σ K))
    (hops : ∀ op ∈ ops, op.opts.memcache = true → key op.d = key d →
      truthyName op.opts.load = none ∧ op.d = d ∧ op.lc = none ∧ op.rc = none)
    (c : CSt σ K) (hc : c.mem (key d) = none) (o : CacheOpts) (hl : truthyName o.load = none)
    (n : ℕ) (lc rc : Option (Scalar K)) (z : Samples K) (c' : CSt σ K)
    (h : cachedSample E key o d n lc rc (runCache E key ops c) = (.ok z, c')) :
    (∃ sched cores k s s' w, sampleCores E sched cores d k none none s = (.ok w, s') ∧
      List.Forall₂ (ClampOf lc.toList rc.toList) w.toList z.toList) ∨
    ∃ s', sampleCores E o.sched o.cores d n lc rc (runCache E key ops c).inner = (.ok z, s') := by
  have hinv := runCache_invariant E key (key d)
    (fun w => ∃ sched cores k s s', sampleCores E sched cores d k none none s = (.ok w, s')) ops
    (fun op ho hm hk => (hops op ho hm hk).1)
    (fun op ho hm hk s s' z hz => by
      obtain ⟨-, h1, h2, h3⟩ := hops op ho hm hk
      rw [h1, h2, h3] at hz
      exact ⟨_, _, _, _, _, hz⟩) c
    (by intro v hv; rw [hc] at hv; cases hv)
  rcases cachedSample_result hl h with ⟨w, -, hw, hz⟩ | ⟨s', hz⟩
  · obtain ⟨sched, cores, k, s, s', hd⟩ := hinv w hw
    exact Or.inl ⟨sched, cores, k, s, s', w, hd, applyClips_clampOf hz⟩
  · exact Or.inr ⟨s', hz⟩

omit [IsStrictOrderedRing K] in
/-- **C107 fails**: the clipped samples are what is stored.  Whatever the distribution, after a first
call `sample(d, lclip=…, rclip=…, memcache=True)` that returned `v`, every later call
`sample(d, memcache=True)` without bounds returns the clipped `v`, until the cache is reloaded. -/
theorem C107_leak_fails (E : Env σ K) (key : Obj (St σ K) K → String) (d : Obj (St σ K) K)
    (n n' : ℕ) (hn' : 1 ≤ n') (lc rc : Option (Scalar K)) (c c1 : CSt σ K)
    (hc : c.mem (key d) = none) (v : Samples K) (hv : v ≠ .scalar .none)
    (h1 : cachedSample E key { memcache := true } d n lc rc c = (.ok v, c1))
    (ops : List (CacheOp σ K)) (hno : NoReload key (key d) ops) :
    (cachedSample E key { memcache := true } d n' none none (runCache E key ops c1)).1 = .ok v := by
  have hmem : c1.mem (key d) = some v := by
    obtain ⟨-, c2, h2, rfl⟩ := cachedSample_ok h1
    simp [saveCaches, hc]
  have hm2 := runCache_keeps E key (key d) v ops hno c1 hmem
  have hload : loadCached { memcache := true } (key d) (runCache E key ops c1) = .ok (some v) := by
    simp [loadCached, truthyName, hm2]
  rw [(cachedSample_of_ok hn' (obtain_of_load hv hload)).1, applyClips_none]

/-- **C107 fails**, concretely: after `sample(const(1), lclip=3, memcache=True)`, the call
`sample(const(1), memcache=True)` returns 3; without the earlier call it returns 1 in every state of the
generator. -/
theorem C107_constant_fails :
    (cachedSample demoEnv (strObj demoStr false) { memcache := true } (demoConst 1) 1 none none
      (runCache demoEnv (strObj demoStr false)
        [⟨{ memcache := true }, demoConst 1, 1, some (.int 3), none⟩] (demoC 0))).1
      = .ok (.scalar (.int 3)) ∧
    ∀ s, (sampleObj demoEnv (demoConst 1) 1 none none s).1 = .ok (.scalar (.int 1)) := by
  refine ⟨?_, fun s => rfl⟩
  decide +kernel

/-- **C107 fails** for bounds out of order as well: `norm` with `rclip=0`, asked for with `lclip=2`, never
exceeds its own bound when it is drawn afresh (C12), but on a cache hit only the bounds of the call are
applied and the result is 2. -/
theorem C107_own_bound_on_hit_fails :
    let d : Obj (St ℕ ℚ) ℚ := .leaf (.normal 0 1) none (some (.int 0))
    (cachedSample demoEnv (strObj demoStr false) { memcache := true } d 1 (some (.int 2)) none
      (runCache demoEnv (strObj demoStr false) [⟨{ memcache := true }, d, 1, none, none⟩] (demoC 0))).1
      = .ok (.scalar (.int 2)) ∧
    ∀ s s' z, sampleObj demoEnv d 1 (some (.int 2)) none s = (.ok z, s') →
      ∀ v ∈ z.toList, ScalarLe v (.int 0) := by
  intro d
  refine ⟨by decide +kernel, fun s s' z h v hv => ?_⟩
  exact (C12_bounds demoEnv d 1 _ _ s s' z h v hv).1 _ (by simp [upperBounds, d, Obj.clips])

/-- The hypotheses of `C107_within_partial` are met, on a cache hit: two values cached with `lclip=0`, asked for
again with `rclip=1/4`. -/
example :
    let d : Obj (St ℕ ℚ) ℚ := .leaf (.uniform 0 1) none none
    let ops : List (CacheOp ℕ ℚ) := [⟨{ memcache := true }, d, 2, some (.int 0), none⟩]
    (∀ op ∈ ops, op.opts.memcache = true → strObj demoStr false op.d = strObj demoStr false d →
      truthyName op.opts.load = none ∧ op.d = d ∧ op.opts.cores ≤ 1 ∧ BoundsInOrder d op.lc op.rc) ∧
    BoundsInOrder d none (some (.flt (1 / 4))) ∧
    ∃ x y, (cachedSample demoEnv (strObj demoStr false) { memcache := true } d 2 none
      (some (.flt (1 / 4))) (runCache demoEnv (strObj demoStr false) ops (demoC 1))).1
        = .ok (.arr [x, y]) := by
  intro d ops
  refine ⟨?_, ?_, ?_⟩
  · intro op ho _ _
    simp only [ops, List.mem_singleton] at ho
    subst ho
    refine ⟨rfl, rfl, by decide, ?_⟩
    intro l _ u hu
    simp [upperBounds, d, Obj.clips] at hu
  · intro l hl u _
    simp [lowerBounds, d, Obj.clips] at hl
  · exact ⟨.flt (1 / 4), .flt (1 / 4), by decide +kernel⟩

end Verif
