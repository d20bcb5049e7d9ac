import Verif.Model.SampleCache
import Verif.Props.SampleCount

/-! # C20–C23: the caches of `sample` -/

namespace Verif

set_option linter.unusedSectionVars false

variable {σ K : Type} [Field K] [LinearOrder K] [FloorRing K]

/-! ## What one call does -/

/-- A fresh draw inside a state with caches. -/
def freshDraw (E : Env σ K) (o : CacheOpts) (d : Obj (St σ K) K) (n : ℕ) (lc rc : Option (Scalar K))
    (c : CSt σ K) : Except PyErr (Samples K) × CSt σ K :=
  ((sampleCores E o.sched o.cores d n lc rc c.inner).1,
    { c with inner := (sampleCores E o.sched o.cores d n lc rc c.inner).2 })

/-- On one core, sampling without caches is the plain sampler. -/
theorem sampleCores_one (E : Env σ K) (sched : Sched) (cores : ℕ) (hc : cores ≤ 1)
    (d : Obj (St σ K) K) (n : ℕ) (hn : 1 ≤ n) (lc rc : Option (Scalar K)) (m : MSt σ K) :
    (sampleCores E sched cores d n lc rc m).1 = (sampleObj E d n lc rc m.inner).1 ∧
    (sampleCores E sched cores d n lc rc m).2
      = { m with inner := (sampleObj E d n lc rc m.inner).2 } := by
  unfold sampleCores
  rw [if_neg (by omega), if_neg (by omega)]
  exact ⟨rfl, rfl⟩

theorem sampleCores_shape (E : Env σ K) (hE : E.gen.Lawful) (sched : Sched) (cores : ℕ)
    (hc : cores ≤ 1) (d : Obj (St σ K) K) (hd : d.Regular) (n : ℕ) (lc rc : Option (Scalar K))
    (m m' : MSt σ K) (z : Samples K) (h : sampleCores E sched cores d n lc rc m = (.ok z, m')) :
    Shape n z := by
  have hn : 1 ≤ n := by
    rcases Nat.eq_zero_or_pos n with h0 | h0
    · subst h0
      simp [sampleCores] at h
    · exact h0
  have h1 := (sampleCores_one E sched cores hc d n hn lc rc m).1
  rw [h] at h1
  exact (C11_count_partial E hE d hd n lc rc m.inner _ z (Prod.ext h1.symm rfl)).2

/-- Usable cached samples: not Python's `None`. -/
def Samples.notNone (z : Samples K) : Prop := z ≠ .scalar .none

theorem obtain_of_load {E : Env σ K} {o : CacheOpts} {key : String} {d : Obj (St σ K) K} {n : ℕ}
    {lc rc : Option (Scalar K)} {c : CSt σ K} {v : Samples K} (hv : v.notNone)
    (h : loadCached o key c = .ok (some v)) :
    obtain? E o key d n lc rc c = (applyClips E.powf lc rc v, c) := by
  unfold obtain?
  rw [h]
  cases v with
  | arr vs => rfl
  | scalar w =>
    have : w ≠ .none := fun hw => hv (by rw [hw])
    simp only [this, if_false]

theorem obtain_of_none {E : Env σ K} {o : CacheOpts} {key : String} {d : Obj (St σ K) K} {n : ℕ}
    {lc rc : Option (Scalar K)} {c : CSt σ K} (h : loadCached o key c = .ok none) :
    obtain? E o key d n lc rc c = freshDraw E o d n lc rc c := by
  unfold obtain?
  rw [h]
  rfl

/-- The samples come from nowhere but the caches or a fresh draw; the caches are not written. -/
theorem obtain_cases (E : Env σ K) (o : CacheOpts) (key : String) (d : Obj (St σ K) K) (n : ℕ)
    (lc rc : Option (Scalar K)) (c : CSt σ K) :
    (∃ e, obtain? E o key d n lc rc c = (.error e, c)) ∨
    (∃ v, v.notNone ∧ loadCached o key c = .ok (some v) ∧
      obtain? E o key d n lc rc c = (applyClips E.powf lc rc v, c)) ∨
    (obtain? E o key d n lc rc c = freshDraw E o d n lc rc c) := by
  unfold obtain?
  split
  · rename_i e _; exact Or.inl ⟨e, rfl⟩
  · rename_i cached hc
    split
    · rename_i vs; exact Or.inr (Or.inl ⟨.arr vs, by simp [Samples.notNone], hc, rfl⟩)
    · rename_i v
      split_ifs with hv
      · exact Or.inr (Or.inr rfl)
      · exact Or.inr (Or.inl ⟨.scalar v, by simpa [Samples.notNone] using hv, hc, rfl⟩)
    · exact Or.inr (Or.inr rfl)

theorem obtain_mem (E : Env σ K) (o : CacheOpts) (key : String) (d : Obj (St σ K) K) (n : ℕ)
    (lc rc : Option (Scalar K)) (c : CSt σ K) :
    (obtain? E o key d n lc rc c).2.mem = c.mem ∧ (obtain? E o key d n lc rc c).2.files = c.files := by
  rcases obtain_cases E o key d n lc rc c with ⟨e, h⟩ | ⟨v, -, -, h⟩ | h <;> rw [h] <;>
    exact ⟨rfl, rfl⟩

theorem cachedSample_ok {E : Env σ K} {key : Obj (St σ K) K → String} {o : CacheOpts}
    {d : Obj (St σ K) K} {n : ℕ} {lc rc : Option (Scalar K)} {c c' : CSt σ K} {z : Samples K}
    (h : cachedSample E key o d n lc rc c = (.ok z, c')) :
    n ≠ 0 ∧ ∃ c1, obtain? E o (key d) d n lc rc c = (.ok z, c1) ∧
      c' = saveCaches o (key d) (c.mem (key d)).isSome z c1 := by
  unfold cachedSample at h
  split_ifs at h with hn
  · cases h
  · split at h
    · cases h
    · rename_i z1 c1 h1
      cases h
      exact ⟨hn, c1, h1, rfl⟩

/-- A call that does not reload never changes an entry that exists already. -/
theorem cachedSample_keeps (E : Env σ K) (key : Obj (St σ K) K → String) (o : CacheOpts)
    (d : Obj (St σ K) K) (n : ℕ) (lc rc : Option (Scalar K)) (c : CSt σ K) (k : String)
    (v : Samples K) (hk : c.mem k = some v)
    (hno : ¬ (o.memcache = true ∧ o.reload = true ∧ key d = k)) :
    (cachedSample E key o d n lc rc c).2.mem k = some v := by
  unfold cachedSample
  split_ifs with hn
  · exact hk
  · split
    · rename_i e c1 h1
      have := (obtain_mem E o (key d) d n lc rc c).1
      rw [h1] at this
      rw [show c1.mem = c.mem from this]
      exact hk
    · rename_i z c1 h1
      have := (obtain_mem E o (key d) d n lc rc c).1
      rw [h1] at this
      have hc1 : c1.mem = c.mem := this
      simp only [saveCaches, hc1]
      split_ifs with hs
      · simp only
        split_ifs with hkk
        · subst hkk
          rw [hk] at hs
          simp only [Option.isSome_some, Bool.not_true, Bool.false_or, Bool.and_eq_true] at hs
          exact absurd ⟨hs.1, hs.2, rfl⟩ hno
        · exact hk
      · exact hk

/-! ## C20 -/

/-- A history without `reload_cache` for the key `k`. -/
def NoReload (key : Obj (St σ K) K → String) (k : String) (ops : List (CacheOp σ K)) : Prop :=
  ∀ op ∈ ops, ¬ (op.opts.memcache = true ∧ op.opts.reload = true ∧ key op.d = k)

theorem runCache_keeps (E : Env σ K) (key : Obj (St σ K) K → String) (k : String) (v : Samples K)
    (ops : List (CacheOp σ K)) (hno : NoReload key k ops) :
    ∀ c : CSt σ K, c.mem k = some v → (runCache E key ops c).mem k = some v := by
  induction ops with
  | nil => intro c h; exact h
  | cons op ops ih =>
    intro c h
    exact ih (fun o ho => hno o (by simp [ho])) _
      (cachedSample_keeps E key op.opts op.d op.n op.lc op.rc c k v h (hno op (by simp)))

theorem cachedSample_of_ok {E : Env σ K} {key : Obj (St σ K) K → String} {o : CacheOpts}
    {d : Obj (St σ K) K} {n : ℕ} (hn : 1 ≤ n) {lc rc : Option (Scalar K)} {c c1 : CSt σ K}
    {r : Except PyErr (Samples K)} (h : obtain? E o (key d) d n lc rc c = (r, c1)) :
    (cachedSample E key o d n lc rc c).1 = r ∧
    (cachedSample E key o d n lc rc c).2.inner = c1.inner := by
  unfold cachedSample
  rw [if_neg (by omega), h]
  cases r <;> exact ⟨rfl, rfl⟩

theorem applyClips_none (powf : K → K → Option K) (z : Samples K) :
    applyClips powf none none z = .ok z := rfl

/-- **C20.** A call with `memcache=True` and no bounds, without a file to load, returned `v`
(and the memory did not already hold Python's `None` for it).  Then – whatever calls with whatever
options happen in between, as long as none of them reloads the cache of the same key – a later call
with `memcache=True` whose distribution prints the same returns `v` again (clipped to the bounds of
that later call), without drawing anything: the generator's state is untouched. -/
theorem C20_stable (E : Env σ K) (key : Obj (St σ K) K → String) (d d' : Obj (St σ K) K)
    (hkey : key d' = key d) (n n' : ℕ) (hn' : 1 ≤ n') (r : Bool) (c c1 : CSt σ K) (v : Samples K)
    (hv : v ≠ .scalar .none) (hc : c.mem (key d) ≠ some (.scalar .none))
    (h1 : cachedSample E key { memcache := true, reload := r } d n none none c = (.ok v, c1))
    (ops : List (CacheOp σ K)) (hno : NoReload key (key d) ops) (lc rc : Option (Scalar K))
    (dump : Option String) :
    (cachedSample E key { memcache := true, dump := dump } d' n' lc rc (runCache E key ops c1)).1
        = applyClips E.powf lc rc v ∧
    (cachedSample E key { memcache := true, dump := dump } d' n' lc rc
        (runCache E key ops c1)).2.inner = (runCache E key ops c1).inner := by
  have hmem : c1.mem (key d) = some v := by
    obtain ⟨-, c2, h2, rfl⟩ := cachedSample_ok h1
    have hc2 : c2.mem = c.mem := by
      have := (obtain_mem E { memcache := true, reload := r } (key d) d n none none c).1
      rw [h2] at this; exact this
    simp only [saveCaches, hc2]
    cases hm : c.mem (key d) with
    | none => simp
    | some w =>
      cases r with
      | true => simp
      | false =>
        simp only [Option.isSome_some, Bool.not_true, Bool.or_false, Bool.and_false,
          Bool.false_eq_true, if_false]
        rw [hm]
        have hload : loadCached { memcache := true } (key d) c = .ok (some w) := by
          simp [loadCached, truthyName, hm]
        have hw : w.notNone := fun hw => hc (by rw [hm, hw])
        rw [obtain_of_load hw hload, applyClips_none] at h2
        simp only [Prod.mk.injEq, Except.ok.injEq] at h2
        rw [h2.1]
  have hm2 := runCache_keeps E key (key d) v ops hno c1 hmem
  have hload : loadCached { memcache := true, dump := dump } (key d') (runCache E key ops c1)
      = .ok (some v) := by
    rw [hkey]
    simp [loadCached, truthyName, hm2]
  exact cachedSample_of_ok hn' (obtain_of_load hv hload)

/-! ## Where memory entries come from -/

/-- If every *fresh* draw that a `memcache=True` call for the key `k` can make satisfies `P`, and
such calls load no file, then what the memory holds for `k` satisfies `P`. -/
theorem runCache_invariant (E : Env σ K) (key : Obj (St σ K) K → String) (k : String)
    (P : Samples K → Prop) (ops : List (CacheOp σ K))
    (hload : ∀ op ∈ ops, op.opts.memcache = true → key op.d = k → truthyName op.opts.load = none)
    (hP : ∀ op ∈ ops, op.opts.memcache = true → key op.d = k → ∀ s s' z,
      sampleCores E op.opts.sched op.opts.cores op.d op.n op.lc op.rc s = (.ok z, s') → P z) :
    ∀ c : CSt σ K, (∀ v, c.mem k = some v → P v) →
      ∀ v, (runCache E key ops c).mem k = some v → P v := by
  induction ops with
  | nil => intro c hc; exact hc
  | cons op ops ih =>
    intro c hc
    refine ih (fun o ho => hload o (by simp [ho])) (fun o ho => hP o (by simp [ho])) _ ?_
    intro v hv
    unfold CacheOp.run at hv
    have hmem := (obtain_mem E op.opts (key op.d) op.d op.n op.lc op.rc c).1
    unfold cachedSample at hv
    split_ifs at hv with hn
    · exact hc v hv
    · split at hv
      · rename_i e c1 h1
        rw [h1] at hmem
        exact hc v (by rw [← show c1.mem = c.mem from hmem]; exact hv)
      · rename_i z c1 h1
        rw [h1] at hmem
        have hmem' : c1.mem = c.mem := hmem
        simp only [saveCaches, hmem'] at hv
        split_ifs at hv with hs
        · simp only at hv
          split_ifs at hv with hk
          · cases hv
            simp only [Bool.and_eq_true, Bool.or_eq_true, Bool.not_eq_true'] at hs
            obtain ⟨hmc, hs⟩ := hs
            have hl := hload op (by simp) hmc hk.symm
            have hfresh : obtain? E op.opts (key op.d) op.d op.n op.lc op.rc c
                = freshDraw E op.opts op.d op.n op.lc op.rc c := by
              refine obtain_of_none ?_
              rcases hs with hs | hs
              · have : c.mem (key op.d) = none := by
                  cases hm : c.mem (key op.d) with
                  | none => rfl
                  | some w => rw [hm] at hs; cases hs
                cases hr : op.opts.reload <;> simp [loadCached, hl, hmc, this, hr]
              · simp [loadCached, hl, hmc, hs]
            rw [hfresh] at h1
            unfold freshDraw at h1
            simp only [Prod.mk.injEq] at h1
            exact hP op (by simp) hmc hk.symm c.inner _ _ (Prod.ext h1.1 rfl)
          · exact hc v hv
        · exact hc v hv

/-- What a `memcache=True` call without a file to load returns: clipped cached samples or a fresh
draw. -/
theorem cachedSample_result {E : Env σ K} {key : Obj (St σ K) K → String} {o : CacheOpts}
    {d : Obj (St σ K) K} {n : ℕ} {lc rc : Option (Scalar K)} {c c' : CSt σ K} {z : Samples K}
    (hl : truthyName o.load = none)
    (h : cachedSample E key o d n lc rc c = (.ok z, c')) :
    (∃ v, v.notNone ∧ c.mem (key d) = some v ∧ applyClips E.powf lc rc v = .ok z) ∨
    (∃ s', sampleCores E o.sched o.cores d n lc rc c.inner = (.ok z, s')) := by
  obtain ⟨-, c1, h1, -⟩ := cachedSample_ok h
  rcases obtain_cases E o (key d) d n lc rc c with ⟨e, h2⟩ | ⟨v, hv, hld, h2⟩ | h2
  · rw [h2] at h1; cases h1
  · rw [h2] at h1
    simp only [Prod.mk.injEq] at h1
    refine Or.inl ⟨v, hv, ?_, h1.1⟩
    simp only [loadCached, hl, Option.bind_none] at hld
    cases hm : c.mem (key d) with
    | none => rw [hm] at hld; split_ifs at hld <;> cases hld
    | some w =>
      rw [hm] at hld
      simp only at hld
      split_ifs at hld <;> cases hld
      rfl
  · rw [h2] at h1
    unfold freshDraw at h1
    simp only [Prod.mk.injEq] at h1
    exact Or.inr ⟨_, Prod.ext h1.1 rfl⟩

/-! ## C21 -/

/-- `w` is the result of sampling `d` without caches (some number of samples, some bounds, some number
of cores, in some state). -/
def IsDrawOf (E : Env σ K) (d : Obj (St σ K) K) (w : Samples K) : Prop :=
  ∃ sched cores n lc rc s s', sampleCores E sched cores d n lc rc s = (.ok w, s')

/-- **C21.** In every history of calls in which no *other* distribution with the same printed form is
cached and `memcache=True` calls for it load no files, what a call for `d` returns is a draw from `d`,
clipped to the bounds of the call.  (Missing: distributions that print the same – then it is
false.) -/
theorem C21_own_samples_partial (E : Env σ K) (key : Obj (St σ K) K → String)
    (d : Obj (St σ K) K) (ops : List (CacheOp σ K))
    (hload : ∀ op ∈ ops, op.opts.memcache = true → key op.d = key d → truthyName op.opts.load = none)
    (hinj : ∀ op ∈ ops, op.opts.memcache = true → key op.d = key d → op.d = d)
    (c : CSt σ K) (hc : c.mem (key d) = none) (o : CacheOpts) (hl : truthyName o.load = none)
    (n : ℕ) (lc rc : Option (Scalar K)) (z : Samples K) (c' : CSt σ K)
    (h : cachedSample E key o d n lc rc (runCache E key ops c) = (.ok z, c')) :
    IsDrawOf E d z ∨ ∃ w, IsDrawOf E d w ∧ applyClips E.powf lc rc w = .ok z := by
  have hinv := runCache_invariant E key (key d) (IsDrawOf E d) ops hload
    (fun op ho hm hk s s' z hz => by
      have := hinj op ho hm hk
      rw [this] at hz
      exact ⟨_, _, _, _, _, _, _, hz⟩) c (by intro v hv; rw [hc] at hv; cases hv)
  rcases cachedSample_result hl h with ⟨v, -, hv, hz⟩ | ⟨s', hz⟩
  · exact Or.inr ⟨v, hinv v hv, hz⟩
  · exact Or.inl ⟨_, _, _, _, _, _, _, hz⟩

/-- **C21 fails**, 1: expressions are printed without parentheses, so `(a + b) * c` and `a + b * c`
share a cache entry, for all operands `a`, `b`, `c`. -/
theorem C21_key_parentheses_fails (F : StrEnv σ K) (a b c : Obj (St σ K) K) :
    strObj F false (.bin (.op .mul) (.bin (.op .add) a b) c)
      = strObj F false (.bin (.op .add) a (.bin (.op .mul) b c)) := by
  simp [strObj, BinOp.sym, distPrefix, String.append_assoc]

/-- **C21 fails**, 2: normal distributions whose parameters agree after rounding to two decimals share
a cache entry. -/
theorem C21_key_rounding_fails (F : StrEnv σ K) (m m' s s' : K) (lc rc : Option (Scalar K))
    (hm : round2 m = round2 m') (hs : round2 s = round2 s') :
    strObj F false (.leaf (.normal m s) lc rc) = strObj F false (.leaf (.normal m' s') lc rc) := by
  simp [strObj, Leaf.str?, hm, hs]

/-- **C21 fails**, 3: mixtures that differ in their clips only, and correlated variables with the same
underlying distribution, share a cache entry. -/
theorem C21_key_clips_fails (F : StrEnv σ K) (k : ℕ) (ds : Fin k → Obj (St σ K) K) (ws : List K)
    (lc rc lc' rc' : Option (Scalar K)) :
    strObj F false (.mix k ds ws lc rc) = strObj F false (.mix k ds ws lc' rc') := by
  simp [strObj]

/-- How the demo prints numbers: any function does. -/
def demoStr : StrEnv ℕ ℚ := ⟨fun x => toString x.num ++ "/" ++ toString x.den, fun _ => "?"⟩

/-- `const(k)`. -/
def demoConst (k : ℤ) : Obj (St ℕ ℚ) ℚ := .leaf (.const (.int k)) none none

/-- Empty caches. -/
def demoC (k : ℕ) : CSt ℕ ℚ := ⟨⟨demoSt k, fun _ => none⟩, fun _ => none, fun _ => none⟩

/-- **C21 fails**: after `sample((const(1) + const(2)) * const(3), memcache=True)`, the call
`sample(const(1) + const(2) * const(3), memcache=True)` returns 9; without the cache it returns 7 in
every state. -/
theorem C21_other_samples_fails :
    let d1 := Obj.bin (.op .mul) (.bin (.op .add) (demoConst 1) (demoConst 2)) (demoConst 3)
    let d2 := Obj.bin (.op .add) (demoConst 1) (.bin (.op .mul) (demoConst 2) (demoConst 3))
    (cachedSample demoEnv (strObj demoStr false) { memcache := true } d2 1 none none
      (runCache demoEnv (strObj demoStr false) [⟨{ memcache := true }, d1, 1, none, none⟩]
        (demoC 0))).1 = .ok (.scalar (.int 9)) ∧
    ∀ s, (sampleObj demoEnv d2 1 none none s).1 = .ok (.scalar (.int 7)) := by
  refine ⟨?_, fun s => ?_⟩
  · decide +kernel
  · rfl

/-! ## C22 -/

/-- **C22.** If all `memcache=True` calls for the key ask for the same number of samples (and the
distributions are regular, see C11, on one core, and no files are loaded), every call for that key returns that
number of samples. -/
theorem C22_count_partial (E : Env σ K) (hE : E.gen.Lawful) (key : Obj (St σ K) K → String)
    (d : Obj (St σ K) K) (hd : d.Regular) (n : ℕ) (ops : List (CacheOp σ K))
    (hload : ∀ op ∈ ops, op.opts.memcache = true → key op.d = key d → truthyName op.opts.load = none)
    (hn : ∀ op ∈ ops, op.opts.memcache = true → key op.d = key d → op.n = n ∧ op.d.Regular ∧
      op.opts.cores ≤ 1)
    (c : CSt σ K) (hc : c.mem (key d) = none) (o : CacheOpts) (hl : truthyName o.load = none)
    (hco : o.cores ≤ 1) (lc rc : Option (Scalar K)) (z : Samples K) (c' : CSt σ K)
    (h : cachedSample E key o d n lc rc (runCache E key ops c) = (.ok z, c')) : Shape n z := by
  have hinv := runCache_invariant E key (key d) (Shape n) ops hload
    (fun op ho hm hk s s' z hz => by
      obtain ⟨h1, h2, h3⟩ := hn op ho hm hk
      rw [← h1]
      exact sampleCores_shape E hE _ _ h3 op.d h2 op.n op.lc op.rc s s' z hz) c
    (by intro v hv; rw [hc] at hv; cases hv)
  rcases cachedSample_result hl h with ⟨v, -, hv, hz⟩ | ⟨s', hz⟩
  · exact applyClips_shape (hinv v hv) hz
  · exact sampleCores_shape E hE _ _ hco d hd n lc rc _ s' z hz

/-- **C22 fails**: the cache key does not contain `n`.  Whatever number of samples a later
`memcache=True` call asks for, it gets the samples of the first one. -/
theorem C22_count_fails (E : Env σ K) (key : Obj (St σ K) K → String) (d : Obj (St σ K) K)
    (n n' : ℕ) (hn' : 1 ≤ n') (c c1 : CSt σ K) (hc : c.mem (key d) = none) (v : Samples K)
    (hv : v ≠ .scalar .none)
    (h1 : cachedSample E key { memcache := true } d n none none c = (.ok v, c1)) :
    (cachedSample E key { memcache := true } d n' none none c1).1 = .ok v := by
  have := (C20_stable E key d d rfl n n' hn' false c c1 v hv (by rw [hc]; simp) h1 []
    (by intro o ho; cases ho) none none none).1
  simpa [runCache, applyClips_none] using this

/-! ## C23 -/

/-- A history without a call that writes the file `f`. -/
def NoDump (f : String) (ops : List (CacheOp σ K)) : Prop :=
  ∀ op ∈ ops, op.opts.dump ≠ some f

theorem runCache_files (E : Env σ K) (key : Obj (St σ K) K → String) (f : String)
    (ops : List (CacheOp σ K)) (hno : NoDump f ops) :
    ∀ c : CSt σ K, (runCache E key ops c).files f = c.files f := by
  induction ops with
  | nil => intro c; rfl
  | cons op ops ih =>
    intro c
    rw [show runCache E key (op :: ops) c = runCache E key ops (op.run E key c).2 from rfl,
      ih (fun o ho => hno o (by simp [ho]))]
    unfold CacheOp.run cachedSample
    have hfl := (obtain_mem E op.opts (key op.d) op.d op.n op.lc op.rc c).2
    have hd := hno op (by simp)
    split_ifs
    · rfl
    · split
      · rename_i h1
        rw [h1] at hfl
        exact congrFun hfl f
      · rename_i z c1 h1
        rw [h1] at hfl
        have hfl' : c1.files = c.files := hfl
        simp only [saveCaches, hfl']
        cases ht : truthyName op.opts.dump with
        | none => rfl
        | some g =>
          have : op.opts.dump = some g := by
            unfold truthyName at ht
            split at ht
            · cases ht
            · exact ht
          simp only
          split_ifs with hfg
          · subst hfg; exact absurd this hd
          · rfl

/-- **C23, round trip.** A call with `dump_cache_file=f` returned `z`.  After any history that does
not write `f` again, a call with `load_cache_file=f` – for any distribution, provided memory holds
nothing for it or `cache_file_primary` is set, and without `reload_cache` – uses exactly `z`, clipped
to the bounds of the later call, without drawing.  (`hz`: arrays of Python objects cannot be read
back, see `C23_object_file_fails`.) -/
theorem C23_file_round_trip (E : Env σ K) (key : Obj (St σ K) K → String) (f : String) (hf : f ≠ "")
    (o : CacheOpts) (ho : o.dump = some f) (d : Obj (St σ K) K) (n : ℕ) (lc rc : Option (Scalar K))
    (c c1 : CSt σ K) (z : Samples K) (hz : Scalar.none ∉ z.toList)
    (h1 : cachedSample E key o d n lc rc c = (.ok z, c1))
    (ops : List (CacheOp σ K)) (hno : NoDump f ops)
    (o' : CacheOpts) (hl : o'.load = some f) (hr : o'.reload = false) (d' : Obj (St σ K) K) (n' : ℕ)
    (hn' : 1 ≤ n') (lc' rc' : Option (Scalar K))
    (hm : (runCache E key ops c1).mem (key d') = none ∨ o'.filePrimary = true) :
    (cachedSample E key o' d' n' lc' rc' (runCache E key ops c1)).1 = applyClips E.powf lc' rc' z ∧
    (cachedSample E key o' d' n' lc' rc' (runCache E key ops c1)).2.inner
      = (runCache E key ops c1).inner := by
  have hfile : (runCache E key ops c1).files f = some z := by
    rw [runCache_files E key f ops hno]
    obtain ⟨-, c2, -, rfl⟩ := cachedSample_ok h1
    have : truthyName o.dump = some f := by
      rw [ho]; unfold truthyName; split
      · rename_i h; exact absurd (Option.some.inj h) hf
      · rfl
    simp [saveCaches, this]
  have hobj : loadNpy z = .ok z := by
    unfold loadNpy
    rw [if_neg]
    simp only [List.any_eq_true, not_exists, not_and]
    intro v hv hd
    cases v with
    | none => exact hz hv
    | _ => simp [Scalar.dt] at hd
  have hzn : z.notNone := by
    intro h; apply hz; rw [h]; simp [Samples.toList]
  have htl : truthyName o'.load = some f := by
    rw [hl]; unfold truthyName; split
    · rename_i h; exact absurd (Option.some.inj h) hf
    · rfl
  refine cachedSample_of_ok hn' (obtain_of_load hzn ?_)
  simp only [loadCached, htl, Option.isSome_some, Bool.true_or, if_true, hr, Bool.false_eq_true,
    if_false, Option.bind_some, hfile]
  cases hmm : (runCache E key ops c1).mem (key d') with
  | none => simp only [hobj]; rfl
  | some w =>
    rw [hmm] at hm
    rcases hm with hm | hm
    · cases hm
    · simp only [hm, if_true, hobj]; rfl

/-- **C23 fails** for samples that are Python objects (functions that return `None`): what
`dump_cache_file` wrote cannot be loaded again. -/
theorem C23_object_file_fails (E : Env σ K) (key : Obj (St σ K) K → String) (f : String)
    (hf : f ≠ "") (c : CSt σ K) (z : Samples K) (hz : Scalar.none ∈ z.toList)
    (hfile : c.files f = some z) (d : Obj (St σ K) K) (hm : c.mem (key d) = none) (n : ℕ)
    (hn : 1 ≤ n) (lc rc : Option (Scalar K)) :
    (cachedSample E key { load := some f } d n lc rc c).1 = .error .valueError := by
  have htl : truthyName (some f) = some f := by
    unfold truthyName; split
    · rename_i h; exact absurd (Option.some.inj h) hf
    · rfl
  have hobj : loadNpy z = .error .valueError := by
    unfold loadNpy
    rw [if_pos]
    simp only [List.any_eq_true]
    exact ⟨_, hz, by simp [Scalar.dt]⟩
  refine (cachedSample_of_ok hn (c1 := c) ?_).1
  have : loadCached { load := some f } (key d) c = .error .valueError := by
    simp only [loadCached, htl, Option.isSome_some, Bool.true_or, if_true, Option.bind_some, hfile,
      hm, hobj, Bool.false_eq_true, if_false]
    rfl
  unfold obtain?
  rw [this]

/-- **C23, memory.** With `memcache=True`, without `reload_cache`, a memory entry is used unless the
file exists and `cache_file_primary` is set. -/
theorem C23_memory_wins (E : Env σ K) (key : Obj (St σ K) K → String) (o : CacheOpts)
    (hm : o.memcache = true) (hr : o.reload = false) (d : Obj (St σ K) K) (n : ℕ) (hn : 1 ≤ n)
    (lc rc : Option (Scalar K)) (c : CSt σ K) (v : Samples K) (hv : v ≠ .scalar .none)
    (hmem : c.mem (key d) = some v)
    (hp : o.filePrimary = false ∨ ∀ f, o.load = some f → f = "" ∨ c.files f = none) :
    (cachedSample E key o d n lc rc c).1 = applyClips E.powf lc rc v ∧
    (cachedSample E key o d n lc rc c).2.inner = c.inner := by
  refine cachedSample_of_ok hn (obtain_of_load hv ?_)
  simp only [loadCached, hm, Bool.or_true, if_true, hr, Bool.false_eq_true, if_false, hmem]
  cases hl : o.load with
  | none => simp [truthyName]
  | some f =>
    by_cases hf : f = ""
    · subst hf; simp [truthyName]
    · have htl : truthyName (some f) = some f := by
        unfold truthyName; split
        · rename_i h; exact absurd (Option.some.inj h) hf
        · rfl
      rw [htl]
      simp only [Option.bind_some]
      cases hfile : c.files f with
      | none => simp
      | some w =>
        rcases hp with hp | hp
        · simp [hp]
        · rcases hp f hl with h | h
          · exact absurd h hf
          · rw [hfile] at h; cases h

/-- **C23, fresh.** `reload_cache=True`, or a call with neither `memcache` nor `load_cache_file`, or
caches that hold nothing for the call: the samples are drawn afresh, exactly as without caches. -/
theorem C23_fresh (E : Env σ K) (key : Obj (St σ K) K → String) (o : CacheOpts)
    (d : Obj (St σ K) K) (n : ℕ) (hn : 1 ≤ n) (lc rc : Option (Scalar K)) (c : CSt σ K)
    (h : o.reload = true ∨ (o.memcache = false ∧ (o.load = none ∨ o.load = some "")) ∨
      (c.mem (key d) = none ∧ ∀ f, o.load = some f → c.files f = none)) :
    (cachedSample E key o d n lc rc c).1 = (sampleCores E o.sched o.cores d n lc rc c.inner).1 ∧
    (cachedSample E key o d n lc rc c).2.inner
      = (sampleCores E o.sched o.cores d n lc rc c.inner).2 := by
  have : loadCached o (key d) c = .ok none := by
    unfold loadCached
    rcases h with h | ⟨h1, h2⟩ | ⟨h1, h2⟩
    · simp [h]
    · have : truthyName o.load = none := by
        rcases h2 with h2 | h2 <;> rw [h2] <;> rfl
      simp [this, h1]
    · have : (truthyName o.load).bind c.files = none := by
        cases hl : o.load with
        | none => rfl
        | some f =>
          unfold truthyName
          split
          · rfl
          · simpa using h2 f hl
      simp only [this, h1]
      simp
  exact cachedSample_of_ok (c1 := (freshDraw E o d n lc rc c).2) hn
    (by rw [obtain_of_none this]; rfl)

/-- **C23, finding.** A file asked for is ignored (fresh samples are drawn) when memory holds an entry
for the distribution although `memcache=False`, and `cache_file_primary` is not set. -/
theorem C23_file_ignored_fails (E : Env σ K) (key : Obj (St σ K) K → String) (f : String)
    (d : Obj (St σ K) K) (n : ℕ) (hn : 1 ≤ n) (lc rc : Option (Scalar K)) (c : CSt σ K)
    (v : Samples K) (hmem : c.mem (key d) = some v) :
    (cachedSample E key { load := some f } d n lc rc c).1
      = (sampleObj E d n lc rc c.inner.inner).1 := by
  have : loadCached { load := some f } (key d) c = .ok none := by
    unfold loadCached
    simp only [hmem]
    cases hh : (truthyName (some f)).bind c.files <;> simp
  rw [(cachedSample_of_ok (c1 := (freshDraw E { load := some f } d n lc rc c).2) hn
    (by rw [obtain_of_none this])).1]
  exact (sampleCores_one E [] 1 (le_refl _) d n hn lc rc c.inner).1

/-- **C23.** A call without `memcache` leaves the memory cache alone, a call without
`dump_cache_file` writes no file. -/
theorem C23_no_side_effects (E : Env σ K) (key : Obj (St σ K) K → String) (o : CacheOpts)
    (d : Obj (St σ K) K) (n : ℕ) (lc rc : Option (Scalar K)) (c : CSt σ K) :
    (o.memcache = false → (cachedSample E key o d n lc rc c).2.mem = c.mem) ∧
    (o.dump = none → (cachedSample E key o d n lc rc c).2.files = c.files) := by
  have hm := obtain_mem E o (key d) d n lc rc c
  unfold cachedSample
  split_ifs
  · exact ⟨fun _ => rfl, fun _ => rfl⟩
  · split
    · rename_i h1
      rw [h1] at hm
      exact ⟨fun _ => hm.1, fun _ => hm.2⟩
    · rename_i h1
      rw [h1] at hm
      refine ⟨fun h => ?_, fun h => ?_⟩
      · simp only [saveCaches, h, Bool.false_and, Bool.false_eq_true, if_false]; exact hm.1
      · simp only [saveCaches, h, truthyName]; exact hm.2

/-! ### The hypotheses are met -/

/-- A normal distribution is sampled, other things happen, it is sampled again with a bound: the same
samples come back, clipped. -/
example :
    let d : Obj (St ℕ ℚ) ℚ := .leaf (.uniform 0 1) none none
    let key := strObj demoStr false
    let c1 := runCache demoEnv key [⟨{ memcache := true }, d, 3, none, none⟩,
      ⟨{ memcache := true, reload := true }, demoConst 1, 2, none, none⟩,
      ⟨{ dump := some "f" }, d, 2, none, none⟩] (demoC 0)
    (cachedSample demoEnv key { memcache := true } d 3 none (some (.flt (1 / 2))) c1).1
      = .ok (.arr [.flt 0, .flt (3 / 10), .flt (1 / 2)]) ∧
    (cachedSample demoEnv key { load := some "f", filePrimary := true } d 3 none none c1).1
      = .ok (.arr [.flt (9 / 10), .flt (1 / 5)]) := by
  decide +kernel

example : NoReload (strObj demoStr false) (strObj demoStr false (demoConst 2))
    [⟨{ memcache := true, reload := true }, demoConst 1, 2, none, none⟩] := by
  intro op ho
  simp only [List.mem_singleton] at ho
  subst ho
  rintro ⟨-, -, h⟩
  revert h
  decide +kernel

end Verif
