import Verif.Model.SampleHeap
import Verif.Lemmas.DemoGen
import Mathlib.Data.List.GetD

/-!
# C85: who owns the samples
-/

namespace Verif

variable {σ K : Type} [Field K] [LinearOrder K] [FloorRing K]

/-- The state without addresses. -/
def HSt.values (c : HSt σ K) : CSt σ K :=
  ⟨c.inner, fun k => (c.mem k).map (HVal.deref c.heap), c.files⟩

/-- Every cached array exists. -/
def HSt.WF (c : HSt σ K) : Prop := ∀ k a, c.mem k = some (.ref a) → a < c.heap.length

theorem deref_append {h : List (List (Scalar K))} (ext : List (List (Scalar K))) (v : HVal K)
    (hv : ∀ a, v = .ref a → a < h.length) : v.deref (h ++ ext) = v.deref h := by
  cases v with
  | imm v => rfl
  | ref a =>
    have := hv a rfl
    simp only [HVal.deref, List.getD_append _ _ _ _ this]

/-- `c'` differs from `c` only by new arrays. -/
def HSt.Ext (c c' : HSt σ K) : Prop :=
  (∃ e, c'.heap = c.heap ++ e) ∧ c'.mem = c.mem ∧ c'.files = c.files

theorem HSt.Ext.values {c c' : HSt σ K} (h : c.Ext c') (hc : c.WF) :
    c'.values = { c.values with inner := c'.inner } := by
  obtain ⟨⟨e, he⟩, hm, hf⟩ := h
  unfold HSt.values
  simp only [he, hm, hf, CSt.mk.injEq, true_and, and_true]
  funext k
  cases hk : c.mem k with
  | none => rfl
  | some v =>
    simp only [Option.map_some]
    rw [deref_append]
    rintro a rfl
    exact hc k a hk

theorem HSt.Ext.wf {c c' : HSt σ K} (h : c.Ext c') (hc : c.WF) : c'.WF := by
  obtain ⟨⟨e, he⟩, hm, -⟩ := h
  intro k a hk
  rw [hm] at hk
  have := hc k a hk
  rw [he, List.length_append]
  omega

theorem HSt.Ext.refl (c : HSt σ K) : c.Ext c := ⟨⟨[], by simp⟩, rfl, rfl⟩

theorem HSt.Ext.trans {a b c : HSt σ K} (h : a.Ext b) (h' : b.Ext c) : a.Ext c := by
  obtain ⟨⟨e, he⟩, hm, hf⟩ := h
  obtain ⟨⟨e', he'⟩, hm', hf'⟩ := h'
  exact ⟨⟨e ++ e', by rw [he', he, List.append_assoc]⟩, hm'.trans hm, hf'.trans hf⟩

theorem HSt.Ext.length_le {c c' : HSt σ K} (h : c.Ext c') : c.heap.length ≤ c'.heap.length := by
  obtain ⟨⟨e, he⟩, -, -⟩ := h
  rw [he, List.length_append]; omega

/-- `v` is an object made since `c`, present in `c'`. -/
def NewIn (c c' : HSt σ K) (v : HVal K) : Prop :=
  ∀ a, v = .ref a → c.heap.length ≤ a ∧ a < c'.heap.length

theorem alloc_spec (c : HSt σ K) (s : Samples K) :
    c.Ext (c.alloc s).2 ∧ (c.alloc s).2.inner = c.inner ∧
      (c.alloc s).1.deref (c.alloc s).2.heap = s ∧ NewIn c (c.alloc s).2 (c.alloc s).1 := by
  cases s with
  | scalar v => exact ⟨HSt.Ext.refl _, rfl, rfl, fun a h => by cases h⟩
  | arr vs =>
    refine ⟨⟨⟨[vs], rfl⟩, rfl, rfl⟩, rfl, ?_, ?_⟩
    · simp [HSt.alloc, HVal.deref, List.getD]
    · intro a h
      simp only [HSt.alloc, HVal.ref.injEq] at h
      subst h
      simp [HSt.alloc]

/-- The shape of the outcome of a step that only allocates: values as in the value model, and every array
returned is new or the given one. -/
structure Good (c : HSt σ K) (old : HVal K → Prop) (res : Except PyErr (HVal K) × HSt σ K)
    (val : Except PyErr (Samples K)) (inner : MSt σ K) : Prop where
  ext : c.Ext res.2
  inner_eq : res.2.inner = inner
  val_eq : res.1.map (HVal.deref res.2.heap) = val
  owner : ∀ v, res.1 = .ok v → old v ∨ NewIn c res.2 v

theorem applyL_short {powf : K → K → Option K} {l : Option (Scalar K)} {s z : Samples K}
    (hs : ¬ s.safeLen > 1) (h : applyL powf l s = .ok z) : z = s ∨ ∃ v, z = .scalar v := by
  cases l with
  | none => left; cases h; rfl
  | some l =>
    simp only [applyL, if_neg hs] at h
    split at h
    · rename_i v
      cases hv : v.lt l with
      | error e => rw [hv] at h; cases h
      | ok b => rw [hv] at h; cases h; exact Or.inr ⟨_, rfl⟩
    · rename_i v
      cases hv : v.lt l with
      | error e => rw [hv] at h; cases h
      | ok b => rw [hv] at h; cases h; cases b <;> simp
    · cases h

theorem applyR_short {powf : K → K → Option K} {l : Option (Scalar K)} {s z : Samples K}
    (hs : ¬ s.safeLen > 1) (h : applyR powf l s = .ok z) : z = s ∨ ∃ v, z = .scalar v := by
  cases l with
  | none => left; cases h; rfl
  | some l =>
    simp only [applyR, if_neg hs] at h
    split at h
    · rename_i v
      cases hv : l.lt v with
      | error e => rw [hv] at h; cases h
      | ok b => rw [hv] at h; cases h; exact Or.inr ⟨_, rfl⟩
    · rename_i v
      cases hv : l.lt v with
      | error e => rw [hv] at h; cases h
      | ok b => rw [hv] at h; cases h; cases b <;> simp
    · cases h

/-- A single sample that stays an array under clipping is unchanged. -/
theorem applyClips_short {powf : K → K → Option K} {l r : Option (Scalar K)} {s : Samples K}
    {vs : List (Scalar K)} (hs : ¬ s.safeLen > 1) (h : applyClips powf l r s = .ok (.arr vs)) :
    s = .arr vs := by
  unfold applyClips at h
  cases h1 : applyL powf l s with
  | error e => rw [h1] at h; cases h
  | ok s1 =>
    rw [h1] at h
    rcases applyL_short hs h1 with rfl | ⟨v, rfl⟩
    · rcases applyR_short hs h with h2 | ⟨v, h2⟩
      · exact h2.symm
      · cases h2
    · have hv : ¬ (Samples.scalar v).safeLen > 1 := by cases v <;> simp [Samples.safeLen]
      rcases applyR_short hv h with h2 | ⟨v, h2⟩ <;> cases h2

theorem clipH_good (powf : K → K → Option K) (lc rc : Option (Scalar K)) (v : HVal K) (c : HSt σ K) :
    Good c (· = v) (clipH powf lc rc v c) (applyClips powf lc rc (v.deref c.heap)) c.inner := by
  unfold clipH
  by_cases h0 : lc = none ∧ rc = none
  · rw [if_pos h0]
    obtain ⟨rfl, rfl⟩ := h0
    exact ⟨HSt.Ext.refl _, rfl, rfl, fun w h => by cases h; exact Or.inl rfl⟩
  · rw [if_neg h0]
    cases hz : applyClips powf lc rc (v.deref c.heap) with
    | error e => exact ⟨HSt.Ext.refl _, rfl, rfl, fun w h => by cases h⟩
    | ok z =>
      have hal : Good c (· = v) (.ok (c.alloc z).1, (c.alloc z).2) (.ok z) c.inner := by
        obtain ⟨h1, h2, h3, h4⟩ := alloc_spec c z
        exact ⟨h1, h2, by simp only [Except.map, h3], fun w h => by cases h; exact Or.inr h4⟩
      cases v with
      | imm v => cases z <;> exact hal
      | ref a =>
        cases z with
        | scalar w => exact hal
        | arr vs =>
          dsimp only
          by_cases hl : (HVal.deref c.heap (.ref a)).safeLen > 1
          · rw [if_pos hl]; exact hal
          · rw [if_neg hl]
            refine ⟨HSt.Ext.refl _, rfl, ?_, fun w h => by cases h; exact Or.inl rfl⟩
            simp only [Except.map, applyClips_short hl hz]

theorem freshH_good (E : Env σ K) (o : CacheOpts) (d : Obj (St σ K) K) (n : ℕ) (lc rc : Option (Scalar K))
    (c : HSt σ K) :
    Good c (fun _ => False) (freshH E o d n lc rc c) (sampleCores E o.sched o.cores d n lc rc c.inner).1
      (sampleCores E o.sched o.cores d n lc rc c.inner).2 := by
  unfold freshH
  cases hr : sampleCores E o.sched o.cores d n lc rc c.inner with
  | mk r s' =>
    cases r with
    | error e => exact ⟨HSt.Ext.refl _, rfl, rfl, fun w h => by cases h⟩
    | ok z =>
      obtain ⟨h1, h2, h3, h4⟩ := alloc_spec { c with inner := s' } z
      exact ⟨h1, h2, by simp only [Except.map, h3], fun w h => by cases h; exact Or.inr h4⟩

theorem Good.mono {c : HSt σ K} {p q : HVal K → Prop} {res : Except PyErr (HVal K) × HSt σ K}
    {val : Except PyErr (Samples K)} {inner : MSt σ K} (h : Good c p res val inner)
    (hpq : ∀ v, p v → q v) : Good c q res val inner :=
  ⟨h.ext, h.inner_eq, h.val_eq, fun v hv => (h.owner v hv).imp_left (hpq v)⟩

/-- What the caches provide, by value. -/
theorem lookupH_values (o : CacheOpts) (key : String) (c : HSt σ K) :
    loadCached o key c.values = (lookupH o key c).map fun src => match src with
      | .file s => some s
      | .memory v => some (v.deref c.heap)
      | .nothing => none := by
  unfold loadCached lookupH HSt.values
  dsimp only
  by_cases h1 : ((truthyName o.load).isSome || o.memcache) = true
  · rw [if_pos h1, if_pos h1]
    by_cases h2 : o.reload = true
    · rw [if_pos h2, if_pos h2]; rfl
    · rw [if_neg h2, if_neg h2]
      cases hf : (truthyName o.load).bind c.files with
      | none =>
        cases hm : c.mem key with
        | none => rfl
        | some m => cases o.memcache <;> rfl
      | some f =>
        cases hm : c.mem key with
        | none => simp only [Option.map_none]; cases loadNpy f <;> rfl
        | some m =>
          simp only [Option.map_some]
          cases o.filePrimary
          · cases o.memcache <;> rfl
          · cases loadNpy f <;> rfl
  · rw [if_neg h1, if_neg h1]; rfl

theorem lookupH_memory {o : CacheOpts} {key : String} {c : HSt σ K} {v : HVal K}
    (h : lookupH o key c = .ok (.memory v)) :
    c.mem key = some v ∧ o.memcache = true ∧ o.reload = false := by
  unfold lookupH at h
  dsimp only at h
  by_cases h1 : ((truthyName o.load).isSome || o.memcache) = true
  · rw [if_pos h1] at h
    by_cases h2 : o.reload = true
    · rw [if_pos h2] at h; cases h
    · rw [if_neg h2] at h
      refine ⟨?_, ?_, by simpa using h2⟩ <;>
      · cases hf : (truthyName o.load).bind c.files with
        | none =>
          cases hm : c.mem key with
          | none => rw [hf, hm] at h; cases h
          | some m =>
            rw [hf, hm] at h
            cases ho : o.memcache <;> rw [ho] at h <;> cases h <;> rfl
        | some f =>
          cases hm : c.mem key with
          | none =>
            rw [hf, hm] at h
            simp only at h
            cases hl : loadNpy f <;> rw [hl] at h <;> cases h
          | some m =>
            rw [hf, hm] at h
            simp only at h
            cases hp : o.filePrimary <;> rw [hp] at h
            · cases ho : o.memcache <;> rw [ho] at h <;> cases h <;> rfl
            · cases hl : loadNpy f <;> rw [hl] at h <;> cases h
  · rw [if_neg h1] at h; cases h

theorem obtainH_good (E : Env σ K) (o : CacheOpts) (key : String) (d : Obj (St σ K) K) (n : ℕ)
    (lc rc : Option (Scalar K)) (c : HSt σ K) :
    Good c (fun v => c.mem key = some v ∧ o.memcache = true ∧ o.reload = false)
      (obtainH E o key d n lc rc c) (obtain? E o key d n lc rc c.values).1
      (obtain? E o key d n lc rc c.values).2.inner ∧
    (obtain? E o key d n lc rc c.values).2
      = { c.values with inner := (obtain? E o key d n lc rc c.values).2.inner } := by
  have hfresh := (freshH_good E o d n lc rc c).mono
    (q := fun v => c.mem key = some v ∧ o.memcache = true ∧ o.reload = false) (fun v h => h.elim)
  unfold obtainH obtain?
  rw [lookupH_values]
  cases hl : lookupH o key c with
  | error e => exact ⟨⟨HSt.Ext.refl _, rfl, rfl, fun w h => by cases h⟩, rfl⟩
  | ok src =>
    cases src with
    | nothing => exact ⟨hfresh, rfl⟩
    | file s =>
      simp only [Except.map]
      obtain ⟨h1, h2, h3, h4⟩ := alloc_spec c s
      have hclip := clipH_good E.powf lc rc (c.alloc s).1 (c.alloc s).2
      have hg : Good c (fun v => c.mem key = some v ∧ o.memcache = true ∧ o.reload = false)
          (clipH E.powf lc rc (c.alloc s).1 (c.alloc s).2) (applyClips E.powf lc rc s) c.inner := by
        refine ⟨h1.trans hclip.ext, hclip.inner_eq.trans h2, by rw [hclip.val_eq, h3], fun v hv => ?_⟩
        right
        rcases hclip.owner v hv with rfl | h
        · intro a ha
          exact ⟨(h4 a ha).1, (h4 a ha).2.trans_le hclip.ext.length_le⟩
        · intro a ha
          exact ⟨h1.length_le.trans (h a ha).1, (h a ha).2⟩
      cases s with
      | arr vs => exact ⟨hg, rfl⟩
      | scalar v =>
        by_cases hv : v = .none
        · subst hv
          exact ⟨hfresh, rfl⟩
        · rw [if_neg (by simpa using hv)]
          simp only [if_neg hv]
          exact ⟨hg, trivial⟩
    | memory v =>
      simp only [Except.map]
      have hm := lookupH_memory hl
      have hclip := (clipH_good E.powf lc rc v c).mono
        (q := fun v => c.mem key = some v ∧ o.memcache = true ∧ o.reload = false)
        (fun w h => by subst h; exact hm)
      cases v with
      | ref a =>
        rw [if_neg (by simp [HVal.deref])]
        exact ⟨hclip, rfl⟩
      | imm v =>
        by_cases hv : v = .none
        · subst hv
          exact ⟨hfresh, rfl⟩
        · rw [if_neg (by simpa [HVal.deref] using hv)]
          simp only [HVal.deref, if_neg hv]
          exact ⟨hclip, trivial⟩

/-- One call: the values are those of the value model, existing arrays keep their place, and a newly
cached array was made in this call. -/
structure StepSpec (c : HSt σ K) (o : CacheOpts) (val : Except PyErr (Samples K) × CSt σ K)
    (res : Except PyErr (HVal K) × HSt σ K) : Prop where
  result : res.1.map (HVal.deref res.2.heap) = val.1
  state : res.2.values = val.2
  wf : res.2.WF
  heap : ∃ e, res.2.heap = c.heap ++ e
  cached : ∀ k a, res.2.mem k = some (.ref a) → c.mem k = some (.ref a) ∨ c.heap.length ≤ a
  uncached : o.memcache = false → res.2.mem = c.mem ∧
    ∀ a, res.1 = .ok (.ref a) → c.heap.length ≤ a ∧ a < res.2.heap.length

theorem cachedSampleH_spec (E : Env σ K) (key : Obj (St σ K) K → String) (o : CacheOpts)
    (d : Obj (St σ K) K) (n : ℕ) (lc rc : Option (Scalar K)) (c : HSt σ K) (hc : c.WF) :
    StepSpec c o (cachedSample E key o d n lc rc c.values) (cachedSampleH E key o d n lc rc c) := by
  unfold cachedSampleH cachedSample
  by_cases hn : n = 0
  · rw [if_pos hn, if_pos hn]
    exact ⟨rfl, rfl, hc, ⟨[], by simp⟩, fun k a h => Or.inl h, fun _ => ⟨rfl, fun a h => by cases h⟩⟩
  rw [if_neg hn, if_neg hn]
  obtain ⟨hg, hst⟩ := obtainH_good E o (key d) d n lc rc c
  have hhad : (c.values.mem (key d)).isSome = (c.mem (key d)).isSome := by simp [HSt.values]
  rw [hhad]
  have hval : (obtainH E o (key d) d n lc rc c).2.values
      = (obtain? E o (key d) d n lc rc c.values).2 := by
    rw [hst, hg.ext.values hc, hg.inner_eq]
  have hwf := hg.ext.wf hc
  cases ho : obtainH E o (key d) d n lc rc c with
  | mk r c' =>
  cases hv : obtain? E o (key d) d n lc rc c.values with
  | mk r' cv =>
  rw [ho] at hg hval hwf
  rw [hv] at hg hval
  have h1 := hg.val_eq
  have hmem := hg.ext.2.1
  dsimp only at h1 hval hwf hmem
  cases r with
  | error e =>
    simp only [Except.map] at h1
    subst h1
    refine ⟨rfl, hval, hwf, hg.ext.1, fun k a h => Or.inl ?_, fun _ => ⟨hmem, fun a h => by cases h⟩⟩
    dsimp only at h
    rwa [hmem] at h
  | ok v =>
    simp only [Except.map] at h1
    subst h1
    have hown := hg.owner v rfl
    refine ⟨rfl, ?_, ?_, hg.ext.1, ?_, ?_⟩
    · subst hval
      unfold saveH saveCaches HSt.values
      dsimp only
      simp only [CSt.mk.injEq, true_and]
      constructor
      · funext k
        by_cases hs : (o.memcache && (!(c.mem (key d)).isSome || o.reload)) = true
        · rw [if_pos hs, if_pos hs]
          by_cases hk : k = key d
          · simp [hk]
          · simp [hk]
        · rw [if_neg hs, if_neg hs]
      · cases truthyName o.dump <;> rfl
    · intro k a hk
      simp only [saveH] at hk ⊢
      by_cases hs : (o.memcache && (!(c.mem (key d)).isSome || o.reload)) = true
      · rw [if_pos hs] at hk
        by_cases hkk : k = key d
        · rw [if_pos hkk] at hk
          cases hk
          rcases hown with ⟨h, -⟩ | h
          · exact (hc _ _ h).trans_le hg.ext.length_le
          · exact (h a rfl).2
        · rw [if_neg hkk] at hk
          exact hwf k a hk
      · rw [if_neg hs] at hk
        exact hwf k a hk
    · intro k a hk
      simp only [saveH] at hk
      by_cases hs : (o.memcache && (!(c.mem (key d)).isSome || o.reload)) = true
      · rw [if_pos hs] at hk
        by_cases hkk : k = key d
        · rw [if_pos hkk] at hk
          cases hk
          rcases hown with ⟨h, -⟩ | h
          · left; rw [hkk]; exact h
          · right; exact (h a rfl).1
        · rw [if_neg hkk, hmem] at hk
          exact Or.inl hk
      · rw [if_neg hs, hmem] at hk
        exact Or.inl hk
    · intro hmc
      refine ⟨?_, fun a ha => ?_⟩
      · simp only [saveH, hmc, Bool.false_and, Bool.false_eq_true, if_false]
        exact hmem
      · cases ha
        rcases hown with ⟨-, h, -⟩ | h
        · rw [hmc] at h; cases h
        · exact h a rfl

/-! ### Histories with assignments by the caller -/

/-- The calls of a history, without the assignments. -/
def callsOf : List (HOp σ K) → List (CacheOp σ K)
  | [] => []
  | .call op :: ops => op :: callsOf ops
  | .assign _ _ _ :: ops => callsOf ops

/-- The results of a history of calls nobody interferes with. -/
def resultsOf (E : Env σ K) (key : Obj (St σ K) K → String) :
    List (CacheOp σ K) → CSt σ K → List (Except PyErr (Samples K))
  | [], _ => []
  | op :: ops, c => (op.run E key c).1 :: resultsOf E key ops (op.run E key c).2

/-- The caller assigns only into arrays returned by calls with `memcache=False`.  `flags` are the values of
`memcache` of the calls so far. -/
def OwnArraysOnly : List Bool → List (HOp σ K) → Prop
  | _, [] => True
  | flags, .call op :: ops => OwnArraysOnly (flags ++ [op.opts.memcache]) ops
  | flags, .assign j _ _ :: ops => flags[j]? = some false ∧ OwnArraysOnly flags ops

theorem assign_values {c : HSt σ K} {a : ℕ} (i : ℕ) (v : Scalar K)
    (ha : ∀ k, c.mem k ≠ some (.ref a)) : (c.assign (some a) i v).values = c.values := by
  unfold HSt.values HSt.assign
  simp only [CSt.mk.injEq, true_and, and_true]
  funext k
  cases hk : c.mem k with
  | none => rfl
  | some w =>
    cases w with
    | imm w => rfl
    | ref b =>
      have hab : a ≠ b := by rintro rfl; exact ha k hk
      simp only [Option.map_some, HVal.deref, List.getD, List.getElem?_modify, if_neg hab,
        Option.map_eq_map, id_eq, Option.map_id']

theorem runH_own (E : Env σ K) (key : Obj (St σ K) K → String) (ops : List (HOp σ K)) :
    ∀ (c : HSt σ K) (rets : List (Option ℕ)) (flags : List Bool), c.WF → rets.length = flags.length →
      (∀ (j a : ℕ), rets[j]? = some (some a) → flags[j]? = some false →
        a < c.heap.length ∧ ∀ k, c.mem k ≠ some (.ref a)) →
      OwnArraysOnly flags ops →
      runH E key ops c rets = resultsOf E key (callsOf ops) c.values := by
  induction ops with
  | nil => intros; rfl
  | cons op ops ih =>
    intro c rets flags hc hlen hinv hown
    cases op with
    | call op =>
      have hs := cachedSampleH_spec E key op.opts op.d op.n op.lc op.rc c hc
      simp only [runH, callsOf, resultsOf, CacheOp.run]
      rw [← hs.result, ← hs.state]
      congr 1
      refine ih _ _ (flags ++ [op.opts.memcache]) hs.wf (by simp [hlen]) ?_ hown
      intro j a hj hf
      obtain ⟨e, he⟩ := hs.heap
      by_cases hjl : j < rets.length
      · rw [List.getElem?_append_left hjl] at hj
        rw [List.getElem?_append_left (hlen ▸ hjl)] at hf
        obtain ⟨h1, h2⟩ := hinv j a hj hf
        refine ⟨by rw [he, List.length_append]; omega, fun k hk => ?_⟩
        rcases hs.cached k a hk with h | h
        · exact h2 k h
        · omega
      · rw [List.getElem?_append_right (by omega)] at hj
        rw [List.getElem?_append_right (by omega)] at hf
        have hj0 : j - rets.length = 0 := by
          by_contra hne
          rw [List.getElem?_eq_none (by simp; omega)] at hj
          cases hj
        rw [hj0] at hj
        rw [show j - flags.length = 0 by omega] at hf
        simp only [List.getElem?_cons_zero, Option.some.injEq] at hj hf
        obtain ⟨hmem, hnew⟩ := hs.uncached hf
        have hr : (cachedSampleH E key op.opts op.d op.n op.lc op.rc c).1 = .ok (.ref a) := by
          revert hj
          unfold addrOf
          split
          · rename_i b hb; intro h; cases h; exact hb
          · intro h; cases h
        obtain ⟨h1, h2⟩ := hnew a hr
        refine ⟨h2, fun k hk => ?_⟩
        rw [hmem] at hk
        have := hc k a hk
        omega
    | assign j i v =>
      obtain ⟨hf, hown⟩ := hown
      simp only [runH, callsOf]
      have hjl : j < rets.length := by
        rw [hlen]
        by_contra h
        rw [List.getElem?_eq_none (by omega)] at hf
        cases hf
      cases hr : rets[j] with
      | none =>
        have : (rets[j]?).join = none := by rw [List.getElem?_eq_getElem hjl, hr]; rfl
        rw [this]
        exact ih c rets flags hc hlen hinv hown
      | some a =>
        have hj : rets[j]? = some (some a) := by rw [List.getElem?_eq_getElem hjl, hr]
        obtain ⟨h1, h2⟩ := hinv j a hj hf
        rw [hj]
        simp only [Option.join_some]
        rw [← assign_values i v h2]
        refine ih _ rets flags ?_ hlen ?_ hown
        · intro k b hk
          simp only [HSt.assign, List.length_modify] at hk ⊢
          exact hc k b hk
        · intro j' b hj' hf'
          simp only [HSt.assign, List.length_modify]
          exact hinv j' b hj' hf'

/-- **C85, partial.** If the caller writes only into arrays returned by calls with `memcache=False`, then all
results of a history of `sample` calls (with any mixture of memory cache, cache files, bounds and cores) are
those of the same calls without the writes.  Full statement: for all results.  Missing: results of calls with
`memcache=True`, see `C85_fails`. -/
theorem C85_own_arrays_partial (E : Env σ K) (key : Obj (St σ K) K → String) (ops : List (HOp σ K))
    (c : HSt σ K) (hc : c.WF) (hops : OwnArraysOnly [] ops) :
    runH E key ops c [] = resultsOf E key (callsOf ops) c.values :=
  runH_own E key ops c [] [] hc rfl (fun j a h => by simp at h) hops

/-- **C85, partial.** A call with `memcache=False` returns an array that did not exist before, and stores no
reference to it. -/
theorem C85_new_array_partial (E : Env σ K) (key : Obj (St σ K) K → String) (o : CacheOpts)
    (d : Obj (St σ K) K) (n : ℕ) (lc rc : Option (Scalar K)) (c c' : HSt σ K) (hc : c.WF) (a : ℕ)
    (ho : o.memcache = false) (h : cachedSampleH E key o d n lc rc c = (.ok (.ref a), c')) :
    c.heap.length ≤ a ∧ ∀ k, c'.mem k ≠ some (.ref a) := by
  have hs := cachedSampleH_spec E key o d n lc rc c hc
  rw [h] at hs
  obtain ⟨h1, h2⟩ := hs.uncached ho
  dsimp only at h1
  refine ⟨(h2 a rfl).1, fun k hk => ?_⟩
  rw [h1] at hk
  have := hc k a hk
  have := (h2 a rfl).1
  omega

/-- **C85 fails.** Whatever is sampled: when a call with `memcache=True` stores an array, and the caller
assigns `result[i] = v`, the next call with `memcache=True` returns the changed array. -/
theorem C85_fails (E : Env σ K) (key : Obj (St σ K) K → String) (d : Obj (St σ K) K) (n m : ℕ)
    (hm : m ≠ 0) (c c' : HSt σ K) (hc : c.WF) (hnone : c.mem (key d) = none) (a i : ℕ) (v : Scalar K)
    (h : cachedSampleH E key { memcache := true } d n none none c = (.ok (.ref a), c')) :
    ((cachedSampleH E key { memcache := true } d m none none (c'.assign (some a) i v)).1.map
        (HVal.deref (cachedSampleH E key { memcache := true } d m none none
          (c'.assign (some a) i v)).2.heap))
      = .ok (.arr ((c'.heap.getD a []).set i v)) := by
  have hn : n ≠ 0 := by
    rintro rfl
    simp [cachedSampleH] at h
  have hmem : c'.mem (key d) = some (.ref a) := by
    unfold cachedSampleH at h
    rw [if_neg hn] at h
    cases ho : obtainH E { memcache := true } (key d) d n none none c with
    | mk r c1 =>
      rw [ho] at h
      cases r with
      | error e => cases h
      | ok w =>
        cases h
        simp [saveH, hnone]
  have hlt : a < c'.heap.length := by
    have hs := cachedSampleH_spec E key { memcache := true } d n none none c hc
    rw [h] at hs
    exact hs.wf _ _ hmem
  have hlook : lookupH { memcache := true } (key d) (c'.assign (some a) i v) = .ok (.memory (.ref a)) := by
    simp [lookupH, truthyName, HSt.assign, hmem]
  unfold cachedSampleH obtainH
  rw [if_neg hm, hlook]
  simp only [HVal.deref, reduceCtorEq, if_false, clipH, and_self, if_true, saveH, Except.map]
  simp [HSt.assign, List.getD, hlt]

/-! ### The hypotheses are met -/

/-- A fresh interpreter. -/
def demoH (k : ℕ) : HSt ℕ ℚ := ⟨⟨demoSt k, fun _ => none⟩, [], fun _ => none, fun _ => none⟩

theorem demoH_wf (k : ℕ) : (demoH k).WF := fun _ _ h => by cases h

/-- Sample with the cache, write into an array of our own, sample again: the same numbers. -/
example :
    let d : Obj (St ℕ ℚ) ℚ := .leaf (.uniform 0 1) none none
    let ops : List (HOp ℕ ℚ) := [.call ⟨{ memcache := true }, d, 3, none, none⟩,
      .call ⟨{}, d, 2, none, none⟩, .assign 1 0 (.flt 100),
      .call ⟨{ memcache := true }, d, 3, none, none⟩]
    OwnArraysOnly [] ops ∧
    runH demoEnv (fun _ => "uniform") ops (demoH 0) []
      = [.ok (.arr [.flt 0, .flt (3 / 10), .flt (3 / 5)]), .ok (.arr [.flt (9 / 10), .flt (1 / 5)]),
        .ok (.arr [.flt 0, .flt (3 / 10), .flt (3 / 5)])] :=
  ⟨⟨rfl, trivial⟩, by decide +kernel⟩

/-- The same with the cached array: the next result contains 100, and so does the file written from it. -/
example :
    let d : Obj (St ℕ ℚ) ℚ := .leaf (.uniform 0 1) none none
    runH demoEnv (fun _ => "uniform") [.call ⟨{ memcache := true }, d, 3, none, none⟩,
      .assign 0 0 (.flt 100), .call ⟨{ memcache := true, dump := some "f" }, d, 3, none, none⟩,
      .call ⟨{ load := some "f", filePrimary := true }, d, 3, none, none⟩] (demoH 0) []
      = [.ok (.arr [.flt 0, .flt (3 / 10), .flt (3 / 5)]),
        .ok (.arr [.flt 100, .flt (3 / 10), .flt (3 / 5)]),
        .ok (.arr [.flt 100, .flt (3 / 10), .flt (3 / 5)])] := by
  decide +kernel

end Verif
