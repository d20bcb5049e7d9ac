import Verif.Spec.Support
import Verif.Props.Dice
import Verif.Props.Mixture
import Verif.Props.Calls
import Verif.Props.SampleCount

/-! # C18: samples stay in the support of the distribution -/

namespace Verif

open Spec

variable {σ K : Type} [Field K] [LinearOrder K] [FloorRing K] [IsStrictOrderedRing K]

theorem mapFlt_mem {f : K → K} {x y : Samples K} (h : mapFlt f x = .ok y) {v : Scalar K}
    (hv : v ∈ y.toList) : ∃ a ∈ x.toList, ∃ q, a.val? = some q ∧ v = .flt (f q) := by
  have key : ∀ a b : Scalar K, (match a.num? with
      | some x => Except.ok (Scalar.flt (f x.val))
      | none => Except.error PyErr.typeError) = Except.ok b → ∃ q, a.val? = some q ∧ b = .flt (f q) := by
    intro a b hab
    split at hab
    · rename_i q hq
      cases hab
      exact ⟨q.val, by simp [Scalar.val?, hq], rfl⟩
    · cases hab
  cases x with
  | scalar a =>
    simp only [mapFlt, Except.bind_ok_iff] at h
    obtain ⟨b, h1, h⟩ := h
    cases h
    simp only [Samples.toList, List.mem_singleton] at hv
    subst hv
    exact ⟨a, by simp [Samples.toList], key _ _ h1⟩
  | arr as =>
    simp only [mapFlt, Except.bind_ok_iff] at h
    obtain ⟨bs, h1, h⟩ := h
    cases h
    obtain ⟨i, hi, rfl⟩ := List.mem_iff_getElem.1 hv
    obtain ⟨a, ha, hab⟩ := mapExcept_get h1 i _ (List.getElem?_eq_getElem hi)
    exact ⟨a, List.mem_of_getElem? ha, key _ _ hab⟩

theorem toList_simplify' (s : Samples K) : s.simplify.toList = s.toList := by
  cases s with
  | scalar v => rfl
  | arr vs => exact toList_simplify vs

theorem drawSimple_mem {E : Env σ K} (hE : E.gen.Lawful) {p : Prim K} {n : ℕ} {s s' : St σ K}
    {x : Samples K} (h : drawSimple E p n s = (.ok x, s')) {v : Scalar K} (hv : v ∈ x.toList) :
    p.support v := by
  obtain ⟨xs, h1, rfl⟩ := drawSimple_ok.1 h
  rw [toList_simplify] at hv
  exact (drawSM_lawful hE h1).2 v hv

theorem drawInt_ok {E : Env σ K} (hE : E.gen.Lawful) {low high z : ℤ} {s s' : St σ K}
    (h : drawInt E low high s = (.ok z, s')) : low ≤ z ∧ z < high := by
  obtain ⟨xs, s1, h1, h2⟩ := SM.bind_ok.1 h
  have hm := (drawSM_lawful hE h1).2
  split at h2
  · rename_i w
    obtain ⟨rfl, rfl⟩ := SM.pure_ok.1 h2
    obtain ⟨z, hz, h3, h4⟩ := hm (.int w) (by simp)
    cases hz
    exact ⟨h3, h4⟩
  · exact (SM.throw_ok.1 h2).elim

/-- **C18**, plain distributions: with a generator that stays in numpy's documented ranges, every
sample of a distribution lies in its support. -/
theorem C18_support (E : Env σ K) (hE : E.gen.Lawful) (hexp : ∀ x, 0 < E.exp x) (l : Leaf K) (n : ℕ)
    (s s' : St σ K) (z : Samples K)
    (h : sampleObj E (.leaf l none none) n none none s = (.ok z, s')) :
    ∀ v ∈ z.toList, l.Support v := by
  obtain ⟨-, lo, hi, x, h1, h2, h3, h4⟩ := withClips_ok.1 h
  cases h1
  cases h2
  cases h4
  simp only [rawObj] at h3
  intro v hv
  cases l with
  | const c =>
    obtain ⟨rfl, -⟩ := SM.pure_ok.1 h3
    rw [constSamples, toList_simplify] at hv
    exact List.eq_of_mem_replicate hv
  | uniform x y => exact drawSimple_mem hE h3 hv
  | categorical items => trivial
  | normal m sd => exact drawSimple_mem hE h3 hv
  | lognormal m sd => exact drawSimple_mem hE h3 hv
  | invlognormal m sd =>
    simp only [leafSample, SM.bind_ok, SM.lift_ok, Except.bind_ok_iff] at h3
    obtain ⟨xs, s1, h1, ⟨y, h2, h5⟩, rfl⟩ := h3
    cases h5
    rw [toList_simplify'] at hv
    obtain ⟨a, ha, q, hq, rfl⟩ := mapFlt_mem h2 hv
    obtain ⟨b, rfl, hb⟩ := (drawSM_lawful hE h1).2 a ha
    cases hq
    exact ⟨_, rfl, one_div_pos.2 hb⟩
  | binomial k p => exact drawSimple_mem hE h3 hv
  | beta a b => exact drawSimple_mem hE h3 hv
  | bernoulli p =>
    simp only [leafSample, SM.bind_ok, SM.lift_ok, Except.bind_ok_iff] at h3
    obtain ⟨xs, s1, h1, ⟨ys, h2, h5⟩, rfl⟩ := h3
    cases h5
    rw [toList_simplify'] at hv
    obtain ⟨i, hi, rfl⟩ := List.mem_iff_getElem.1 hv
    obtain ⟨a, ha, hab⟩ := mapExcept_get h2 i _ (List.getElem?_eq_getElem hi)
    split at hab
    · rename_i u
      rw [← Except.ok.inj hab]
      by_cases hup : u < p
      · rw [if_pos hup]; exact Or.inr rfl
      · rw [if_neg hup]; exact Or.inl rfl
    · cases hab
  | poisson lam => exact drawSimple_mem hE h3 hv
  | chisquare df => exact drawSimple_mem hE h3 hv
  | exponential sc => exact drawSimple_mem hE h3 hv
  | gamma sh sc => exact drawSimple_mem hE h3 hv
  | pareto sh =>
    simp only [leafSample, SM.bind_ok, SM.lift_ok, Except.bind_ok_iff] at h3
    obtain ⟨xs, s1, h1, ⟨y, h2, h5⟩, rfl⟩ := h3
    cases h5
    rw [toList_simplify'] at hv
    obtain ⟨a, ha, q, hq, rfl⟩ := mapFlt_mem h2 hv
    obtain ⟨b, rfl, hb⟩ := (drawSM_lawful hE h1).2 a ha
    cases hq
    exact ⟨_, rfl, le_add_of_nonneg_left hb⟩
  | triangular l m r => exact drawSimple_mem hE h3 hv
  | pert l m r lam =>
    simp only [leafSample, SM.bind_ok, SM.lift_ok] at h3
    obtain ⟨b, s1, h1, h2, rfl⟩ := h3
    obtain ⟨a, ha, q, hq, rfl⟩ := mapFlt_mem h2 hv
    obtain ⟨c, rfl, hc0, hc1⟩ := drawSimple_mem hE h1 ha
    cases hq
    intro hlr
    refine ⟨_, rfl, ?_, ?_⟩
    · exact le_add_of_nonneg_right (mul_nonneg hc0 (sub_nonneg.2 hlr))
    · have := mul_le_mul_of_nonneg_right hc1 (sub_nonneg.2 hlr)
      simp only [Num.val]
      linarith
  | tdist x y t cred => trivial
  | logtdist x y t cred =>
    intro hxy
    simp only [leafSample] at h3
    split at h3
    · simp only [SM.bind_ok, SM.lift_ok, Except.bind_ok_iff] at h3
      obtain ⟨xs, s1, h1, ⟨y, h2, h5⟩, rfl⟩ := h3
      cases h5
      rw [toList_simplify'] at hv
      obtain ⟨a, ha, q, hq, rfl⟩ := mapFlt_mem h2 hv
      exact ⟨_, rfl, hexp _⟩
    · split_ifs at h3 with h5 h6 h7
      · exact (SM.throw_ok.1 h3).elim
      · exact (SM.throw_ok.1 h3).elim
      · subst h7
        rcases hxy with h | h
        · cases h
        · exact absurd rfl h
      · simp only [SM.bind_ok, SM.lift_ok] at h3
        obtain ⟨y, s1, h1, h2, rfl⟩ := h3
        obtain ⟨a, ha, q, hq, rfl⟩ := mapFlt_mem h2 hv
        exact ⟨_, rfl, hexp _⟩
    · exact (SM.throw_ok.1 h3).elim
  | geometric p => exact drawSimple_mem hE h3 hv
  | die d =>
    simp only [leafSample, SM.bind_ok] at h3
    obtain ⟨rs, s1, h1, h2⟩ := h3
    obtain ⟨rfl, -⟩ := SM.pure_ok.1 h2
    rw [toList_simplify'] at hv
    simp only [Samples.toList, List.mem_map] at hv
    obtain ⟨r, hr, rfl⟩ := hv
    have hf := (SM.replicateL_ok.1 h1).forall₂
    have hrange : ∀ s r s', drawInt E 1 (d.sides + 1) s = (.ok r, s') → 1 ≤ r ∧ r ≤ d.sides := by
      intro s r s' hh
      have := drawInt_ok hE hh
      omega
    obtain ⟨i, hi, rfl⟩ := List.mem_iff_getElem.1 hr
    have := hf.get (i := i) (by rw [hf.length_eq]; exact hi) hi
    simp only [List.get_eq_getElem] at this
    obtain ⟨t, t', ht⟩ := this
    refine ⟨_, rfl, ?_⟩
    cases hex : d.explodeOn with
    | none =>
      unfold rollDie at ht
      rw [hex] at ht
      have hd := (C29_plain _ _ _ _ _).1 ht
      have := draws_range hrange hd _ (List.mem_singleton.2 rfl)
      exact ⟨this.1, fun _ => this.2⟩
    | some l =>
      unfold rollDie at ht
      rw [hex] at ht
      obtain ⟨rs, -, h5, -, h6, -⟩ := C29_range _ d.sides l _ _ _ _ hrange ht
      exact ⟨by omega, fun h => by cases h⟩
  | coin =>
    simp only [leafSample, SM.bind_ok] at h3
    obtain ⟨rs, s1, h1, h2⟩ := h3
    obtain ⟨rfl, -⟩ := SM.pure_ok.1 h2
    rw [toList_simplify'] at hv
    simp only [Samples.toList, List.mem_map] at hv
    obtain ⟨r, hr, rfl⟩ := hv
    by_cases h1 : r = .int 1
    · rw [if_pos h1]; exact Or.inl rfl
    · rw [if_neg h1]; exact Or.inr rfl

/-! ### Mixtures -/

/-- `v` is a value that component `i` returned when it was sampled. -/
def FromComponent {ι : Type} (comp : ι → ℕ → SM σ K (Samples K)) (i : ι) (v : Scalar K) : Prop :=
  ∃ m t x t', comp i m t = (.ok x, t') ∧ v ∈ x.toList

omit [IsStrictOrderedRing K] in
theorem mixtureLarge_from {ι : Type} {E : Env σ K} {comp : ι → ℕ → SM σ K (Samples K)} {ws : List K}
    {vals : List ι} {n : ℕ} {s s' : St σ K} {z : Samples K}
    (h : mixtureLarge E comp ws vals n s = (.ok z, s')) :
    ∃ vs, (z.toList = vs ∨ z.toList = npArray E.fmt vs) ∧
      ∀ v ∈ vs, ∃ i ∈ vals, FromComponent comp i v := by
  unfold mixtureLarge at h
  simp only [SM.bind_ok, SM.lift_ok, Except.bind_ok_iff] at h
  obtain ⟨pre, s1, h1, us, s2, h2, ⟨vs, h3, h4⟩, rfl⟩ := h
  cases h4
  refine ⟨vs, Or.inr (toList_simplify _), ?_⟩
  intro v hv
  obtain ⟨i, hi, rfl⟩ := List.mem_iff_getElem.1 hv
  obtain ⟨p, -, hp⟩ := mapExcept_get h3 i _ (List.getElem?_eq_getElem hi)
  unfold pickValue at hp
  split at hp
  · split at hp
    · cases hp
    · rename_i index _
      split at hp
      · rename_i x hx
        split at hp
        · rename_i w hw
          have hf := (SM.mapL_ok.1 h1).forall₂
          have hidx : index < pre.length := (List.getElem?_eq_some_iff.1 hx).1
          have := hf.get (i := index) (by rw [hf.length_eq]; exact hidx) hidx
          simp only [List.get_eq_getElem] at this
          obtain ⟨t, t', ht⟩ := this
          rw [(List.getElem?_eq_some_iff.1 hx).2] at ht
          refine ⟨_, List.getElem_mem (by rw [hf.length_eq]; exact hidx), n, t, x, t', ht, ?_⟩
          rw [← Except.ok.inj hp]
          exact List.mem_of_getElem? hw
        · cases hp
      · cases hp
  · cases hp

omit [IsStrictOrderedRing K] in
theorem mixtureSmall_from {ι : Type} {E : Env σ K} {comp : ι → ℕ → SM σ K (Samples K)} {ws : List K}
    {vals : List ι} {n : ℕ} {s s' : St σ K} {z : Samples K}
    (h : mixtureSmall E comp ws vals n s = (.ok z, s')) :
    ∃ vs, (z.toList = vs ∨ z.toList = npArray E.fmt vs) ∧
      ∀ v ∈ vs, ∃ i ∈ vals, FromComponent comp i v := by
  have hone : ∀ t x t', mixtureOne E comp ws vals t = (.ok x, t') →
      ∃ i ∈ vals, ∃ t1, comp i 1 t1 = (.ok x, t') := by
    intro t x t' ht
    obtain ⟨us, s2, -, h5⟩ := SM.bind_ok.1 ht
    split at h5
    · split at h5
      · rename_i i hi
        exact ⟨i, List.mem_of_getElem? hi, _, h5⟩
      · exact (SM.throw_ok.1 h5).elim
    · exact (SM.throw_ok.1 h5).elim
  unfold mixtureSmall at h
  obtain ⟨ss, s1, h1, h2⟩ := SM.bind_ok.1 h
  have hf := (SM.replicateL_ok.1 h1).forall₂
  split at h2
  · rename_i x
    obtain ⟨rfl, rfl⟩ := SM.pure_ok.1 h2
    refine ⟨_, Or.inl rfl, ?_⟩
    intro v hv
    cases n with
    | zero => simp at hf
    | succ n =>
      rw [List.replicate_succ] at hf
      cases hf with
      | cons h3 _ =>
        obtain ⟨t, t', ht⟩ := h3
        obtain ⟨i, hi, t1, hc⟩ := hone _ _ _ ht
        exact ⟨i, hi, 1, t1, x, t', hc, hv⟩
  · have h2' := (SM.lift_ok.1 h2).1
    obtain ⟨vs, rfl, rfl⟩ := gather_ok.1 h2'
    refine ⟨vs, Or.inr (toList_simplify _), ?_⟩
    intro v hv
    obtain ⟨i, hi, rfl⟩ := List.mem_iff_getElem.1 hv
    have := hf.get (i := i) (by rw [hf.length_eq]; simpa using hi) (by simpa using hi)
    simp only [List.get_eq_getElem, List.getElem_map] at this
    obtain ⟨t, t', ht⟩ := this
    obtain ⟨i, hi, t1, hc⟩ := hone _ _ _ ht
    exact ⟨i, hi, 1, t1, _, t', hc, by simp [Samples.toList]⟩

theorem mixtureRun_from {ι : Type} {E : Env σ K} {comp : ι → ℕ → SM σ K (Samples K)} {ws : List K}
    {vals : List ι} (hlen : ws.length = vals.length) {n : ℕ} {s s' : St σ K} {z : Samples K}
    (h : mixtureRun E comp ws vals n s = (.ok z, s')) :
    ∃ vs, (z.toList = vs ∨ z.toList = npArray E.fmt vs) ∧
      ∀ v ∈ vs, ∃ p ∈ ws.zip vals, 0 < p.1 ∧ FromComponent comp p.2 v := by
  by_cases hne : vals = []
  · subst hne
    have : ws = [] := List.length_eq_zero_iff.1 hlen
    subst this
    cases h
  unfold mixtureRun at h
  rw [C01_weights_decision (fun _ => false) ws vals _ (by simp [weightForms]) hlen hne false
    (by simp)] at h
  split at h
  · exact (SM.throw_ok.1 h).elim
  · rename_i ws' items heq
    split_ifs at heq with hacc
    cases heq
    have hmem : ∀ i ∈ ((nonzeroPairs ws vals).map
        (fun p => (VItem.plain p.2 : VItem K ι))).filterMap VItem.plain?,
        ∃ p ∈ ws.zip vals, 0 < p.1 ∧ p.2 = i := by
      intro i hi
      simp only [List.filterMap_map, List.mem_filterMap, Function.comp, VItem.plain?,
        Option.some.injEq] at hi
      obtain ⟨p, hp, rfl⟩ := hi
      simp only [nonzeroPairs, List.mem_filter, decide_eq_true_eq, ne_eq] at hp
      exact ⟨p, hp.1, lt_of_le_of_ne (hacc.1 _ (List.of_mem_zip hp.1).1) (Ne.symm (by simpa using hp.2)), rfl⟩
    have hconv : ∀ vs : List (Scalar K), (∀ v ∈ vs, ∃ i ∈ ((nonzeroPairs ws vals).map
        (fun p => (VItem.plain p.2 : VItem K ι))).filterMap VItem.plain?, FromComponent comp i v) →
        ∀ v ∈ vs, ∃ p ∈ ws.zip vals, 0 < p.1 ∧ FromComponent comp p.2 v := by
      intro vs hvs v hv
      obtain ⟨i, hi, hc⟩ := hvs v hv
      obtain ⟨p, hp, hpos, rfl⟩ := hmem i hi
      exact ⟨p, hp, hpos, hc⟩
    split at h
    · rename_i i hi
      refine ⟨z.toList, Or.inl rfl, hconv _ ?_⟩
      intro v hv
      exact ⟨i, by rw [hi]; simp, n, s, z, s', h, hv⟩
    · split_ifs at h
      · obtain ⟨vs, h1, h2⟩ := mixtureLarge_from h
        exact ⟨vs, h1, hconv _ h2⟩
      · obtain ⟨vs, h1, h2⟩ := mixtureSmall_from h
        exact ⟨vs, h1, hconv _ h2⟩

/-- **C18**, mixtures: every sample of a mixture is a sample of one of its components with positive
weight (collected by `np.array`, which converts all of them to one type). -/
theorem C18_mixture (E : Env σ K) (k : ℕ) (ds : Fin k → Obj (St σ K) K) (ws : List K)
    (hlen : ws.length = k) (n : ℕ) (s s' : St σ K) (z : Samples K)
    (h : sampleObj E (.mix k ds ws none none) n none none s = (.ok z, s')) :
    ∃ vs, (z.toList = vs ∨ z.toList = npArray E.fmt vs) ∧
      ∀ v ∈ vs, ∃ (i : Fin k) (w : K), ws[i.1]? = some w ∧ 0 < w ∧
        ∃ m t x t', sampleObj E (ds i) m none none t = (.ok x, t') ∧ v ∈ x.toList := by
  obtain ⟨-, lo, hi, x, h1, h2, h3, h4⟩ := withClips_ok.1 h
  cases h1
  cases h2
  cases h4
  simp only [rawObj] at h3
  obtain ⟨vs, hz, hvs⟩ := mixtureRun_from (by simpa using hlen) h3
  refine ⟨vs, hz, fun v hv => ?_⟩
  obtain ⟨p, hp, hpos, hfc⟩ := hvs v hv
  refine ⟨p.2, p.1, ?_, hpos, hfc⟩
  obtain ⟨j, hj, hpj⟩ := List.mem_iff_getElem.1 hp
  rw [List.getElem_zip] at hpj
  rw [← hpj]
  simp only [List.getElem_finRange, Fin.val_cast]
  rw [List.getElem?_eq_getElem]

omit [IsStrictOrderedRing K] in
/-- Collecting numbers with `np.array` keeps their values. -/
theorem npArray_vals (fmt : Scalar K → String) (vs : List (Scalar K))
    (hnum : ∀ v ∈ vs, (v.val?).isSome) : (npArray fmt vs).map Scalar.val? = vs.map Scalar.val? := by
  have hdt : commonDT vs = .bool ∨ commonDT vs = .int ∨ commonDT vs = .flt := by
    have : ∀ (vs : List (Scalar K)) (a : DT), (a = .bool ∨ a = .int ∨ a = .flt) →
        (∀ v ∈ vs, (v.val?).isSome) →
        (vs.foldl (fun d v => d.join v.dt) a = .bool ∨ vs.foldl (fun d v => d.join v.dt) a = .int ∨
          vs.foldl (fun d v => d.join v.dt) a = .flt) := by
      intro vs
      induction vs with
      | nil => intro a ha _; exact ha
      | cons v vs ih =>
        intro a ha hv
        rw [List.foldl_cons]
        refine ih _ ?_ fun w hw => hv w (by simp [hw])
        have hv1 := hv v (by simp)
        cases v <;> rcases ha with rfl | rfl | rfl <;>
          simp_all [DT.join, Scalar.dt, Scalar.val?, Scalar.num?]
    exact this vs .bool (Or.inl rfl) hnum
  unfold npArray
  rw [List.map_map]
  refine List.map_congr_left fun v hv => ?_
  have hv1 := hnum v hv
  simp only [Function.comp]
  rcases hdt with h | h | h <;> rw [h] <;> cases v <;>
    simp_all [Scalar.castTo, Scalar.val?, Scalar.num?, Num.val] <;> split_ifs <;> simp_all

/-- **C18**, mixtures of numbers: whatever holds for (the value of) every sample of every component
with positive weight holds for every sample of the mixture. -/
theorem C18_mixture_range (E : Env σ K) (k : ℕ) (ds : Fin k → Obj (St σ K) K) (ws : List K)
    (hlen : ws.length = k) (P : K → Prop)
    (hP : ∀ (i : Fin k) (w : K), ws[i.1]? = some w → 0 < w → ∀ m t x t',
      sampleObj E (ds i) m none none t = (.ok x, t') → ∀ v ∈ x.toList, ∃ q, v.val? = some q ∧ P q)
    (n : ℕ) (s s' : St σ K) (z : Samples K)
    (h : sampleObj E (.mix k ds ws none none) n none none s = (.ok z, s')) :
    ∀ v ∈ z.toList, ∃ q, v.val? = some q ∧ P q := by
  obtain ⟨vs, hz, hvs⟩ := C18_mixture E k ds ws hlen n s s' z h
  have hall : ∀ v ∈ vs, ∃ q, v.val? = some q ∧ P q := by
    intro v hv
    obtain ⟨i, w, hw, hpos, m, t, x, t', hx, hvx⟩ := hvs v hv
    exact hP i w hw hpos m t x t' hx v hvx
  have hmap : z.toList.map Scalar.val? = vs.map Scalar.val? := by
    rcases hz with hz | hz
    · rw [hz]
    · rw [hz]
      exact npArray_vals _ _ fun v hv => by obtain ⟨q, hq, -⟩ := hall v hv; rw [hq]; rfl
  intro v hv
  have : v.val? ∈ z.toList.map Scalar.val? := List.mem_map_of_mem hv
  rw [hmap] at this
  obtain ⟨w, hw, hwv⟩ := List.mem_map.1 this
  rw [← hwv]
  exact hall w hw

/-! ### `discrete` -/

omit [FloorRing K] [IsStrictOrderedRing K] in
theorem keepPositive_subset {β : Type} : ∀ (l : List K) (m : List β) ws vs,
    keepPositive l m = .ok (ws, vs) → vs ⊆ m
  | [], m, ws, vs, h => by simp [keepPositive] at h; rw [h.2]; simp
  | a :: l, [], ws, vs, h => by simp [keepPositive] at h
  | a :: l, b :: m, ws, vs, h => by
    unfold keepPositive at h
    split at h
    · cases h
    · simp only [bind, Except.bind] at h
      split at h
      · cases h
      · rename_i p hp
        have := keepPositive_subset l m p.1 p.2 hp
        split at h
        · cases h
          exact List.cons_subset_cons _ this
        · cases h
          exact List.Subset.trans this (List.subset_cons_self _ _)

omit [FloorRing K] [IsStrictOrderedRing K] in
theorem finishWeights_subset {α : Type} {rel : Bool} {ws : List K} {o : WOwner}
    {vs : List (VItem K α)} {p : List K × List (VItem K α)}
    (h : (finishWeights rel ws o vs).result = .ok p) : p.2 ⊆ vs := by
  obtain ⟨p1, p2⟩ := p
  unfold finishWeights at h
  split at h
  · split at h
    · simp only [normalizedByZero] at h
      split_ifs at h
      cases h
      simp
    split at h
    · cases h
    · split at h
      · cases h
      · exact keepPositive_subset _ _ _ _ h
  · simp only at h
    split at h
    · split at h
      · cases h
      · exact keepPositive_subset _ _ _ _ h
      all_goals exact keepPositive_subset _ _ _ _ h
    · split at h
      · cases h
      · split at h
        · cases h
        · exact keepPositive_subset _ _ _ _ h

omit [FloorRing K] [IsStrictOrderedRing K] in
theorem unzipPairs_offered {α : Type} : ∀ (vs : List (VItem K α)) p, unzipPairs vs = .ok p →
    p.2 = vs.map (fun v => match v with | .plain a => a | .pair _ a => a)
  | [], p, h => by cases h; rfl
  | .pair w a :: rest, p, h => by
    simp only [unzipPairs, bind, Except.bind] at h
    split at h
    · cases h
    · rename_i q hq
      cases h
      simp [unzipPairs_offered rest q hq]
  | .plain _ :: _, p, h => by cases h

omit [FloorRing K] [IsStrictOrderedRing K] in
theorem process_offered {α : Type} {v : VArg K α} {p : List K × List (VItem K α)}
    (h : (processWeightsValues (fun _ => false) .absent .absent v false).result = .ok p) :
    ∀ a ∈ p.2.filterMap VItem.plain?, a ∈ v.offered := by
  unfold processWeightsValues at h
  split at h
  · cases h
  split at h
  · cases h
  simp only at h
  have hw : (if (!(WArg.absent : WArg K).isAbsent) = true then (WArg.absent : WArg K)
      else WArg.absent) = WArg.absent := by simp
  rw [hw] at h
  simp only [resolveWeights] at h
  split at h
  · cases h
  rename_i w2 vs hres
  split at h
  · cases h
  rename_i ws owner vs' hfill
  split at h
  · cases h
  have hsub := finishWeights_subset h
  have hvs' : ∀ a, VItem.plain a ∈ vs' → a ∈ v.offered := by
    intro a ha
    have hlist : ∀ vs : List (VItem K α), fillWeights (fun _ => false) false none vs
        = .ok ((ws, owner), vs') →
        a ∈ vs.map (fun v => match v with | .plain a => a | .pair _ a => a) := by
      intro vs hf
      unfold fillWeights at hf
      simp only at hf
      split at hf
      · cases hf
      · simp only [bind, Except.bind] at hf
        split at hf
        · cases hf
        · rename_i q hq
          simp only [Bool.false_and, Bool.false_eq_true, if_false] at hf
          cases hf
          obtain ⟨b, hb, hba⟩ := List.mem_map.1 ha
          cases hba
          rw [unzipPairs_offered _ _ hq] at hb
          exact hb
      · simp only [Bool.false_eq_true, if_false, Except.ok.injEq, Prod.mk.injEq] at hf
        rw [← hf.2] at ha
        exact List.mem_map.2 ⟨_, ha, rfl⟩
    cases v with
    | absent => cases hres
    | list l => cases hres; exact hlist _ hfill
    | ndarray l => cases hres; exact hlist _ hfill
    | dict kvs =>
      cases hres
      simp only [fillWeights, Bool.false_and, Bool.false_eq_true, if_false, Except.ok.injEq,
        Prod.mk.injEq] at hfill
      rw [← hfill.2] at ha
      obtain ⟨kv, hkv, hh⟩ := List.mem_map.1 ha
      cases hh
      exact List.mem_map_of_mem hkv
    | other => cases hres
  intro a ha
  obtain ⟨it, hit, hita⟩ := List.mem_filterMap.1 ha
  cases it with
  | pair _ _ => cases hita
  | plain b =>
    cases hita
    exact hvs' _ (hsub hit)

omit [FloorRing K] [IsStrictOrderedRing K] in
theorem processDiscrete_offered {α : Type} [DecidableEq α] {v : VArg K α}
    {p : List K × List (VItem K α)} (h : (processDiscrete v).result = .ok p) :
    ∀ a ∈ p.2.filterMap VItem.plain?, a ∈ v.offered := by
  have hcomp : ∀ (vs : List (VItem K α)), (processWeightsValues (K := K) (fun _ => false) .absent
      .absent (.dict ((counter (vs.filterMap VItem.plain?)).map (fun p => (p.1, some ((p.2 : K) /
        ((((counter (vs.filterMap VItem.plain?)).map Prod.snd).sum : ℕ) : K)))))) false).result = .ok p →
      ∀ a ∈ p.2.filterMap VItem.plain?,
        a ∈ vs.map (fun v => match v with | .plain a => a | .pair _ a => a) := by
    intro vs hp a ha
    have := process_offered hp a ha
    simp only [VArg.offered, List.map_map, List.mem_map, Function.comp] at this
    obtain ⟨q, hq, rfl⟩ := this
    obtain ⟨it, hit, hq2⟩ := List.mem_filterMap.1 ((counter_mem _ _).1 hq).1
    cases it with
    | pair _ _ => cases hq2
    | plain b =>
      cases hq2
      exact List.mem_map.2 ⟨_, hit, rfl⟩
  unfold processDiscrete at h
  cases v with
  | list vs =>
    simp only at h
    split at h
    · exact hcomp vs h
    · exact process_offered h
  | ndarray vs =>
    simp only at h
    split at h
    · exact hcomp vs h
    · exact process_offered h
  | absent => exact process_offered h
  | dict kvs => exact process_offered h
  | other => exact process_offered h

/-- **C18**, `discrete`: every sample is one of the offered items (collected by `np.array`). -/
theorem C18_discrete (E : Env σ K) (items : VArg K (Scalar K)) (n : ℕ) (s s' : St σ K) (z : Samples K)
    (h : sampleObj E (.leaf (.categorical items) none none) n none none s = (.ok z, s')) :
    ∃ vs, (z.toList = vs ∨ z.toList = npArray E.fmt vs) ∧ ∀ v ∈ vs, v ∈ items.offered := by
  obtain ⟨-, lo, hi, x, h1, h2, h3, h4⟩ := withClips_ok.1 h
  cases h1
  cases h2
  cases h4
  simp only [rawObj, leafSample, SM.bind_ok, SM.lift_ok] at h3
  obtain ⟨p, s1, ⟨h5, rfl⟩, h6⟩ := h3
  have hoff := processDiscrete_offered h5
  have hcomp : ∀ (i v : Scalar K), FromComponent (σ := σ)
      (fun v m => SM.pure (constSamples v m)) i v → v = i := by
    rintro i v ⟨m, t, x, t', h7, hv⟩
    obtain ⟨rfl, -⟩ := SM.pure_ok.1 h7
    rw [constSamples, toList_simplify] at hv
    exact List.eq_of_mem_replicate hv
  have hrun : ∃ vs, (z.toList = vs ∨ z.toList = npArray E.fmt vs) ∧
      ∀ v ∈ vs, ∃ i ∈ p.2.filterMap VItem.plain?, FromComponent (σ := σ)
        (fun v m => SM.pure (constSamples v m)) i v := by
    unfold mixtureRun at h6
    split at h6
    · exact (SM.throw_ok.1 h6).elim
    · rename_i ws' its heq
      have hsub : its.filterMap VItem.plain? ⊆ p.2.filterMap VItem.plain? := by
        unfold processWeightsValues at heq
        split at heq
        · cases heq
        split at heq
        · cases heq
        simp only at heq
        split at heq
        · cases heq
        rename_i w1 _
        split at heq
        · cases heq
        rename_i w2 vs hres
        have hvs : vs = (p.2.filterMap VItem.plain?).map VItem.plain := by
          simp only [resolveValues, Except.ok.injEq, Prod.mk.injEq] at hres
          exact hres.2.symm
        split at heq
        · cases heq
        rename_i wss owner vs' hfill
        split at heq
        · cases heq
        have hs1 := finishWeights_subset heq
        have hs2 : vs' = vs := by
          simp [resolveWeights, WArg.isAbsent] at *
          simp only [resolveValues, Except.ok.injEq, Prod.mk.injEq] at hres
          subst w1
          rw [← hres.1] at hfill
          simp [fillWeights] at hfill
          exact hfill.2.symm
        rw [hs2, hvs] at hs1
        intro a ha
        obtain ⟨it, hit, hita⟩ := List.mem_filterMap.1 ha
        obtain ⟨b, hb, rfl⟩ := List.mem_map.1 (hs1 hit)
        cases hita
        exact hb
      have hconv : ∀ (comp : Scalar K → ℕ → SM σ K (Samples K)) (vs : List (Scalar K)),
          (∀ v ∈ vs, ∃ i ∈ its.filterMap VItem.plain?, FromComponent comp i v) →
          ∀ v ∈ vs, ∃ i ∈ p.2.filterMap VItem.plain?, FromComponent comp i v := by
        intro comp vs hh v hv
        obtain ⟨i, hi, hc⟩ := hh v hv
        exact ⟨i, hsub hi, hc⟩
      split at h6
      · rename_i i hi
        refine ⟨z.toList, Or.inl rfl, hconv _ _ ?_⟩
        intro v hv
        exact ⟨i, by rw [hi]; simp, n, _, z, s', h6, hv⟩
      · split_ifs at h6
        · obtain ⟨vs, h1, h2⟩ := mixtureLarge_from h6
          exact ⟨vs, h1, hconv _ _ h2⟩
        · obtain ⟨vs, h1, h2⟩ := mixtureSmall_from h6
          exact ⟨vs, h1, hconv _ _ h2⟩
  obtain ⟨vs, hz, hvs⟩ := hrun
  refine ⟨vs, hz, fun v hv => ?_⟩
  obtain ⟨i, hi, hc⟩ := hvs v hv
  rw [hcomp i v hc]
  exact hoff i hi

/-! ### The hypotheses are met -/

example : (sampleObj demoEnv (.leaf (.die ⟨6, some [6]⟩) none none) 3 none none (demoSt 4)).1
    = .ok (.arr [.int 5, .int 7, .int 2]) := by decide +kernel

example : (sampleObj demoEnv (.leaf (.categorical (.dict [(.str "a", some (1 / 4)), (.int 3, some (3 / 4))]))
    none none) 2 none none (demoSt 0)).1 = .ok (.arr [.str "a", .str ""]) := by decide +kernel

example : (sampleObj demoEnv (.mix 2 (fun i => if i = 0 then .leaf (.uniform 5 6) none none
      else .leaf (.die ⟨6, none⟩) none none) [1 / 2, 1 / 2] none none) 3 none none (demoSt 0)).1
    = .ok (.arr [.flt (53 / 10), .flt 4, .flt (11 / 2)]) := by decide +kernel

end Verif
