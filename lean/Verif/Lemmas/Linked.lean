import Verif.Spec.Linked
import Verif.Lemmas.Denote
import Verif.Props.SampleCount
import Verif.Props.Support

/-! # Lemmas for C128: two runs with the same standard random numbers -/

namespace Verif

open Spec

variable {σ α β γ δ : Type}

/-- Two computations that, from the same state, end in the same state and return related values, or fail alike. -/
def SM.Twin (P : α → β → Prop) (m : SM σ ℝ α) (m' : SM σ ℝ β) : Prop :=
  ∀ s, (∃ a b s1, m s = (.ok a, s1) ∧ m' s = (.ok b, s1) ∧ P a b) ∨
    ∃ e s1, m s = (.error e, s1) ∧ m' s = (.error e, s1)

/-- The same for pure computations. -/
def ExRel (P : α → β → Prop) (r : Except PyErr α) (r' : Except PyErr β) : Prop :=
  (∃ a b, r = .ok a ∧ r' = .ok b ∧ P a b) ∨ ∃ e, r = .error e ∧ r' = .error e

theorem SM.Twin.bind {P : α → β → Prop} {Q : γ → δ → Prop} {m : SM σ ℝ α} {m' : SM σ ℝ β} (h : SM.Twin P m m')
    {f : α → SM σ ℝ γ} {f' : β → SM σ ℝ δ} (hf : ∀ a b, P a b → SM.Twin Q (f a) (f' b)) :
    SM.Twin Q (SM.bind m f) (SM.bind m' f') := by
  intro s
  rcases h s with ⟨a, b, s1, h1, h2, h3⟩ | ⟨e, s1, h1, h2⟩
  · simp only [SM.bind, h1, h2]
    exact hf a b h3 s1
  · exact Or.inr ⟨e, s1, by simp [SM.bind, h1], by simp [SM.bind, h2]⟩

theorem SM.Twin.pure {P : α → β → Prop} {a : α} {b : β} (h : P a b) :
    SM.Twin P (SM.pure a : SM σ ℝ α) (SM.pure b) := fun s => Or.inl ⟨a, b, s, rfl, rfl, h⟩

theorem SM.Twin.lift {P : α → β → Prop} {r : Except PyErr α} {r' : Except PyErr β} (h : ExRel P r r') :
    SM.Twin P (SM.lift r : SM σ ℝ α) (SM.lift r') := fun s => by
  rcases h with ⟨a, b, rfl, rfl, h⟩ | ⟨e, rfl, rfl⟩
  · exact Or.inl ⟨a, b, s, rfl, rfl, h⟩
  · exact Or.inr ⟨e, s, rfl, rfl⟩

theorem SM.Twin.throw {P : α → β → Prop} (e : PyErr) : SM.Twin P (SM.throw e : SM σ ℝ α) (SM.throw e) :=
  fun s => Or.inr ⟨e, s, rfl, rfl⟩

theorem SM.Twin.mono {P Q : α → β → Prop} {m : SM σ ℝ α} {m' : SM σ ℝ β} (h : SM.Twin P m m')
    (hPQ : ∀ a b, P a b → Q a b) : SM.Twin Q m m' := fun s => by
  rcases h s with ⟨a, b, s1, h1, h2, h3⟩ | h
  · exact Or.inl ⟨a, b, s1, h1, h2, hPQ _ _ h3⟩
  · exact Or.inr h

theorem SM.Twin.self {P : α → α → Prop} {m : SM σ ℝ α} (h : ∀ s a s', m s = (.ok a, s') → P a a) :
    SM.Twin P m m := fun s => by
  rcases hm : m s with ⟨r, s'⟩
  cases r with
  | ok a => exact Or.inl ⟨a, a, s', rfl, rfl, h s a s' hm⟩
  | error e => exact Or.inr ⟨e, s', rfl, rfl⟩

theorem SM.Twin.mapL {ι : Type} {P : α → β → Prop} {f : ι → SM σ ℝ α} {f' : ι → SM σ ℝ β}
    (h : ∀ i, SM.Twin P (f i) (f' i)) (is : List ι) :
    SM.Twin (List.Forall₂ P) (SM.mapL f is) (SM.mapL f' is) := by
  induction is with
  | nil => exact SM.Twin.pure .nil
  | cons i is ih =>
    exact (h i).bind fun a b hab => ih.bind fun as bs has => SM.Twin.pure (.cons hab has)

theorem SM.Twin.replicateL {P : α → β → Prop} {m : SM σ ℝ α} {m' : SM σ ℝ β} (h : SM.Twin P m m') (n : ℕ) :
    SM.Twin (fun as bs => as.length = n ∧ List.Forall₂ P as bs) (SM.replicateL m n) (SM.replicateL m' n) := by
  induction n with
  | zero => exact SM.Twin.pure ⟨rfl, .nil⟩
  | succ n ih =>
    exact h.bind fun a b hab => ih.bind fun as bs has => SM.Twin.pure ⟨by simp [has.1], .cons hab has.2⟩

theorem ExRel.bind {P : α → β → Prop} {Q : γ → δ → Prop} {r : Except PyErr α} {r' : Except PyErr β} (h : ExRel P r r')
    {f : α → Except PyErr γ} {f' : β → Except PyErr δ} (hf : ∀ a b, P a b → ExRel Q (f a) (f' b)) :
    ExRel Q (r >>= f) (r' >>= f') := by
  rcases h with ⟨a, b, rfl, rfl, h⟩ | ⟨e, rfl, rfl⟩
  · exact hf a b h
  · exact Or.inr ⟨e, rfl, rfl⟩

theorem ExRel.mapExcept {ι : Type} {P : α → β → Prop} {f : ι → Except PyErr α} {f' : ι → Except PyErr β}
    (is : List ι) (h : ∀ i ∈ is, ExRel P (f i) (f' i)) :
    ExRel (fun as bs => as.length = is.length ∧ List.Forall₂ P as bs) (mapExcept f is) (mapExcept f' is) := by
  induction is with
  | nil => exact Or.inl ⟨[], [], rfl, rfl, rfl, .nil⟩
  | cons i is ih =>
    refine ExRel.bind (h i (by simp)) fun a b hab => ?_
    refine ExRel.bind (ih fun j hj => h j (by simp [hj])) fun as bs has => ?_
    exact Or.inl ⟨a :: as, b :: bs, rfl, rfl, by simp [has.1], .cons hab has.2⟩

/-- Two results of `n` numbers each, related one by one. -/
def Paired (R : ℝ → ℝ → Prop) (n : ℕ) (z z' : Samples ℝ) : Prop :=
  ∃ x x' : Fin n → ℝ, Reads n z x ∧ Reads n z' x' ∧ ∀ i, R (x i) (x' i)

/-- Two numbers related by `R`. -/
def PairedScalar (R : ℝ → ℝ → Prop) (v v' : Scalar ℝ) : Prop := ∃ x x', IsReal v x ∧ IsReal v' x' ∧ R x x'

theorem paired_of_lists {R : ℝ → ℝ → Prop} {n : ℕ} {vs vs' : List (Scalar ℝ)}
    (h : List.Forall₂ (PairedScalar R) vs vs') (hn : vs.length = n) :
    ∃ x x' : Fin n → ℝ, List.Forall₂ IsReal vs (List.ofFn x) ∧ List.Forall₂ IsReal vs' (List.ofFn x') ∧
      ∀ i, R (x i) (x' i) := by
  subst hn
  have hl : vs'.length = vs.length := h.length_eq.symm
  have hg : ∀ i : Fin vs.length, PairedScalar R vs[i.1] (vs'[i.1]'(by rw [hl]; exact i.2)) := fun i =>
    List.Forall₂.get h i.2 (by rw [hl]; exact i.2)
  choose x x' h1 h2 h3 using hg
  exact ⟨x, x', forall₂_ofFn.2 ⟨rfl, h1⟩, forall₂_ofFn.2 ⟨hl, h2⟩, h3⟩

theorem paired_simplify {R : ℝ → ℝ → Prop} {n : ℕ} {vs vs' : List (Scalar ℝ)}
    (h : List.Forall₂ (PairedScalar R) vs vs') (hn : vs.length = n) :
    Paired R n (Samples.simplify (.arr vs)) (Samples.simplify (.arr vs')) := by
  obtain ⟨x, x', h1, h2, h3⟩ := paired_of_lists h hn
  exact ⟨x, x', reads_simplify h1, reads_simplify h2, h3⟩

theorem paired_npArray {R : ℝ → ℝ → Prop} {n : ℕ} {vs vs' : List (Scalar ℝ)} {fmt : Scalar ℝ → String}
    (h : List.Forall₂ (PairedScalar R) vs vs') (hn : vs.length = n) :
    Paired R n (Samples.simplify (.arr (npArray fmt vs))) (Samples.simplify (.arr (npArray fmt vs'))) := by
  obtain ⟨x, x', h1, h2, h3⟩ := paired_of_lists h hn
  exact ⟨x, x', reads_simplify (npArray_real h1), reads_simplify (npArray_real h2), h3⟩

/-- Standard numbers, transformed in two ways. -/
theorem paired_map {R : ℝ → ℝ → Prop} (f f' : ℝ → Scalar ℝ) (us : List ℝ)
    (h : ∀ u ∈ us, PairedScalar R (f u) (f' u)) : List.Forall₂ (PairedScalar R) (us.map f) (us.map f') := by
  induction us with
  | nil => exact .nil
  | cons u us ih => exact .cons (h u (by simp)) (ih fun v hv => h v (by simp [hv]))

theorem drawSM_rel {E : Env σ ℝ} {p p' : Prim ℝ} {n : ℕ} {f f' : ℝ → Scalar ℝ} {R : ℝ → ℝ → Prop} {Q : ℝ → Prop}
    (h : ∀ s, ∃ (r : Except PyErr (List ℝ)) (s' : σ), (∀ us, r = .ok us → us.length = n ∧ ∀ u ∈ us, Q u) ∧
      E.gen.draw p n s = (r.map (List.map f), s') ∧ E.gen.draw p' n s = (r.map (List.map f'), s'))
    (hR : ∀ u, Q u → PairedScalar R (f u) (f' u)) :
    SM.Twin (fun vs vs' => vs.length = n ∧ List.Forall₂ (PairedScalar R) vs vs') (drawSM E p n) (drawSM E p' n) := by
  intro s
  obtain ⟨r, s', h1, h2, h3⟩ := h s.rng
  cases r with
  | ok us =>
    refine Or.inl ⟨us.map f, us.map f', { s with rng := s' }, by simp [drawSM, h2, Except.map],
      by simp [drawSM, h3, Except.map], ?_, paired_map f f' us fun u hu => hR u ((h1 us rfl).2 u hu)⟩
    rw [List.length_map, (h1 us rfl).1]
  | error e => exact Or.inr ⟨e, { s with rng := s' }, by simp [drawSM, h2, Except.map], by simp [drawSM, h3, Except.map]⟩

theorem drawSimple_rel {E : Env σ ℝ} {p p' : Prim ℝ} {n : ℕ} {R : ℝ → ℝ → Prop}
    (h : SM.Twin (fun vs vs' => vs.length = n ∧ List.Forall₂ (PairedScalar R) vs vs') (drawSM E p n) (drawSM E p' n)) :
    SM.Twin (Paired R n) (drawSimple E p n) (drawSimple E p' n) :=
  h.bind fun _ _ hv => SM.Twin.pure (paired_simplify hv.2 hv.1)

theorem withClips_rel {E : Env σ ℝ} {R R' : ℝ → ℝ → Prop} {lc rc lc' rc' : Option (Scalar ℝ)}
    {lo hi lo' hi' : Option ℝ} (h1 : IsBound lc lo) (h2 : IsBound rc hi) (h3 : IsBound lc' lo')
    (h4 : IsBound rc' hi') (hR : ∀ x x', R x x' → R' (clamp lo hi x) (clamp lo' hi' x')) {n : ℕ}
    {raw raw' : ℕ → SM σ ℝ (Samples ℝ)} (h : SM.Twin (Paired R n) (raw n) (raw' n)) :
    SM.Twin (Paired R' n) (withClips E (lc, rc) raw n none none) (withClips E (lc', rc') raw' n none none) := by
  unfold withClips
  split_ifs with hn
  · exact SM.Twin.throw _
  have hn' : 1 ≤ n := Nat.one_le_iff_ne_zero.2 hn
  refine (SM.Twin.lift (P := fun l l' => l = lc ∧ l' = lc') (Or.inl ⟨lc, lc', rfl, rfl, rfl, rfl⟩)).bind ?_
  rintro l l' ⟨rfl, rfl⟩
  refine (SM.Twin.lift (P := fun r r' => r = rc ∧ r' = rc') (Or.inl ⟨rc, rc', rfl, rfl, rfl, rfl⟩)).bind ?_
  rintro r r' ⟨rfl, rfl⟩
  refine h.bind ?_
  rintro z z' ⟨x, x', hz, hz', hx⟩
  obtain ⟨w, hw, hw'⟩ := applyClips_real E.powf h1 h2 hn' hz
  obtain ⟨v, hv, hv'⟩ := applyClips_real E.powf h3 h4 hn' hz'
  exact SM.Twin.lift (Or.inl ⟨w, v, hw, hv, _, _, hw', hv', fun i => hR _ _ (hx i)⟩)

theorem pickValue_rel {R : ℝ → ℝ → Prop} {n : ℕ} {ws : List ℝ} {pre pre' : List (Samples ℝ)}
    (h : List.Forall₂ (Paired R n) pre pre') (p : Scalar ℝ × ℕ) :
    ExRel (PairedScalar R) (pickValue ws pre p) (pickValue ws pre' p) := by
  have same : ∀ e : PyErr, ExRel (PairedScalar R) (.error e) (.error e) := fun e => Or.inr ⟨e, rfl, rfl⟩
  unfold pickValue
  split
  · rename_i u _
    rcases hp : pickLarge ws u with e | index
    · exact same e
    · simp only
      have hl := h.length_eq
      by_cases hi : index < pre.length
      · have hi' : index < pre'.length := hl ▸ hi
        rw [List.getElem?_eq_getElem hi, List.getElem?_eq_getElem hi']
        obtain ⟨x, x', hx, hx', hR⟩ := List.Forall₂.get h hi hi'
        simp only [List.get_eq_getElem] at hx hx'
        obtain ⟨e1, h1⟩ := forall₂_ofFn.1 hx.2
        obtain ⟨e2, h2⟩ := forall₂_ofFn.1 hx'.2
        simp only
        by_cases hj : p.2 < n
        · rw [List.getElem?_eq_getElem (by rw [e1]; exact hj), List.getElem?_eq_getElem (by rw [e2]; exact hj)]
          exact Or.inl ⟨_, _, rfl, rfl, x ⟨p.2, hj⟩, x' ⟨p.2, hj⟩, h1 ⟨p.2, hj⟩, h2 ⟨p.2, hj⟩, hR _⟩
        · rw [List.getElem?_eq_none (by omega), List.getElem?_eq_none (by omega)]
          exact same _
      · rw [List.getElem?_eq_none (by omega), List.getElem?_eq_none (by omega)]
        exact same _
  · exact same _

/-- Uniform numbers for choosing among components: the same in both runs. -/
theorem drawUniform_rel {E : Env σ ℝ} (hg : FromStandard E.gen) (n : ℕ) :
    SM.Twin (fun us us' => us = us' ∧ us.length = n) (drawSM E (.uniform 0 1) n) (drawSM E (.uniform 0 1) n) := by
  refine SM.Twin.self fun s us s' h => ⟨rfl, ?_⟩
  obtain ⟨r, s1, h1, h2⟩ := hg.uniform n s.rng
  have h2 := h2 0 1 one_pos
  simp only [drawSM, h2] at h
  cases r with
  | ok vs =>
    simp only [Except.map, Prod.mk.injEq, Except.ok.injEq] at h
    rw [← h.1, List.length_map, (h1 vs rfl).1]
  | error e => simp [Except.map] at h

theorem paired_ones {R : ℝ → ℝ → Prop} {n : ℕ} {ss ss' : List (Samples ℝ)} (h : List.Forall₂ (Paired R 1) ss ss')
    (hn : ss.length = n) : ∃ x x' : Fin n → ℝ,
      List.Forall₂ (fun s r => ∃ v, s = .scalar v ∧ IsReal v r) ss (List.ofFn x) ∧
      List.Forall₂ (fun s r => ∃ v, s = .scalar v ∧ IsReal v r) ss' (List.ofFn x') ∧ ∀ i, R (x i) (x' i) := by
  induction h generalizing n with
  | nil =>
    subst hn
    exact ⟨Fin.elim0, Fin.elim0, by simp, by simp, fun i => i.elim0⟩
  | cons hz _ ih =>
    subst hn
    obtain ⟨y, y', h1, h2, h3⟩ := hz
    obtain ⟨v, rfl, hv⟩ := reads_one h1
    obtain ⟨v', rfl, hv'⟩ := reads_one h2
    obtain ⟨x, x', k1, k2, k3⟩ := ih rfl
    refine ⟨Fin.cons (y 0) x, Fin.cons (y' 0) x', ?_, ?_, fun i => ?_⟩
    · show List.Forall₂ _ _ (List.ofFn (n := _ + 1) _)
      rw [List.ofFn_succ]
      exact .cons ⟨v, rfl, hv⟩ (by simpa using k1)
    · show List.Forall₂ _ _ (List.ofFn (n := _ + 1) _)
      rw [List.ofFn_succ]
      exact .cons ⟨v', rfl, hv'⟩ (by simpa using k2)
    · refine Fin.cases ?_ (fun j => ?_) i
      · exact h3 0
      · exact k3 j

theorem mixtureRun_rel {ι : Type} {E : Env σ ℝ} (hg : FromStandard E.gen) {R : ℝ → ℝ → Prop}
    {comp comp' : ι → ℕ → SM σ ℝ (Samples ℝ)} (h : ∀ i m, 1 ≤ m → SM.Twin (Paired R m) (comp i m) (comp' i m))
    (ws : List ℝ) (vals : List ι) {n : ℕ} (hn : 1 ≤ n) :
    SM.Twin (Paired R n) (mixtureRun E comp ws vals n) (mixtureRun E comp' ws vals n) := by
  intro s
  unfold mixtureRun
  rcases (processWeightsValues (fun _ => false) (.list (ws.map some)) .absent
      (.list (vals.map .plain)) false).result with e | ⟨ws', items⟩
  · exact Or.inr ⟨e, s, rfl, rfl⟩
  simp only
  have large : SM.Twin (Paired R n) (mixtureLarge E comp ws' (items.filterMap VItem.plain?) n)
      (mixtureLarge E comp' ws' (items.filterMap VItem.plain?) n) := by
    refine (SM.Twin.mapL (fun i => h i n hn) _).bind fun pre pre' hpre => ?_
    refine (drawUniform_rel hg n).bind ?_
    rintro us _ ⟨rfl, hl⟩
    refine SM.Twin.lift ?_
    rcases ExRel.mapExcept us.zipIdx (fun p _ => pickValue_rel (ws := ws') hpre p) with
      ⟨as, bs, h1, h2, h3, h4⟩ | ⟨e, h1, h2⟩
    · refine Or.inl ⟨_, _, by rw [h1]; rfl, by rw [h2]; rfl, paired_npArray h4 ?_⟩
      rw [h3, List.length_zipIdx, hl]
    · exact Or.inr ⟨e, by rw [h1]; rfl, by rw [h2]; rfl⟩
  have one : SM.Twin (Paired R 1) (mixtureOne E comp ws' (items.filterMap VItem.plain?))
      (mixtureOne E comp' ws' (items.filterMap VItem.plain?)) := by
    refine (drawUniform_rel hg 1).bind ?_
    rintro us _ ⟨rfl, -⟩ s
    split
    · split
      · exact h _ 1 le_rfl s
      · exact Or.inr ⟨_, s, rfl, rfl⟩
    · exact Or.inr ⟨_, s, rfl, rfl⟩
  have small : SM.Twin (Paired R n) (mixtureSmall E comp ws' (items.filterMap VItem.plain?) n)
      (mixtureSmall E comp' ws' (items.filterMap VItem.plain?) n) := by
    refine (one.replicateL n).bind ?_
    rintro ss ss' ⟨hl, hss⟩ s
    obtain ⟨x, x', k1, k2, k3⟩ := paired_ones hss hl
    obtain ⟨w, hw, hw'⟩ := gather_real E k1
    obtain ⟨v, hv, hv'⟩ := gather_real E k2
    split
    · cases hss with
      | cons hz ht =>
        cases ht
        simp only [List.length_cons, List.length_nil, zero_add] at hl
        subst hl
        exact Or.inl ⟨_, _, s, rfl, rfl, hz⟩
    · split
      · rename_i hne _ z
        have : ss.length = 1 := hss.length_eq
        obtain ⟨w, rfl⟩ := List.length_eq_one_iff.1 this
        exact (hne w rfl).elim
      · exact SM.Twin.lift (P := Paired R n) (Or.inl ⟨w, v, hw, hv, x, x', hw', hv', k3⟩) s
  split
  · exact h _ n hn s
  · split_ifs
    · exact large s
    · exact small s

theorem leafSample_rel {E : Env σ ℝ} (hE : E.gen.Lawful) (hexp : ∀ x, 0 < E.exp x) (hg : FromStandard E.gen)
    {R : ℝ → ℝ → Prop} {l l' : Leaf ℝ} (h : LeafLinked R l l') {n : ℕ} (hn : 1 ≤ n) :
    SM.Twin (Paired R n) (leafSample E l n) (leafSample E l' n) := by
  cases h with
  | const h1 h2 h3 => exact SM.Twin.pure ⟨_, _, constSamples_real h1 n, constSamples_real h2 n, fun _ => h3⟩
  | uniform h1 h2 h3 =>
    refine drawSimple_rel (drawSM_rel (Q := fun u => 0 ≤ u ∧ u < 1) (fun s => ?_)
      fun u hu => ⟨_, _, Or.inl rfl, Or.inl rfl, h3 u hu.1 hu.2⟩)
    obtain ⟨r, s', k1, k2⟩ := hg.uniform n s
    exact ⟨r, s', k1, k2 _ _ h1, k2 _ _ h2⟩
  | normal h1 h2 h3 =>
    refine drawSimple_rel (drawSM_rel (Q := fun _ => True) (fun s => ?_)
      fun u _ => ⟨_, _, Or.inl rfl, Or.inl rfl, h3 u⟩)
    obtain ⟨r, s', k1, k2⟩ := hg.normal n s
    exact ⟨r, s', fun us hus => ⟨k1 us hus, fun _ _ => trivial⟩, (k2 _ _ h1).1, (k2 _ _ h2).1⟩
  | lognormal h1 h2 h3 =>
    refine drawSimple_rel (drawSM_rel (Q := fun _ => True) (fun s => ?_)
      fun u _ => ⟨_, _, Or.inl rfl, Or.inl rfl, h3 u⟩)
    obtain ⟨r, s', k1, k2⟩ := hg.normal n s
    exact ⟨r, s', fun us hus => ⟨k1 us hus, fun _ _ => trivial⟩, (k2 _ _ h1).2, (k2 _ _ h2).2⟩
  | exponential h1 h2 h3 =>
    refine drawSimple_rel (drawSM_rel (Q := fun e => 0 ≤ e) (fun s => ?_)
      fun u hu => ⟨_, _, Or.inl rfl, Or.inl rfl, h3 u hu⟩)
    obtain ⟨r, s', k1, k2⟩ := hg.exponential n s
    exact ⟨r, s', k1, k2 _ h1, k2 _ h2⟩
  | gamma h1 h2 h3 =>
    rename_i shape _ _
    refine drawSimple_rel (drawSM_rel (Q := fun e => 0 ≤ e) (fun s => ?_)
      fun u hu => ⟨_, _, Or.inl rfl, Or.inl rfl, h3 u hu⟩)
    obtain ⟨r, s', k1, k2⟩ := hg.gamma shape n s
    exact ⟨r, s', k1, k2 _ h1, k2 _ h2⟩
  | bernoulli h3 =>
    rename_i p p'
    have hd : SM.Twin (fun vs vs' => vs.length = n ∧ List.Forall₂
        (PairedScalar fun u u' => u = u' ∧ 0 ≤ u ∧ u < 1 ∧ (∀ v ∈ vs, ∃ x, v = .flt x) ∧ vs = vs') vs vs')
        (drawSM E (.uniform 0 1) n) (drawSM E (.uniform 0 1) n) := by
      refine SM.Twin.self fun s us s' h => ?_
      obtain ⟨r, s1, h1, h2⟩ := hg.uniform n s.rng
      have h2 := h2 0 1 one_pos
      simp only [drawSM, h2] at h
      cases r with
      | ok vs =>
        simp only [Except.map, Prod.mk.injEq, Except.ok.injEq] at h
        obtain ⟨rfl, -⟩ := h
        refine ⟨by rw [List.length_map, (h1 vs rfl).1], paired_map _ _ vs fun u hu => ?_⟩
        refine ⟨_, _, Or.inl rfl, Or.inl rfl, rfl, ?_, ?_, ?_, rfl⟩
        · simpa using ((h1 vs rfl).2 u hu).1
        · simpa using ((h1 vs rfl).2 u hu).2
        · intro v hv
          obtain ⟨w, -, rfl⟩ := List.mem_map.1 hv
          exact ⟨_, rfl⟩
      | error e => simp [Except.map] at h
    refine hd.bind ?_
    rintro us us' ⟨hl, hus⟩
    refine SM.Twin.lift ?_
    obtain rfl : us = us' := by
      cases hus with
      | nil => rfl
      | cons h1 _ =>
        obtain ⟨_, _, _, _, _, _, _, _, h⟩ := h1
        exact h
    refine (ExRel.mapExcept (P := PairedScalar R) us ?_).bind fun as bs h => ?_
    · intro v hv
      obtain ⟨i, hi, rfl⟩ := List.mem_iff_getElem.1 hv
      obtain ⟨x, x', k1, k2, rfl, k3, k4, k5, -⟩ := List.Forall₂.get hus hi hi
      obtain ⟨y, hy⟩ := k5 _ hv
      simp only [List.get_eq_getElem] at k1
      rw [hy] at k1 ⊢
      rcases k1 with k1 | ⟨_, k1, -⟩
      · cases k1
        exact Or.inl ⟨_, _, rfl, rfl, _, _, Or.inr ⟨_, rfl, rfl⟩, Or.inr ⟨_, rfl, rfl⟩, by
          have := h3 x k3 k4
          push_cast
          convert this using 2 <;> split_ifs <;> simp⟩
      · cases k1
    · exact Or.inl ⟨_, _, rfl, rfl, paired_simplify h.2 (h.1.trans hl)⟩
  | pert h1 h2 h3 h4 =>
    rename_i l m r l' m' r' lam
    have e1 : 1 + lam * (m' - l') / (r' - l') = 1 + lam * (m - l) / (r - l) := by
      rw [mul_div_assoc, mul_div_assoc, h3]
    have e2 : 1 + lam * (r' - m') / (r' - l') = 1 + lam * (r - m) / (r - l) := by
      have hw : r - l ≠ 0 := sub_ne_zero.2 h1.ne'
      have hw' : r' - l' ≠ 0 := sub_ne_zero.2 h2.ne'
      have k : (r - m) / (r - l) = 1 - (m - l) / (r - l) := by field_simp; ring
      have k' : (r' - m') / (r' - l') = 1 - (m' - l') / (r' - l') := by field_simp; ring
      rw [mul_div_assoc, mul_div_assoc, k, k', h3]
    simp only [leafSample, e1, e2]
    have hd : SM.Twin (Paired (fun b b' => b = b' ∧ 0 ≤ b ∧ b ≤ 1) n)
        (drawSimple E (.beta (1 + lam * (m - l) / (r - l)) (1 + lam * (r - m) / (r - l))) n)
        (drawSimple E (.beta (1 + lam * (m - l) / (r - l)) (1 + lam * (r - m) / (r - l))) n) := by
      refine drawSimple_rel (SM.Twin.self fun s us s' h => ?_)
      obtain ⟨k1, k2⟩ := drawSM_lawful hE h
      refine ⟨k1, List.forall₂_same.2 fun v hv => ?_⟩
      obtain ⟨x, rfl, k3, k4⟩ := k2 v hv
      exact ⟨x, x, Or.inl rfl, Or.inl rfl, rfl, k3, k4⟩
    refine hd.bind ?_
    rintro z z' ⟨x, x', hz, hz', hx⟩
    obtain ⟨w, hw, hw'⟩ := mapFlt_real hz fun x => l + x * (r - l)
    obtain ⟨v, hv, hv'⟩ := mapFlt_real hz' fun x => l' + x * (r' - l')
    refine SM.Twin.lift (Or.inl ⟨w, v, hw, hv, _, _, hw', hv', fun i => ?_⟩)
    rw [← (hx i).1]
    exact h4 _ (hx i).2.1 (hx i).2.2
  | same h1 h2 =>
    have hreg : l.Regular := by
      cases l with
      | tdist x y t c =>
        obtain ⟨x, hx, -⟩ := h2 (.str "") trivial
        rcases hx with hx | ⟨_, hx, -⟩ <;> cases hx
      | logtdist x y t c => exact (h1 x y t c rfl).elim
      | _ => trivial
    refine SM.Twin.self fun s z s' h => ?_
    have hs := leafSample_shape hE hreg h
    have hsup := C18_support E hE hexp l n s s' z (withClips_ok.2 ⟨by omega, none, none, z, rfl, rfl, h, rfl⟩)
    have hlen : z.toList.length = n := by
      cases z with
      | scalar v => exact hs.symm
      | arr vs => exact hs.2
    have : ∀ i : Fin n, ∃ x, IsReal (z.toList[i.1]'(by rw [hlen]; exact i.2)) x ∧ R x x := fun i =>
      h2 _ (hsup _ (List.getElem_mem _))
    choose x hx hR using this
    exact ⟨x, x, ⟨hs, forall₂_ofFn.2 ⟨hlen, hx⟩⟩, ⟨hs, forall₂_ofFn.2 ⟨hlen, hx⟩⟩, hR⟩

theorem withClips_rel_none {E : Env σ ℝ} {R : ℝ → ℝ → Prop} {n : ℕ}
    {raw raw' : ℕ → SM σ ℝ (Samples ℝ)} (h : 1 ≤ n → SM.Twin (Paired R n) (raw n) (raw' n)) :
    SM.Twin (Paired R n) (withClips E (none, none) raw n none none) (withClips E (none, none) raw' n none none) := by
  by_cases hn : n = 0
  · simp only [withClips, hn, if_true]
    exact SM.Twin.throw _
  · exact withClips_rel (lc := none) (rc := none) (lc' := none) (rc' := none) (lo := none) (hi := none) (lo' := none) (hi' := none) trivial trivial trivial trivial
      (fun _ _ h => h) (h (Nat.one_le_iff_ne_zero.2 hn))

/-- Sampling keeps the link. -/
theorem linked_rel {E : Env σ ℝ} (hE : E.gen.Lawful) (hexp : ∀ x, 0 < E.exp x) (hg : FromStandard E.gen)
    (hpow : RealPowers E.powf) {R : ℝ → ℝ → Prop} {d d' : Obj (St σ ℝ) ℝ} (h : Linked R d d') (n : ℕ) :
    SM.Twin (Paired R n) (sampleObj E d n none none) (sampleObj E d' n none none) := by
  induction h generalizing n with
  | lit h1 h2 h3 =>
    refine withClips_rel_none fun hn => ?_
    exact SM.Twin.pure ⟨_, _, constSamples_real h1 n, constSamples_real h2 n, fun _ => h3⟩
  | leaf h1 h2 h3 h4 h5 h6 =>
    by_cases hn : n = 0
    · simp only [sampleObj, withClips, hn, if_true]
      exact SM.Twin.throw _
    · exact withClips_rel h2 h3 h4 h5 h6 (leafSample_rel hE hexp hg h1 (Nat.one_le_iff_ne_zero.2 hn))
  | mix h1 h2 h3 h4 h5 h6 ih =>
    by_cases hn : n = 0
    · simp only [sampleObj, withClips, hn, if_true]
      exact SM.Twin.throw _
    · exact withClips_rel h2 h3 h4 h5 h6
        (mixtureRun_rel hg (fun i m _ => ih i m) _ _ (Nat.one_le_iff_ne_zero.2 hn))
  | un h1 h2 h3 ih =>
    refine withClips_rel_none fun hn => ?_
    simp only [rawObj]
    refine (ih n).bind ?_
    rintro z z' ⟨x, x', hz, hz', hx⟩
    obtain ⟨w, hw, hw'⟩ := unSamples_real E h1 hz
    obtain ⟨v, hv, hv'⟩ := unSamples_real E h1 hz'
    exact SM.Twin.lift (Or.inl ⟨w, v, hw, hv, _, _, hw', hv', fun i => h3 _ _ (hx i)⟩)
  | bin h1 h2 h3 h4 ih1 ih2 =>
    refine withClips_rel_none fun hn => ?_
    simp only [rawObj]
    refine (ih1 n).bind ?_
    rintro z z' ⟨x, x', hz, hz', hx⟩
    refine (ih2 n).bind ?_
    rintro w w' ⟨y, y', hw, hw', hy⟩
    obtain ⟨u, hu, hu'⟩ := binSamples_real h1 (fun _ => hpow) hz hw fun i => (h4 _ _ _ _ (hx i) (hy i)).1
    obtain ⟨v, hv, hv'⟩ := binSamples_real h1 (fun _ => hpow) hz' hw' fun i => (h4 _ _ _ _ (hx i) (hy i)).2.1
    exact SM.Twin.lift (Or.inl ⟨u, v, hu, hv, _, _, hu', hv', fun i => (h4 _ _ _ _ (hx i) (hy i)).2.2⟩)

end Verif
