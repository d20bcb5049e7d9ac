import Verif.Lemmas.HeapSample
import Verif.Spec.HeapObjects

/-! # Lemmas for C131: objects and trees give the same samples -/

namespace Verif
open Spec
variable {σ : Type}

theorem heapStore_rng (a : ℕ) : ∀ (ms : List ℕ) (cs : List (List ℝ)) (req : Option (List ℝ)) (s : St σ ℝ),
    (heapStore a ms cs req s).2.rng = s.rng
  | [], _, none, _ => rfl
  | [], _, some _, _ => rfl
  | _ :: _, [], _, _ => rfl
  | b :: bs, c :: cs, req, s => by
    unfold heapStore
    split_ifs
    · exact heapStore_rng a bs cs req _
    · exact heapStore_rng a bs cs _ s

/-- The loop touches no object outside the group, and not the requested one. -/
theorem heapStore_other (a : ℕ) {g b : ℕ} : ∀ (ms : List ℕ) (cs : List (List ℝ)) (req : Option (List ℝ))
    (s : St σ ℝ), g ≠ 0 ∨ b ∉ ms ∨ b = a → (heapStore a ms cs req s).2.left g b = s.left g b
  | [], _, none, _, _ => rfl
  | [], _, some _, _, _ => rfl
  | _ :: _, [], _, _, _ => rfl
  | x :: bs, c :: cs, req, s, h => by
    unfold heapStore
    have h' : g ≠ 0 ∨ b ∉ bs ∨ b = a := by
      rcases h with h | h | h
      · exact Or.inl h
      · exact Or.inr (Or.inl fun hb => h (by simp [hb]))
      · exact Or.inr (Or.inr h)
    split_ifs with hx
    · refine (heapStore_other a bs cs req _ h').trans ?_
      unfold keepCol
      dsimp only
      rw [if_neg]
      rintro ⟨rfl, rfl⟩
      rcases h with h | h | h
      · exact h rfl
      · exact h (by simp)
      · exact hx h.symm
    · exact heapStore_other a bs cs _ s h'

theorem heapStore_none (a : ℕ) : ∀ (ms : List ℕ) (cs : List (List ℝ)) (c : List ℝ) (s : St σ ℝ),
    a ∉ ms → cs.length = ms.length → (heapStore a ms cs (some c) s).1 = .ok (.arr (c.map .flt))
  | [], _, _, _, _, _ => rfl
  | x :: bs, [], _, _, _, h => by simp at h
  | x :: bs, c :: cs, c0, s, h, hl => by
    simp only [List.mem_cons, not_or] at h
    unfold heapStore
    rw [if_pos h.1]
    exact heapStore_none a bs cs c0 _ h.2 (by simpa using hl)

theorem heapStore_result (a : ℕ) : ∀ (ms : List ℕ) (cs : List (List ℝ)) (req : Option (List ℝ)) (s : St σ ℝ)
    (i : ℕ) (c : List ℝ), ms.Nodup → cs.length = ms.length → ms[i]? = some a → cs[i]? = some c →
    (heapStore a ms cs req s).1 = .ok (.arr (c.map .flt))
  | [], _, _, _, i, c, _, _, h, _ => by simp at h
  | x :: bs, [], _, _, _, _, _, h, _, _ => by simp at h
  | x :: bs, c' :: cs, req, s, i, c, hnd, hl, hi, hc => by
    obtain ⟨hx, hnd'⟩ := List.nodup_cons.1 hnd
    have hl' : cs.length = bs.length := by simpa using hl
    unfold heapStore
    cases i with
    | zero =>
      simp only [List.getElem?_cons_zero, Option.some.injEq] at hi hc
      subst hi; subst hc
      rw [if_neg (by simp)]
      exact heapStore_none x bs cs c' s hx hl'
    | succ i =>
      simp only [List.getElem?_cons_succ] at hi hc
      have : a ≠ x := by rintro rfl; exact hx (List.mem_of_getElem? hi)
      rw [if_pos this]
      exact heapStore_result a bs cs req _ i c hnd' hl' hi hc

theorem heapStore_kept (a : ℕ) : ∀ (ms : List ℕ) (cs : List (List ℝ)) (req : Option (List ℝ)) (s : St σ ℝ)
    (j b : ℕ) (c : List ℝ), ms.Nodup → b ≠ a → ms[j]? = some b → cs[j]? = some c →
    (heapStore a ms cs req s).2.left 0 b = some (c.map .flt)
  | [], _, _, _, _, _, _, _, _, h, _ => by simp at h
  | x :: bs, [], _, _, _, _, _, _, _, _, h => by simp at h
  | x :: bs, c' :: cs, req, s, j, b, c, hnd, hb, hj, hc => by
    obtain ⟨hx, hnd'⟩ := List.nodup_cons.1 hnd
    unfold heapStore
    cases j with
    | zero =>
      simp only [List.getElem?_cons_zero, Option.some.injEq] at hj hc
      subst hj; subst hc
      rw [if_pos (Ne.symm hb)]
      refine (heapStore_other a bs cs req _ (Or.inr (Or.inl hx))).trans ?_
      simp [keepCol]
    | succ j =>
      simp only [List.getElem?_cons_succ] at hj hc
      split_ifs
      · exact heapStore_kept a bs cs req _ j b c hnd' hb hj hc
      · exact heapStore_kept a bs cs _ s j b c hnd' hb hj hc

theorem mapL_length {α β : Type} {f : α → SM σ ℝ β} : ∀ {as : List α} {s : St σ ℝ} {a : List β},
    (SM.mapL f as s).1 = .ok a → a.length = as.length
  | [], s, a, h => by
    obtain rfl := Except.ok.inj h
    rfl
  | x :: as, s, a, h => by
    unfold SM.mapL SM.bind at h
    rcases hx : f x s with ⟨e | b, s1⟩ <;> rw [hx] at h <;> dsimp only at h
    · exact absurd h (by simp)
    rcases hy : SM.mapL f as s1 with ⟨e | bs, s2⟩ <;> rw [hy] at h <;> dsimp only at h
    · exact absurd h (by simp)
    obtain rfl := Except.ok.inj h
    have := mapL_length (as := as) (s := s1) (a := bs) (by rw [hy])
    simp [this]

theorem SameStore.steady (H : DHeap HPay) : SteadyRel (SameStore (σ := σ) H) :=
  ⟨fun _ _ h => h.1, fun _ _ _ h => ⟨rfl, h.2⟩⟩

/-- Reading and clearing the samples an object keeps. -/
theorem takeLeft_sim {H : DHeap HPay} (hL : WellLinked H) {g : ℕ} {G : GNode} (hG : H.groups[g]? = some G)
    {i a : ℕ} (hi : G.members[i]? = some a) :
    SM.Sim (SameStore (σ := σ) H) Eq (takeLeft 0 a) (takeLeft g i) := by
  intro s t hst
  have h := hst.2 g G i a hG hi
  unfold takeLeft
  rw [h]
  cases ha : s.left 0 a with
  | none => exact ⟨hst, Or.inl ⟨none, none, rfl, rfl, rfl⟩⟩
  | some xs =>
    refine ⟨⟨hst.1, ?_⟩, Or.inl ⟨some xs, some xs, rfl, rfl, rfl⟩⟩
    intro g' G' i' b hG' hi'
    have hold := hst.2 g' G' i' b hG' hi'
    dsimp only
    by_cases hb : b = a
    · subst hb
      obtain ⟨nd, h1, h2⟩ := (hL g G hG).2 b (List.mem_of_getElem? hi)
      obtain ⟨nd', h1', h2'⟩ := (hL g' G' hG').2 b (List.mem_of_getElem? hi')
      rw [h1] at h1'
      obtain rfl := Option.some.inj h1'
      rw [h2] at h2'
      obtain rfl := Option.some.inj h2'
      rw [hG] at hG'
      obtain rfl := Option.some.inj hG'
      obtain ⟨hlt, e⟩ := List.getElem?_eq_some_iff.1 hi
      obtain ⟨hlt', e'⟩ := List.getElem?_eq_some_iff.1 hi'
      have : i' = i := (List.Nodup.getElem_inj_iff (hL g G hG).1).1 (e'.trans e.symm)
      subst this
      simp
    · rw [if_neg (by rintro ⟨rfl, rfl⟩; rw [hG] at hG'; obtain rfl := Option.some.inj hG'; rw [hi] at hi'; exact hb (Option.some.inj hi').symm),
        if_neg (by rintro ⟨-, rfl⟩; exact hb rfl)]
      exact hold

theorem store_sim {H : DHeap HPay} (hL : WellLinked H) {g : ℕ} {G : GNode} (hG : H.groups[g]? = some G)
    {i a : ℕ} (hi : G.members[i]? = some a) {cols : List (List ℝ)} (hc : cols.length = G.members.length) :
    SM.Sim (SameStore (σ := σ) H) Eq (heapStore a G.members cols none) (storeOthers g i cols) := by
  intro s t hst
  have hnd := (hL g G hG).1
  obtain ⟨hlt, -⟩ := List.getElem?_eq_some_iff.1 hi
  obtain ⟨c, hci⟩ : ∃ c, cols[i]? = some c := ⟨cols[i]'(by omega), List.getElem?_eq_getElem _⟩
  have h1 := heapStore_result a G.members cols none s i c hnd hc hi hci
  unfold storeOthers
  rw [hci]
  refine ⟨⟨?_, ?_⟩, Or.inl ⟨_, _, h1, rfl, rfl⟩⟩
  · rw [heapStore_rng]
    exact hst.1
  intro g' G' j b hG' hj
  dsimp only
  by_cases hg : g' = g
  · subst hg
    rw [hG] at hG'
    obtain rfl := Option.some.inj hG'
    by_cases hji : j = i
    · subst hji
      rw [hi] at hj
      obtain rfl := Option.some.inj hj
      rw [if_neg (by simp), heapStore_other _ _ _ _ _ (Or.inr (Or.inr rfl))]
      exact hst.2 _ _ _ _ hG hi
    · have hb : b ≠ a := by
        rintro rfl
        obtain ⟨h1, e⟩ := List.getElem?_eq_some_iff.1 hi
        obtain ⟨h2, e'⟩ := List.getElem?_eq_some_iff.1 hj
        exact hji ((List.Nodup.getElem_inj_iff hnd).1 (e'.trans e.symm))
      obtain ⟨hltj, -⟩ := List.getElem?_eq_some_iff.1 hj
      have hcj : cols[j]? = some (cols[j]'(by omega)) := List.getElem?_eq_getElem _
      rw [if_pos ⟨rfl, hji⟩, hcj, heapStore_kept a _ _ _ _ j b _ hnd hb hj hcj]
  · rw [if_neg (by rintro ⟨h, -⟩; exact hg h), heapStore_other _ _ _ _ _ (Or.inr (Or.inl ?_))]
    · exact hst.2 _ _ _ _ hG' hj
    · intro hmem
      obtain ⟨nd, h1, h2⟩ := (hL g G hG).2 b hmem
      obtain ⟨nd', h1', h2'⟩ := (hL g' G' hG').2 b (List.mem_of_getElem? hj)
      rw [h1] at h1'
      obtain rfl := Option.some.inj h1'
      rw [h2] at h2'
      exact hg (Option.some.inj h2').symm

theorem Unfolds.clips_eq {H : DHeap HPay} {a : ℕ} {d : Obj (St σ ℝ) ℝ} {corr : Bool}
    (h : Unfolds H corr a d) : ∃ nd, H.nodes[a]? = some nd ∧ d.clips = nd.payload.clips := by
  induction h with
  | leaf hnd hp hg => exact ⟨_, hnd, by rw [hp]; rfl⟩
  | mix hnd hp hg hk hd => exact ⟨_, hnd, by rw [hp]; rfl⟩
  | un hnd hp hk hg hl => exact ⟨_, hnd, by rw [hp]; rfl⟩
  | bin hnd hp hk hg hl hr => exact ⟨_, hnd, by rw [hp]; rfl⟩
  | @corr a g k nd G ms i hnd hg hG hk hi hm ih => exact ih i a hi

theorem heap_refines {X : HEnv σ} {H : DHeap HPay} (hL : WellLinked H) (hX : KeepsColumns X)
    (hI : ∀ (g : ℕ) (G : GNode), H.groups[g]? = some G → X.E.induce g = X.induce G.info)
    {a : ℕ} {d : Obj (St σ ℝ) ℝ} {corr : Bool} (h : Unfolds H corr a d) :
    ∃ N, ∀ fuel, N ≤ fuel → ∀ n lc rc,
      SM.Sim (SameStore H) Eq (heapSample X H fuel a corr n lc rc) (sampleObj X.E d n lc rc) := by
  have key : ∀ {fuel a corr} {nd : DNode HPay} {d : Obj (St σ ℝ) ℝ}, H.nodes[a]? = some nd → d.clips = nd.payload.clips →
      (∀ n, SM.Sim (SameStore H) Eq
        (heapRaw X H (fun b c m => heapSample X H fuel b c m none none) a nd corr n) (rawObj X.E d n)) →
      ∀ n lc rc, SM.Sim (SameStore H) Eq (heapSample X H (fuel + 1) a corr n lc rc) (sampleObj X.E d n lc rc) := by
    intro fuel a corr nd d hnd hcl hraw n lc rc
    unfold heapSample sampleObj
    rw [hnd, hcl]
    exact withClips_sim X.E _ (fun _ => hraw n) lc rc
  have plain : ∀ {corr : Bool} {nd : DNode HPay} {rec a n}, (corr = false ∨ nd.group = none) →
      heapRaw X H rec a nd corr n = heapDispatch X rec nd n := by
    intro corr nd rec a n h
    unfold heapRaw
    rcases h with rfl | h
    · rfl
    · rw [h]; cases corr <;> rfl
  induction h with
  | @leaf corr a nd l lc rc hnd hp hg =>
    refine ⟨1, fun fuel hf => ?_⟩
    obtain ⟨fuel, rfl⟩ := Nat.exists_eq_add_of_le' hf
    refine key hnd (by rw [hp]; rfl) fun n => ?_
    rw [plain hg]
    unfold heapDispatch
    rw [hp]
    exact leafSample_sim (SameStore.steady H) X.E l n
  | @mix corr a k nd ws lc rc ds hnd hp hg hk hd ih =>
    subst hk
    choose N hN using fun i : Fin nd.kids.length => ih i nd.kids[i] (List.getElem?_eq_getElem _)
    refine ⟨Finset.univ.sup N + 1, fun fuel hf => ?_⟩
    obtain ⟨fuel, rfl⟩ : ∃ k, fuel = k + 1 := ⟨fuel - 1, by omega⟩
    refine key hnd (by rw [hp]; rfl) fun n => ?_
    rw [plain hg]
    unfold heapDispatch
    rw [hp]
    exact mixtureRun_sim (SameStore.steady H) X.E (fun i m => hN i fuel
      ((Finset.le_sup (f := N) (Finset.mem_univ i)).trans (by omega)) m none none) ws _ n
  | @un corr a l nd f d hnd hp hk hg hl ih =>
    obtain ⟨N, hN⟩ := ih
    refine ⟨N + 1, fun fuel hf => ?_⟩
    obtain ⟨fuel, rfl⟩ : ∃ k, fuel = k + 1 := ⟨fuel - 1, by omega⟩
    refine key hnd (by rw [hp]; rfl) fun n => ?_
    rw [plain hg]
    unfold heapDispatch
    rw [hp, hk]
    refine SM.Sim.bind (hN fuel (by omega) n none none) ?_
    rintro x _ rfl
    exact SM.Sim.lift _
  | @bin corr a l r nd f d e hnd hp hk hg hl hr ihl ihr =>
    obtain ⟨N, hN⟩ := ihl
    obtain ⟨M, hM⟩ := ihr
    refine ⟨N + M + 1, fun fuel hf => ?_⟩
    obtain ⟨fuel, rfl⟩ : ∃ k, fuel = k + 1 := ⟨fuel - 1, by omega⟩
    refine key hnd (by rw [hp]; rfl) fun n => ?_
    rw [plain hg]
    unfold heapDispatch
    rw [hp, hk]
    refine SM.Sim.bind (hN fuel (by omega) n none none) ?_
    rintro x _ rfl
    refine SM.Sim.bind (hM fuel (by omega) n none none) ?_
    rintro y _ rfl
    exact SM.Sim.lift _
  | @corr a g k nd G ms i hnd hg hG hk hi' hm ih =>
    subst hk
    choose N hN using fun j : Fin G.members.length => ih j G.members[j] (List.getElem?_eq_getElem _)
    refine ⟨Finset.univ.sup N + 1, fun fuel hf => ?_⟩
    obtain ⟨fuel, rfl⟩ : ∃ k, fuel = k + 1 := ⟨fuel - 1, by omega⟩
    refine key hnd ?_ fun n => ?_
    · obtain ⟨nd', h1, h2⟩ := Unfolds.clips_eq (hm i a hi')
      rw [hnd] at h1
      obtain rfl := Option.some.inj h1
      exact h2
    · unfold heapRaw
      rw [hg]
      dsimp only
      rw [rawObj]
      refine SM.Sim.bind (takeLeft_sim hL hG hi') ?_
      rintro kept _ rfl
      intro s t hst
      cases kept with
      | some xs => exact SM.Sim.pure rfl s t hst
      | none =>
        dsimp only
        unfold heapGroup
        rw [hG]
        dsimp only
        have hcols : SM.Sim (SameStore H) (fun x y => x = y ∧ x.length = G.members.length)
            (SM.mapL (fun b => SM.bind (heapSample X H fuel b false n none none) fun x => SM.lift (toColumn n x))
              G.members)
            (SM.mapL (fun j => SM.bind (withClips X.E (ms j).clips (rawObj X.E (ms j)) n none none) fun x =>
              SM.lift (toColumn n x)) (List.finRange _)) := by
          have h1 := SM.Sim.mapL (I := SameStore (σ := σ) H) (R := fun b j => b = G.members[j]) (Q := Eq)
            (f := fun b => SM.bind (heapSample X H fuel b false n none none) fun x => SM.lift (toColumn n x))
            (f' := fun j => SM.bind (withClips X.E (ms j).clips (rawObj X.E (ms j)) n none none) fun x =>
              SM.lift (toColumn n x)) (as := G.members) (bs := List.finRange _) ?_ ?_
          · intro s t hst
            obtain ⟨h2, ⟨x, y, h3, h4, h5⟩ | h3⟩ := h1 s t hst
            · refine ⟨h2, Or.inl ⟨x, y, h3, h4, List.forall₂_eq_eq_eq ▸ h5, ?_⟩⟩
              exact mapL_length (a := x) (by rw [← h3])
            · exact ⟨h2, Or.inr h3⟩
          · rw [List.forall₂_iff_get]
            refine ⟨by simp, fun k h1 h2 => by simp⟩
          · rintro b j rfl
            refine SM.Sim.bind (hN j fuel ((Finset.le_sup (f := N) (Finset.mem_univ j)).trans (by omega))
              n none none) ?_
            rintro x _ rfl
            exact SM.Sim.lift _
        refine SM.Sim.bind hcols ?_ s t hst
        rintro cols _ ⟨rfl, hlen⟩
        rw [hI g G hG]
        have : SM.Sim (SameStore (σ := σ) H) (fun x y => x = y ∧ x.length = G.members.length)
            (SM.lift (X.induce G.info cols)) (SM.lift (X.induce G.info cols)) := by
          intro s t hst
          refine ⟨hst, ?_⟩
          rcases hr : X.induce G.info cols with e | cols'
          · exact Or.inr ⟨e, rfl, rfl⟩
          · exact Or.inl ⟨_, _, rfl, rfl, rfl, (hX _ _ _ hr).trans hlen⟩
        refine SM.Sim.bind this ?_
        rintro cols' _ ⟨rfl, hlen'⟩
        exact store_sim hL hG hi' hlen'

end Verif
