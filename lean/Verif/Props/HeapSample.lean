import Verif.Lemmas.HeapCorrelate

/-!
# C131: sampling the objects that `correlate` returns

`Verif/Model/HeapSample.lean` follows references between objects; the rest of the development describes a
distribution by a tree.  Here: both give the same samples whenever the references end, in particular for the
results of `correlate` on different variables none of which is made of another.  In the remaining cases the
library does not do what is documented.
-/

namespace Verif
open Spec
variable {σ : Type}

/-- **C131.** If following the references from an object ends, sampling the object gives exactly what sampling the
tree gives: the same values or the same exception, and the same samples kept for later, provided the recursion
limit is large enough. -/
theorem C131_refines (X : HEnv σ) {H : DHeap HPay} (hL : WellLinked H) (hX : KeepsColumns X) {a : ℕ}
    {d : Obj (St σ ℝ) ℝ} (h : Unfolds H true a d) :
    ∃ N, ∀ fuel, N ≤ fuel → ∀ n lc rc s t, SameStore H s t →
      (heapSample X H fuel a true n lc rc s).1 = (sampleObj (treeEnv X H) d n lc rc t).1 ∧
      SameStore H (heapSample X H fuel a true n lc rc s).2 (sampleObj (treeEnv X H) d n lc rc t).2 := by
  obtain ⟨N, hN⟩ := heap_refines (X := ⟨treeEnv X H, X.induce⟩) hL hX
    (fun g G hG => by funext cols; simp [treeEnv, hG]) h
  refine ⟨N, fun fuel hf n lc rc s t hst => ?_⟩
  have h1 := hN fuel hf n lc rc s t hst
  have e : heapSample ⟨treeEnv X H, X.induce⟩ H fuel = heapSample X H fuel := heapSample_withInduce X H _ fuel
  rw [e] at h1
  refine ⟨?_, h1.1⟩
  rcases h1.2 with ⟨x, y, h2, h3, rfl⟩ | ⟨err, h2, h3⟩
  · rw [h2]; exact h3.symm
  · rw [h2]; exact h3.symm

/-- **C131.** The variables that `correlate` returns for different variables, none of them made of another, are
sampled as members of one new group whose members are the given distributions: what is known about sampling
correlated variables holds for them. -/
theorem C131_correlated_partial (X : HEnv σ) (hX : KeepsColumns X) {h : DHeap HPay} (hL : WellLinked h) {vars : List ℕ}
    (hv : vars.Nodup) {corr : CorrArg} {tol : Option ℝ} {mu : ℕ} {out : List ℕ}
    (hok : (correlate h vars corr tol mu).1 = .ok out) (d : ℕ → Obj (St σ ℝ) ℝ)
    (hd : ∀ v ∈ vars, Unfolds h false v (d v)) (hsep : ∀ u ∈ vars, ∀ v ∈ vars, ¬ MadeOf h u v) :
    ∃ g r N, ∀ (i : Fin vars.length) (a : ℕ), out[i.1]? = some a →
      ∀ fuel, N ≤ fuel → ∀ n lc rc s t, SameStore (correlate h vars corr tol mu).2 s t →
        (heapSample X (correlate h vars corr tol mu).2 fuel a true n lc rc s).1 =
          (sampleObj (treeEnv X (correlate h vars corr tol mu).2)
            (.corr g vars.length (fun j => relabel r (d vars[j])) i) n lc rc t).1 ∧
        SameStore (correlate h vars corr tol mu).2
          (heapSample X (correlate h vars corr tol mu).2 fuel a true n lc rc s).2
          (sampleObj (treeEnv X (correlate h vars corr tol mu).2)
            (.corr g vars.length (fun j => relabel r (d vars[j])) i) n lc rc t).2 := by
  have hL' := correlate_linked hL hv hok
  obtain ⟨info, hG⟩ := correlate_new_group hok
  have hout := correlate_out hok
  have hu : ∀ (i : Fin vars.length) (a : ℕ), out[i.1]? = some a →
      Unfolds (correlate h vars corr tol mu).2 true a
        (.corr (newGroup h) vars.length (fun j => relabel (h.groups.length + ·) (d vars[j])) i) := by
    intro i a hi
    have ha : a = h.nodes.length + vars[i] := by
      rw [hout, List.getElem?_map, List.getElem?_eq_getElem i.2] at hi
      exact (Option.some.inj hi).symm
    obtain ⟨nd, h1, h2⟩ := correlate_var hok (v := vars[i]) (List.getElem_mem _)
    have hc := correlate_copy hok h1
    rw [if_pos (show vars[i] ∈ vars from List.getElem_mem _)] at hc
    rw [← ha] at hc
    refine .corr hc rfl hG (by simp [hout]) hi ?_
    intro j b hb
    have hb' : b = h.nodes.length + vars[j] := by
      rw [hout, List.getElem?_map, List.getElem?_eq_getElem j.2] at hb
      exact (Option.some.inj hb).symm
    rw [hb']
    exact correlate_unfolds hok (hd _ (List.getElem_mem _)) (fun h => by simp at h)
      fun b hb hbv => hsep _ (List.getElem_mem _) b hbv hb
  have hlen : out.length = vars.length := by simp [hout]
  choose N hN using fun i : Fin vars.length =>
    C131_refines X hL' hX (hu i (out[i.1]'(by rw [hlen]; exact i.2)) (List.getElem?_eq_getElem _))
  refine ⟨newGroup h, (h.groups.length + ·), Finset.univ.sup N, fun i a hi fuel hf n lc rc s t hst => ?_⟩
  have : out[i.1]'(by rw [hlen]; exact i.2) = a := (List.getElem?_eq_some_iff.1 hi).2
  rw [← this]
  exact hN i fuel ((Finset.le_sup (f := N) (Finset.mem_univ i)).trans hf) n lc rc s t hst

/-- **C131 fails for a variable built from another**: if one of the variables is an expression in which another
occurs, as in `correlate((x, x + 1), r)`, none of the returned variables can ever be sampled, whatever the recursion
limit, the number of samples and the random numbers. -/
theorem C131_built_from_fails (X : HEnv σ) {h : DHeap HPay} (hL : PointsBack h) {vars : List ℕ} {corr : CorrArg}
    {tol : Option ℝ} {mu : ℕ} {out : List ℕ} (s : St σ ℝ)
    (hok : (correlateSt h vars corr tol mu s).1 = .ok out) (hs : ∀ v ∈ vars, s.left 0 v = none) {u v : ℕ}
    (hu : u ∈ vars) (hv : v ∈ vars) (huv : BuiltFrom h u v) {w : ℕ} (hw : w ∈ out) (fuel n : ℕ)
    (lc rc : Option (Scalar ℝ)) (z : Samples ℝ) :
    (heapSample X (correlateSt h vars corr tol mu s).2.1 fuel w true n lc rc
      (correlateSt h vars corr tol mu s).2.2).1 ≠ .ok z := by
  change (correlate h vars corr tol mu).1 = .ok out at hok
  obtain ⟨info, hG⟩ := correlate_new_group hok
  have hout := correlate_out hok
  have hclean : Clean out (correlateSt h vars corr tol mu s).2.2 := by
    intro b hb
    rw [hout] at hb
    obtain ⟨x, hx, rfl⟩ := List.mem_map.1 hb
    obtain ⟨nd, h1, -⟩ := correlate_var hok hx
    obtain ⟨hlt, -⟩ := List.getElem?_eq_some_iff.1 h1
    unfold correlateSt
    dsimp only
    rw [if_pos ⟨rfl, by omega, by rw [correlate_length hok]; omega⟩, Nat.add_sub_cancel_left]
    exact hs x hx
  obtain ⟨b, hub, hbv⟩ := Relation.TransGen.head'_iff.1 huv
  obtain ⟨nd, h1, h2, h3, h4⟩ := hub
  have hcu := correlate_copy hok h1
  rw [if_pos hu] at hcu
  have hmemu : h.nodes.length + u ∈ out := by rw [hout]; exact List.mem_map_of_mem hu
  have hst := (heap_stuck (X := X) (correlate_pointsBack hL hok) hG hmemu hcu h4
    (b := h.nodes.length + b) (by simp [DNode.shift, h3]) (correlate_doomed hok hv hbv) fuel).2.1
  refine hst w n lc rc ?_ _ hclean z
  rw [hout] at hw
  obtain ⟨x, hx, rfl⟩ := List.mem_map.1 hw
  exact correlate_doomed hok hx .refl

/-- A read of the object at an address: recursion limit, address, number of samples and bounds. -/
structure HRead where
  fuel : ℕ
  a : ℕ
  n : ℕ
  lc : Option (Scalar ℝ)
  rc : Option (Scalar ℝ)

/-- The state after a sequence of reads, each of which may also raise. -/
noncomputable def afterReads (X : HEnv σ) (H : DHeap HPay) (rs : List HRead) (s : St σ ℝ) : St σ ℝ :=
  rs.foldl (fun s r => (heapSample X H r.fuel r.a true r.n r.lc r.rc s).2) s

/-- **C131 fails for a variable given twice**: both results of `correlate((x, x), r)` are the same object, and no
joint draw ever leaves samples for it; however often and in whatever order variables are sampled, each read of the
one or the other result starts a draw of its own. -/
theorem C131_twice_fails (X : HEnv σ) {h : DHeap HPay} (hL : PointsBack h) (hW : NoDangling h) {v : ℕ} {corr : CorrArg}
    {tol : Option ℝ} {mu : ℕ} {out : List ℕ} (s : St σ ℝ)
    (hok : (correlateSt h [v, v] corr tol mu s).1 = .ok out) (hs : s.left 0 v = none) :
    ∃ c, out = [c, c] ∧ ∀ rs, (afterReads X (correlateSt h [v, v] corr tol mu s).2.1 rs
      (correlateSt h [v, v] corr tol mu s).2.2).left 0 c = none := by
  change (correlate h [v, v] corr tol mu).1 = .ok out at hok
  have hout := correlate_out hok
  obtain ⟨info, hG⟩ := correlate_new_group hok
  obtain ⟨nd, h1, -⟩ := correlate_var hok (v := v) (by simp)
  obtain ⟨hlt, -⟩ := List.getElem?_eq_some_iff.1 h1
  refine ⟨h.nodes.length + v, by simpa using hout, ?_⟩
  have hpb := correlate_pointsBack hL hok
  have hinv : ∀ fuel a corr' n lc rc, SM.Inv (Clean [h.nodes.length + v])
      (heapSample X (correlate h [v, v] corr tol mu).2 fuel a corr' n lc rc) := by
    refine fun fuel => heap_inv (clean_steady _) ?_ ?_ fuel
    · intro a s hs x hx
      unfold takeLeft
      cases s.left 0 a with
      | none => exact hs x hx
      | some xs =>
        dsimp only
        split_ifs
        · rfl
        · exact hs x hx
    · intro a nd' g G cols hnd' hg hG' s hs x hx
      rw [List.mem_singleton] at hx
      subst hx
      by_cases hmem : h.nodes.length + v ∈ G.members
      · -- the group is the new one, and only the object itself has it
        have hcv := correlate_copy hok h1
        rw [if_pos (by simp)] at hcv
        obtain ⟨nd2, h2, h3⟩ := hpb g G hG' _ hmem
        rw [hcv] at h2
        obtain rfl := Option.some.inj h2
        obtain rfl : newGroup h = g := Option.some.inj h3
        have ha : a = h.nodes.length + v := by
          obtain ⟨hlt', -⟩ := List.getElem?_eq_some_iff.1 hnd'
          rw [correlate_length hok] at hlt'
          by_cases hlow : a < h.nodes.length
          · rw [(C34_originals h [v, v] corr tol mu).1 a hlow] at hnd'
            have := hW a nd' _ hnd' hg
            unfold newGroup at this
            omega
          · obtain ⟨x, rfl⟩ := Nat.exists_eq_add_of_le (not_lt.1 hlow)
            have hx : h.nodes[x]? = some (h.nodes[x]'(by omega)) := List.getElem?_eq_getElem _
            rw [correlate_copy hok hx] at hnd'
            by_cases hxv : x ∈ [v, v]
            · have : x = v := by simpa using hxv
              rw [this]
            · rw [if_neg hxv] at hnd'
              obtain rfl := Option.some.inj hnd'
              simp only [DNode.shift, Option.map_eq_some_iff] at hg
              obtain ⟨g0, hg0, hg1⟩ := hg
              have := hW x _ g0 hx hg0
              unfold newGroup at hg1
              omega
        rw [heapStore_other _ _ _ _ _ (Or.inr (Or.inr ha.symm))]
        exact hs _ (by simp)
      · rw [heapStore_other _ _ _ _ _ (Or.inr (Or.inl hmem))]
        exact hs _ (by simp)
  have h0 : Clean [h.nodes.length + v] (correlateSt h [v, v] corr tol mu s).2.2 := by
    intro b hb
    rw [List.mem_singleton] at hb
    subst hb
    unfold correlateSt
    dsimp only
    rw [if_pos ⟨rfl, by omega, by rw [correlate_length hok]; omega⟩, Nat.add_sub_cancel_left]
    exact hs
  intro rs
  have : Clean [h.nodes.length + v] (afterReads X (correlate h [v, v] corr tol mu).2 rs
      (correlateSt h [v, v] corr tol mu s).2.2) := by
    revert h0
    generalize (correlateSt h [v, v] corr tol mu s).2.2 = s0
    induction rs generalizing s0 with
    | nil => exact fun h0 => h0
    | cons r rs ih => exact fun h0 => ih _ (hinv r.fuel r.a true r.n r.lc r.rc s0 h0)
  exact this _ (by simp)

theorem heapSample_kept (X : HEnv σ) {H : DHeap HPay} {a g : ℕ} {nd : DNode HPay} (hnd : H.nodes[a]? = some nd)
    (hg : nd.group = some g) (hcl : nd.payload.clips = (none, none)) {s : St σ ℝ} {xs : List (Scalar ℝ)}
    (hs : s.left 0 a = some xs) (fuel : ℕ) {n : ℕ} (hn : n ≠ 0) :
    heapSample X H (fuel + 1) a true n none none s =
      (.ok (.arr xs), { s with left := fun g' j => if g' = 0 ∧ j = a then none else s.left g' j }) := by
  have e : heapSample X H (fuel + 1) a true n none none = SM.bind (SM.lift (combineL none none)) fun l =>
      SM.bind (SM.lift (combineR none none)) fun r =>
      SM.bind (heapRaw X H (fun b c m => heapSample X H fuel b c m none none) a nd true n) fun x =>
      SM.lift (applyClips X.E.powf l r x) := by
    rw [heapSample, hnd]
    dsimp only
    rw [hcl, withClips, if_neg hn]
  rw [e]
  simp only [heapRaw, hg, SM.bind, SM.lift, combineL, combineR, takeLeft, hs, SM.pure]
  rfl

/-- **C131 fails for samples that are still kept**: if an object keeps samples of an earlier joint draw, `correlate`
copies them together with the object.  The object and its copy, which is what the returned variables refer to, then
both return those very samples, to two parts of the program that should have drawn separately. -/
theorem C131_pending_fails (X : HEnv σ) {h : DHeap HPay} {vars : List ℕ} {corr : CorrArg} {tol : Option ℝ} {mu : ℕ}
    {out : List ℕ} (s : St σ ℝ) (hok : (correlateSt h vars corr tol mu s).1 = .ok out) {b g : ℕ} {nd : DNode HPay}
    (hb : h.nodes[b]? = some nd) (hg : nd.group = some g) (hcl : nd.payload.clips = (none, none))
    {xs : List (Scalar ℝ)} (hs : s.left 0 b = some xs) :
    ∃ b', b' ≠ b ∧ (∀ (i u u' : ℕ), vars[i]? = some u → out[i]? = some u' → RefersTo h u b →
        RefersTo (correlateSt h vars corr tol mu s).2.1 u' b') ∧
      ∀ fuel fuel' n n', n ≠ 0 → n' ≠ 0 →
        ∃ s', heapSample X (correlateSt h vars corr tol mu s).2.1 (fuel + 1) b true n none none
            (correlateSt h vars corr tol mu s).2.2 = (.ok (.arr xs), s') ∧
          (heapSample X (correlateSt h vars corr tol mu s).2.1 (fuel' + 1) b' true n' none none s').1 =
            .ok (.arr xs) := by
  change (correlate h vars corr tol mu).1 = .ok out at hok
  obtain ⟨hlt, -⟩ := List.getElem?_eq_some_iff.1 hb
  have hbv : b ∉ vars := by
    intro hbv
    obtain ⟨nd', h1, h2⟩ := correlate_var hok hbv
    rw [hb] at h1
    obtain rfl := Option.some.inj h1
    rw [hg] at h2
    exact absurd h2 (by simp)
  refine ⟨h.nodes.length + b, by omega, ?_, ?_⟩
  · rintro i u u' hu hu' ⟨ndu, h1, h2⟩
    have hmem := List.mem_of_getElem? hu
    obtain ⟨nd', h3, h4⟩ := correlate_var hok hmem
    rw [h1] at h3
    obtain rfl := Option.some.inj h3
    have hkid : b ∈ ndu.kids := by
      rcases h2 with h2 | ⟨g', G, h5, -⟩
      · exact h2
      · rw [h4] at h5
        exact absurd h5 (by simp)
    obtain rfl : h.nodes.length + u = u' := by
      rw [correlate_out hok, List.getElem?_map, hu] at hu'
      exact Option.some.inj hu'
    refine ⟨_, correlate_copy hok h1, Or.inl ?_⟩
    rw [if_pos hmem]
    simp [DNode.shift, hkid]
  · intro fuel fuel' n n' hn hn'
    have e1 : (correlateSt h vars corr tol mu s).2.2.left 0 b = some xs := by
      unfold correlateSt
      dsimp only
      rw [if_neg (by omega)]
      exact hs
    have e2 : (correlateSt h vars corr tol mu s).2.2.left 0 (h.nodes.length + b) = some xs := by
      unfold correlateSt
      dsimp only
      rw [if_pos ⟨rfl, by omega, by rw [correlate_length hok]; omega⟩, Nat.add_sub_cancel_left]
      exact hs
    refine ⟨_, heapSample_kept X (((C34_originals h vars corr tol mu).1 b hlt).trans hb) hg hcl e1 fuel hn, ?_⟩
    have hc := correlate_copy hok hb
    rw [if_neg hbv] at hc
    refine congrArg Prod.fst (heapSample_kept X (H := (correlateSt h vars corr tol mu s).2.1) hc
      (g := h.groups.length + g) (by simp [DNode.shift, hg]) hcl (xs := xs) ?_ fuel' hn')
    dsimp only
    rw [if_neg (by omega)]
    exact e2

/-! ## Every heap a program builds -/

theorem deepcopy_node {h : DHeap HPay} {a : ℕ} {nd : DNode HPay} (hnd : h.deepcopy.nodes[a]? = some nd) :
    (a < h.nodes.length ∧ h.nodes[a]? = some nd) ∨
      ∃ x nd0, a = h.nodes.length + x ∧ h.nodes[x]? = some nd0 ∧ nd = nd0.shift h.nodes.length h.groups.length := by
  unfold DHeap.deepcopy at hnd
  dsimp only at hnd
  by_cases hlow : a < h.nodes.length
  · rw [List.getElem?_append_left hlow] at hnd
    exact Or.inl ⟨hlow, hnd⟩
  · rw [List.getElem?_append_right (by omega), List.getElem?_map, Option.map_eq_some_iff] at hnd
    obtain ⟨nd0, h1, rfl⟩ := hnd
    exact Or.inr ⟨_, nd0, by omega, h1, rfl⟩

theorem deepcopy_group {h : DHeap HPay} {g : ℕ} {G : GNode} (hG : h.deepcopy.groups[g]? = some G) :
    (g < h.groups.length ∧ h.groups[g]? = some G) ∨
      ∃ x G0, g = h.groups.length + x ∧ h.groups[x]? = some G0 ∧ G = G0.shift h.nodes.length := by
  unfold DHeap.deepcopy at hG
  dsimp only at hG
  by_cases hlow : g < h.groups.length
  · rw [List.getElem?_append_left hlow] at hG
    exact Or.inl ⟨hlow, hG⟩
  · rw [List.getElem?_append_right (by omega), List.getElem?_map, Option.map_eq_some_iff] at hG
    obtain ⟨nd0, h1, rfl⟩ := hG
    exact Or.inr ⟨_, nd0, by omega, h1, rfl⟩

theorem deepcopy_wellformed {h : DHeap HPay} (hb : PointsBack h) (hw : NoDangling h) :
    PointsBack h.deepcopy ∧ NoDangling h.deepcopy ∧ (WellLinked h → WellLinked h.deepcopy) := by
  have hbc : PointsBack h.deepcopy := by
    intro g G hG b hbG
    rcases deepcopy_group hG with ⟨-, h1⟩ | ⟨x, G0, rfl, h1, rfl⟩
    · obtain ⟨nd, h2, h3⟩ := hb g G h1 b hbG
      obtain ⟨hlt, -⟩ := List.getElem?_eq_some_iff.1 h2
      exact ⟨nd, by simpa [DHeap.deepcopy, List.getElem?_append_left hlt] using h2, h3⟩
    · simp only [GNode.shift, List.mem_map] at hbG
      obtain ⟨y, hy, rfl⟩ := hbG
      obtain ⟨nd, h2, h3⟩ := hb x G0 h1 y hy
      refine ⟨nd.shift h.nodes.length h.groups.length, ?_, by simp [DNode.shift, h3]⟩
      simp only [DHeap.deepcopy]
      rw [List.getElem?_append_right (by omega), Nat.add_sub_cancel_left, List.getElem?_map, h2]
      rfl
  refine ⟨hbc, ?_, ?_⟩
  · intro a nd g hnd hg
    have hl : h.deepcopy.groups.length = h.groups.length + h.groups.length := by simp [DHeap.deepcopy]
    rcases deepcopy_node hnd with ⟨-, h1⟩ | ⟨x, nd0, rfl, h1, rfl⟩
    · have := hw a nd g h1 hg
      omega
    · simp only [DNode.shift, Option.map_eq_some_iff] at hg
      obtain ⟨g0, h2, rfl⟩ := hg
      have := hw x nd0 g0 h1 h2
      omega
  · intro hl g G hG
    refine ⟨?_, hbc g G hG⟩
    rcases deepcopy_group hG with ⟨-, h1⟩ | ⟨x, G0, rfl, h1, rfl⟩
    · exact (hl g G h1).1
    · exact (hl x G0 h1).1.map fun a b hab => by simpa using hab

/-- **C131.** The conditions on the heap hold for everything a program can build: the members of a group have that
group, the group of an object exists, and if no call is given a variable twice no group lists a member twice. -/
theorem C131_program {distinct : Prop} {H : DHeap HPay} (h : Program distinct H) :
    PointsBack H ∧ NoDangling H ∧ (distinct → WellLinked H) := by
  induction h with
  | start => exact ⟨fun g G hG => by simp at hG, fun a nd g hnd => by simp at hnd, fun _ g G hG => by simp at hG⟩
  | @make H _ p kids ih =>
    obtain ⟨h1, h2, h3⟩ := ih
    have hnew : ∀ {b : ℕ} {nd : DNode HPay}, H.nodes[b]? = some nd →
        (H.nodes ++ [(⟨p, kids, none⟩ : DNode HPay)])[b]? = some nd := by
      intro b nd hb
      obtain ⟨hlt, -⟩ := List.getElem?_eq_some_iff.1 hb
      rw [List.getElem?_append_left hlt]
      exact hb
    have hp : PointsBack ⟨H.nodes ++ [⟨p, kids, none⟩], H.groups⟩ := by
      intro g G hG b hb
      obtain ⟨nd, h4, h5⟩ := h1 g G hG b hb
      exact ⟨nd, hnew h4, h5⟩
    refine ⟨hp, ?_, fun hd g G hG => ⟨(h3 hd g G hG).1, hp g G hG⟩⟩
    intro a nd g hnd hg
    dsimp only at hnd ⊢
    by_cases ha : a < H.nodes.length
    · rw [List.getElem?_append_left ha] at hnd
      exact h2 a nd g hnd hg
    · rw [List.getElem?_append_right (by omega)] at hnd
      obtain ⟨h5, h6⟩ := List.getElem?_eq_some_iff.1 hnd
      simp only [List.getElem_singleton] at h6
      rw [← h6] at hg
      exact absurd hg (by simp)
  | @corr H _ vars c tol mu hd ih =>
    obtain ⟨h1, h2, h3⟩ := ih
    rcases hr : (correlate H vars c tol mu).1 with e | out
    · have : (correlate H vars c tol mu).2 = H ∨ (correlate H vars c tol mu).2 = H.deepcopy := by
        revert hr
        unfold correlate mkGroup
        split_ifs
        · exact fun _ => Or.inl rfl
        · split
          · exact fun _ => Or.inl rfl
          · split
            · exact fun _ => Or.inl rfl
            · dsimp only
              split
              · rename_i hx
                split at hx
                · intro _
                  exact Or.inr (Prod.mk.inj hx).2.symm
                · simp at hx
              · rename_i hx
                intro h
                simp at h
      obtain ⟨h4, h5, h6⟩ := deepcopy_wellformed h1 h2
      rcases this with e | e
      · rw [e]; exact ⟨h1, h2, h3⟩
      · rw [e]; exact ⟨h4, h5, fun hdd => h6 (h3 hdd)⟩
    · refine ⟨correlate_pointsBack h1 hr, ?_, fun hdd => correlate_linked (h3 hdd) (hd hdd) hr⟩
      obtain ⟨m, -, -, hheap⟩ := correlate_heap hr
      obtain ⟨-, h5, -⟩ := deepcopy_wellformed h1 h2
      intro a nd g hnd hg
      rw [hheap] at hnd ⊢
      dsimp only at hnd ⊢
      rw [foldl_link_get, Option.map_eq_some_iff] at hnd
      obtain ⟨nd0, h6, rfl⟩ := hnd
      rw [List.length_append, List.length_singleton]
      split_ifs at hg
      · have := Option.some.inj hg
        omega
      · have := h5 a nd0 g h6 hg
        omega

/-! ## Examples -/

/-- A generator that counts: each value is its own number. -/
noncomputable def countEnv : HEnv ℕ where
  E := { gen := { draw := fun _ n k => (.ok ((List.range' k n).map fun i : ℕ => .flt (i : ℝ)), k + n) }
         exp := fun x => x, log := fun x => x, powf := fun _ _ => none, ppf := fun x => x, fmt := fun _ => ""
         induce := fun _ cols => .ok cols, fuel := fun _ _ => 0 }
  induce := fun _ cols => .ok cols

/-- `x`, `1`, `x + 1` and `y`. -/
noncomputable def fourObjects : DHeap HPay :=
  ⟨[⟨.leaf (.uniform 0 1) none none, [], none⟩, ⟨.leaf (.const (.int 1)) none none, [], none⟩,
    ⟨.bin (.op .add), [0, 1], none⟩, ⟨.leaf (.uniform 0 2) none none, [], none⟩], []⟩

theorem fourObjects_program (distinct : Prop) : Program distinct fourObjects :=
  .make (.make (.make (.make .start _ _) _ _) _ _) _ _

theorem fourObjects_ok {a b : ℕ} (ha : a < 4) (hb : b < 4) : (correlate fourObjects [a, b] (.number (1 / 2)) none 1).1 =
    .ok [4 + a, 4 + b] := by
  have hu : ∀ v ∈ [a, b], ∃ nd, fourObjects.nodes[v]? = some nd ∧ nd.group = none := by
    intro v hv
    have : v < 4 := by
      simp only [List.mem_cons, List.not_mem_nil, or_false] at hv
      omega
    interval_cases v <;> exact ⟨_, rfl, rfl⟩
  obtain ⟨out, ho⟩ := ((C35_scalar fourObjects [a, b] (1 / 2) none 1 (by simp) hu).1).2 (by norm_num)
  rw [ho, correlate_out ho]
  rfl

/-- `correlate((x, y), 0.5)`: the hypotheses of `C131_correlated_partial` hold. -/
example : ∃ g r N, ∀ (i : Fin 2) (a : ℕ), [4, 7][i.1]? = some a →
    ∀ fuel, N ≤ fuel → ∀ n lc rc s t, SameStore (correlate fourObjects [0, 3] (.number (1 / 2)) none 1).2 s t →
      (heapSample countEnv (correlate fourObjects [0, 3] (.number (1 / 2)) none 1).2 fuel a true n lc rc s).1 =
        (sampleObj (treeEnv countEnv (correlate fourObjects [0, 3] (.number (1 / 2)) none 1).2)
          (.corr g 2 (fun j => relabel r (![.leaf (.uniform 0 1) none none, .leaf (.uniform 0 2) none none] j)) i)
          n lc rc t).1 := by
  have hno : ∀ u ∈ [0, 3], ∀ v, ¬ MadeOf fourObjects u v := by
    intro u hu v hm
    obtain ⟨b, ⟨nd, h1, h2⟩, -⟩ := Relation.TransGen.head'_iff.1 hm
    simp only [List.mem_cons, List.not_mem_nil, or_false] at hu
    rcases hu with rfl | rfl <;>
    · obtain rfl := Option.some.inj h1
      rcases h2 with h2 | ⟨g, G, h2, -⟩ <;> simp at h2
  obtain ⟨g, r, N, h⟩ := C131_correlated_partial countEnv (fun _ _ _ h => by
      rw [Except.ok.inj h]) (h := fourObjects) ((C131_program (fourObjects_program True)).2.2 trivial)
    (vars := [0, 3]) (by simp) (fourObjects_ok (by norm_num) (by norm_num))
    (fun v => if v = 0 then .leaf (.uniform 0 1) none none else .leaf (.uniform 0 2) none none)
    (by
      intro v hv
      simp only [List.mem_cons, List.not_mem_nil, or_false] at hv
      rcases hv with rfl | rfl
      · exact .leaf (nd := ⟨.leaf (.uniform 0 1) none none, [], none⟩) rfl rfl (Or.inl rfl)
      · exact .leaf (nd := ⟨.leaf (.uniform 0 2) none none, [], none⟩) rfl rfl (Or.inl rfl))
    (fun u hu v _ => hno u hu v)
  refine ⟨g, r, N, fun i a hi fuel hf n lc rc s t hst => ?_⟩
  have h1 := (h i a hi fuel hf n lc rc s t hst).1
  rw [h1]
  have : (fun j : Fin 2 => relabel r (if ([0, 3] : List ℕ)[j] = 0 then .leaf (.uniform 0 1) none none
      else .leaf (.uniform 0 2) none none)) = fun j : Fin 2 => relabel (S := St ℕ ℝ) r
        (![.leaf (.uniform 0 1) none none, .leaf (.uniform 0 2) none none] j) := by
    funext j
    fin_cases j <;> rfl
  exact congrArg (fun ms => (sampleObj (treeEnv countEnv _) (.corr g 2 ms i) n lc rc t).1) this

/-- `correlate((x, x + 1), 0.5)` returns variables that cannot be sampled. -/
example (fuel n w : ℕ) (hw : w ∈ [4, 6]) (z : Samples ℝ) :
    (heapSample countEnv (correlateSt fourObjects [0, 2] (.number (1 / 2)) none 1 ⟨0, fun _ _ => none⟩).2.1 fuel w
      true n none none (correlateSt fourObjects [0, 2] (.number (1 / 2)) none 1 ⟨0, fun _ _ => none⟩).2.2).1 ≠ .ok z :=
  C131_built_from_fails countEnv (C131_program (fourObjects_program True)).1 ⟨0, fun _ _ => none⟩
    (fourObjects_ok (a := 0) (b := 2) (by norm_num) (by norm_num)) (fun _ _ => rfl) (u := 2) (v := 0) (by simp)
    (by simp) (.single ⟨⟨.bin (.op .add), [0, 1], none⟩, rfl, rfl, by simp, Or.inr ⟨_, rfl⟩⟩) hw fuel n none none z

/-- `correlate((x, x), 0.5)`. -/
example : ∃ c, [4, 4] = [c, c] ∧ ∀ rs,
    (afterReads countEnv (correlateSt fourObjects [0, 0] (.number (1 / 2)) none 1 ⟨0, fun _ _ => none⟩).2.1 rs
      (correlateSt fourObjects [0, 0] (.number (1 / 2)) none 1 ⟨0, fun _ _ => none⟩).2.2).left 0 c = none :=
  C131_twice_fails countEnv (C131_program (fourObjects_program False)).1 (C131_program (fourObjects_program False)).2.1
    ⟨0, fun _ _ => none⟩ (fourObjects_ok (a := 0) (b := 0) (by norm_num) (by norm_num)) rfl

/-- In that example the exception is the one for too deep recursion. -/
example (fuel n : ℕ) (hn : n ≠ 0) :
    (heapSample countEnv (correlateSt fourObjects [0, 2] (.number (1 / 2)) none 1 ⟨0, fun _ _ => none⟩).2.1 fuel 4
      true n none none (correlateSt fourObjects [0, 2] (.number (1 / 2)) none 1 ⟨0, fun _ _ => none⟩).2.2).1 =
      .error .outOfFuel := by
  have hok := fourObjects_ok (a := 0) (b := 2) (by norm_num) (by norm_num)
  have h4 := correlate_copy hok (x := 0) (nd := ⟨.leaf (.uniform 0 1) none none, [], none⟩) rfl
  have h6 := correlate_copy hok (x := 2) (nd := ⟨.bin (.op .add), [0, 1], none⟩) rfl
  rw [if_pos (by simp)] at h4 h6
  obtain ⟨info, hG⟩ := correlate_new_group hok
  change _ = some (⟨.leaf (.uniform 0 1) none none, [], some 0⟩ : DNode HPay) at h4
  change _ = some (⟨.bin (.op .add), [4, 5], some 0⟩ : DNode HPay) at h6
  change (correlate fourObjects [0, 2] (.number (1 / 2)) none 1).2.nodes[4]? = _ at h4
  change (correlate fourObjects [0, 2] (.number (1 / 2)) none 1).2.nodes[6]? = _ at h6
  change (correlate fourObjects [0, 2] (.number (1 / 2)) none 1).2.groups[0]? = _ at hG
  change (heapSample countEnv (correlate fourObjects [0, 2] (.number (1 / 2)) none 1).2 _ _ _ _ _ _ _).1 = _
  generalize (correlate fourObjects [0, 2] (.number (1 / 2)) none 1).2 = H at *
  have hs : (correlateSt fourObjects [0, 2] (.number (1 / 2)) none 1 (⟨0, fun _ _ => none⟩ : St ℕ ℝ)).2.2.left 0 4 = none := by
    unfold correlateSt
    dsimp only
    split_ifs <;> rfl
  generalize (correlateSt fourObjects [0, 2] (.number (1 / 2)) none 1 (⟨0, fun _ _ => none⟩ : St ℕ ℝ)).2.2 = s at *
  induction fuel using Nat.strong_induction_on generalizing s with
  | _ fuel ih =>
    match fuel with
    | 0 => rfl
    | 1 => 
      simp only [heapSample, h4, withClips, if_neg hn, HPay.clips, SM.bind, SM.lift, combineL, combineR, heapRaw,
        takeLeft, hs, heapGroup, hG, SM.mapL, SM.throw]
    | fuel + 2 =>
      have hA : ∃ x r col, heapSample countEnv H (fuel + 1) 4 false n none none s = (.ok x, { s with rng := r }) ∧
          toColumn n x = .ok col := by
        refine ⟨Samples.simplify (.arr ((List.range' s.rng n).map fun i : ℕ => .flt (i : ℝ))), s.rng + n,
          (List.range' s.rng n).map fun i : ℕ => (i : ℝ), ?_, ?_⟩
        · simp only [heapSample, h4, withClips, if_neg hn, HPay.clips, SM.bind, SM.lift, combineL, combineR, heapRaw,
            heapDispatch, leafSample, drawSimple, drawSM, countEnv, SM.pure]
          rfl
        · unfold toColumn
          rw [toList_simplify]
          refine Except.bind_ok_iff.2 ⟨_, ?_, if_pos (by simp)⟩
          rw [mapExcept_ok, List.forall₂_map_left_iff, List.forall₂_map_right_iff]
          exact List.forall₂_same.2 fun _ _ => rfl
      obtain ⟨x, r, col, h1, h2⟩ := hA
      have hx := ih fuel (by omega) { s with rng := r } hs
      have hB : ∃ s', heapSample countEnv H (fuel + 1) 6 false n none none { s with rng := r } =
          (.error .outOfFuel, s') := by
        rcases hy : heapSample countEnv H fuel 4 true n none none { s with rng := r } with ⟨e | y, s'⟩ <;>
          rw [hy] at hx <;> simp only [Except.error.injEq, reduceCtorEq] at hx
        subst hx
        refine ⟨s', ?_⟩
        simp only [heapSample, h6, withClips, if_neg hn, HPay.clips, SM.bind, SM.lift, combineL, combineR, heapRaw,
          heapDispatch, hy]
      obtain ⟨s', hB⟩ := hB
      rw [heapSample, h4]
      simp only [withClips, if_neg hn, HPay.clips, SM.bind, SM.lift, combineL, combineR, heapRaw,
        takeLeft, hs, heapGroup, hG, SM.mapL, h1, h2, hB, SM.pure]

/-- Samples of `y` that are still kept because `x` was sampled: `correlate((y + 1, z), …)` copies them. -/
example (X : HEnv ℕ) (xs : List (Scalar ℝ)) :
    let h : DHeap HPay := ⟨[⟨.leaf (.uniform 0 1) none none, [], some 0⟩, ⟨.leaf (.uniform 0 2) none none, [], some 0⟩,
      ⟨.leaf (.const (.int 1)) none none, [], none⟩, ⟨.bin (.op .add), [1, 2], none⟩,
      ⟨.leaf (.uniform 0 3) none none, [], none⟩], [⟨[0, 1], ⟨[[1, 0], [0, 1]], none, 1⟩⟩]⟩
    let s : St ℕ ℝ := ⟨0, fun g j => if g = 0 ∧ j = 1 then some xs else none⟩
    let r := correlateSt h [3, 4] (.number (1 / 2)) none 1 s
    ∃ b', b' ≠ 1 ∧ RefersTo r.2.1 8 b' ∧ ∃ s', heapSample X r.2.1 1 1 true 2 none none r.2.2 = (.ok (.arr xs), s') ∧
      (heapSample X r.2.1 1 b' true 2 none none s').1 = .ok (.arr xs) := by
  intro h s r
  have hu : ∀ v ∈ [3, 4], ∃ nd, h.nodes[v]? = some nd ∧ nd.group = none := by
    intro v hv
    simp only [List.mem_cons, List.not_mem_nil, or_false] at hv
    rcases hv with rfl | rfl <;> exact ⟨_, rfl, rfl⟩
  obtain ⟨out, ho⟩ := ((C35_scalar h [3, 4] (1 / 2) none 1 (by simp) hu).1).2 (by norm_num)
  have hout : out = [8, 9] := correlate_out ho
  subst hout
  obtain ⟨b', h1, h2, h3⟩ := C131_pending_fails X s ho (b := 1) (g := 0)
    (nd := ⟨.leaf (.uniform 0 2) none none, [], some 0⟩) rfl rfl rfl (xs := xs) (by simp [s])
  exact ⟨b', h1, h2 0 3 8 rfl rfl ⟨⟨.bin (.op .add), [1, 2], none⟩, rfl, Or.inl (by simp)⟩,
    h3 0 0 2 2 (by norm_num) (by norm_num)⟩

end Verif
