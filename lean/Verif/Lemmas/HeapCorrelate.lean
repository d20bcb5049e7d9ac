import Verif.Lemmas.HeapStuck

/-! # Lemmas for C131: the heap after `correlate` -/

namespace Verif
open Spec
variable {σ : Type} {P : Type}

/-- The number of the group that `correlate` adds. -/
def newGroup (h : DHeap P) : ℕ := h.groups.length + h.groups.length

section
variable {h : DHeap P} {vars : List ℕ} {corr : CorrArg} {tol : Option ℝ} {mu : ℕ} {out : List ℕ}

theorem correlate_out (hok : (correlate h vars corr tol mu).1 = .ok out) :
    out = vars.map (h.nodes.length + ·) := by
  obtain ⟨m, -, h1, -⟩ := correlate_heap hok
  exact h1

theorem correlate_length (hok : (correlate h vars corr tol mu).1 = .ok out) :
    (correlate h vars corr tol mu).2.nodes.length = h.nodes.length + h.nodes.length := by
  obtain ⟨m, -, -, h2⟩ := correlate_heap hok
  have : ∀ (vs : List ℕ) (g : ℕ) (nodes : List (DNode P)), (vs.foldl (linkOne g) nodes).length = nodes.length := by
    intro vs g
    induction vs with
    | nil => intro nodes; rfl
    | cons v vs ih => intro nodes; rw [List.foldl_cons, ih, linkOne_length]
  rw [h2]
  dsimp only
  rw [this]
  simp [DHeap.deepcopy]

theorem correlate_copy (hok : (correlate h vars corr tol mu).1 = .ok out) {x : ℕ} {nd : DNode P}
    (hx : h.nodes[x]? = some nd) :
    (correlate h vars corr tol mu).2.nodes[h.nodes.length + x]? =
      some (if x ∈ vars then { nd.shift h.nodes.length h.groups.length with group := some (newGroup h) }
        else nd.shift h.nodes.length h.groups.length) := by
  obtain ⟨m, -, h1, h2⟩ := correlate_heap hok
  rw [h2]
  dsimp only
  rw [foldl_link_get]
  have e : h.deepcopy.nodes[h.nodes.length + x]? = some (nd.shift h.nodes.length h.groups.length) := by
    simp only [DHeap.deepcopy]
    rw [List.getElem?_append_right (by omega), Nat.add_sub_cancel_left, List.getElem?_map, hx]
    rfl
  have hg : h.deepcopy.groups.length = newGroup h := by simp [DHeap.deepcopy, newGroup]
  rw [e, hg, h1]
  simp

theorem correlate_new_group (hok : (correlate h vars corr tol mu).1 = .ok out) :
    ∃ info, (correlate h vars corr tol mu).2.groups[newGroup h]? = some ⟨out, info⟩ := by
  obtain ⟨m, -, h1, h2⟩ := correlate_heap hok
  refine ⟨⟨m, tol, mu⟩, ?_⟩
  rw [h2]
  have hg : h.deepcopy.groups.length = newGroup h := by simp [DHeap.deepcopy, newGroup]
  dsimp only
  rw [← hg, List.getElem?_append_right le_rfl, Nat.sub_self]
  rfl

theorem correlate_copy_group (hok : (correlate h vars corr tol mu).1 = .ok out) {g : ℕ} {G : GNode}
    (hG : h.groups[g]? = some G) :
    (correlate h vars corr tol mu).2.groups[h.groups.length + g]? = some (G.shift h.nodes.length) := by
  obtain ⟨m, -, h1, h2⟩ := correlate_heap hok
  rw [h2]
  dsimp only
  obtain ⟨hlt, -⟩ := List.getElem?_eq_some_iff.1 hG
  rw [List.getElem?_append_left (by simp [DHeap.deepcopy, hlt])]
  simp only [DHeap.deepcopy]
  rw [List.getElem?_append_right (by omega), Nat.add_sub_cancel_left, List.getElem?_map, hG]
  rfl

theorem correlate_group_cases (hok : (correlate h vars corr tol mu).1 = .ok out) {g : ℕ} {G : GNode}
    (hG : (correlate h vars corr tol mu).2.groups[g]? = some G) :
    h.groups[g]? = some G ∨ (∃ g0 G0, g = h.groups.length + g0 ∧ h.groups[g0]? = some G0 ∧ G = G0.shift h.nodes.length) ∨
      (g = newGroup h ∧ G.members = out) := by
  obtain ⟨m, -, h1, h2⟩ := correlate_heap hok
  rw [h2] at hG
  dsimp only at hG
  by_cases h3 : g < h.deepcopy.groups.length
  · rw [List.getElem?_append_left h3] at hG
    unfold DHeap.deepcopy at hG
    dsimp only at hG
    by_cases h4 : g < h.groups.length
    · rw [List.getElem?_append_left h4] at hG
      exact Or.inl hG
    · rw [List.getElem?_append_right (by omega), List.getElem?_map, Option.map_eq_some_iff] at hG
      obtain ⟨G0, hG0, rfl⟩ := hG
      exact Or.inr (Or.inl ⟨g - h.groups.length, G0, by omega, hG0, rfl⟩)
  · have hg : h.deepcopy.groups.length = newGroup h := by simp [DHeap.deepcopy, newGroup]
    rw [List.getElem?_append_right (by omega)] at hG
    obtain ⟨h5, h6⟩ := List.getElem?_eq_some_iff.1 hG
    simp only [List.length_singleton] at h5
    refine Or.inr (Or.inr ⟨by omega, ?_⟩)
    have : g - h.deepcopy.groups.length = 0 := by omega
    simp only [this, List.getElem_cons_zero] at h6
    rw [← h6]

end

section
variable {h : DHeap HPay} {vars : List ℕ} {corr : CorrArg} {tol : Option ℝ} {mu : ℕ} {out : List ℕ}

theorem correlate_var (hok : (correlate h vars corr tol mu).1 = .ok out) {v : ℕ} (hv : v ∈ vars) :
    ∃ nd, h.nodes[v]? = some nd ∧ nd.group = none :=
  ((correlate_ok_iff ..).1 hok).2.1 v hv

theorem correlate_pointsBack (hb : PointsBack h) (hok : (correlate h vars corr tol mu).1 = .ok out) :
    PointsBack (correlate h vars corr tol mu).2 := by
  intro g G hG b hbG
  rcases correlate_group_cases hok hG with h1 | ⟨g0, G0, rfl, hG0, rfl⟩ | ⟨rfl, hm⟩
  · obtain ⟨nd, h2, h3⟩ := hb g G h1 b hbG
    obtain ⟨hlt, -⟩ := List.getElem?_eq_some_iff.1 h2
    exact ⟨nd, ((C34_originals h vars corr tol mu).1 b hlt).trans h2, h3⟩
  · simp only [GNode.shift, List.mem_map] at hbG
    obtain ⟨x, hx, rfl⟩ := hbG
    obtain ⟨nd, h2, h3⟩ := hb g0 G0 hG0 x hx
    refine ⟨_, correlate_copy hok h2, ?_⟩
    rw [if_neg]
    · simp [DNode.shift, h3]
    · intro hv
      obtain ⟨nd', h4, h5⟩ := correlate_var hok hv
      rw [h2] at h4
      obtain rfl := Option.some.inj h4
      rw [h3] at h5
      exact absurd h5 (by simp)
  · rw [hm, correlate_out hok] at hbG
    obtain ⟨x, hx, rfl⟩ := List.mem_map.1 hbG
    obtain ⟨nd, h4, h5⟩ := correlate_var hok hx
    refine ⟨_, correlate_copy hok h4, ?_⟩
    rw [if_pos hx]

theorem correlate_linked (hl : WellLinked h) (hv : vars.Nodup) (hok : (correlate h vars corr tol mu).1 = .ok out) :
    WellLinked (correlate h vars corr tol mu).2 := by
  have hb : PointsBack h := fun g G hG => (hl g G hG).2
  intro g G hG
  refine ⟨?_, correlate_pointsBack hb hok g G hG⟩
  have hinj : Function.Injective (h.nodes.length + ·) := fun a b hab => by simpa using hab
  rcases correlate_group_cases hok hG with h1 | ⟨g0, G0, rfl, hG0, rfl⟩ | ⟨rfl, hm⟩
  · exact (hl g G h1).1
  · exact (hl g0 G0 hG0).1.map hinj
  · rw [hm, correlate_out hok]
    exact hv.map hinj

/-- The copy of an expression of one of the variables leads to sampling the new group. -/
theorem correlate_doomed (hok : (correlate h vars corr tol mu).1 = .ok out) {x v : ℕ} (hv : v ∈ vars)
    (hx : Relation.ReflTransGen (fun x y => OperandOf h y x) x v) :
    Doomed (correlate h vars corr tol mu).2 (newGroup h) out (h.nodes.length + x) := by
  have hmem : ∀ y ∈ vars, Doomed (correlate h vars corr tol mu).2 (newGroup h) out (h.nodes.length + y) := by
    intro y hy
    obtain ⟨nd, h1, -⟩ := correlate_var hok hy
    refine .member (correlate_copy hok h1) (by rw [if_pos hy]) ?_
    rw [correlate_out hok]
    exact List.mem_map_of_mem hy
  induction hx using Relation.ReflTransGen.head_induction_on with
  | refl => exact hmem v hv
  | @head a c hac _ ih =>
    by_cases ha : a ∈ vars
    · exact hmem a ha
    · obtain ⟨nd, h1, h2, h3, h4⟩ := hac
      refine .operand ⟨_, correlate_copy hok h1, ?_, ?_, ?_⟩ ih
      · rw [if_neg ha]; simp [DNode.shift, h2]
      · rw [if_neg ha]; simp [DNode.shift, h3]
      · rw [if_neg ha]; exact h4

/-- The copy of an object stands for the same tree, with the groups numbered differently. -/
theorem correlate_unfolds (hok : (correlate h vars corr tol mu).1 = .ok out) {flag : Bool} {a : ℕ}
    {d : Obj (St σ ℝ) ℝ} (hd : Unfolds h flag a d) :
    (flag = true → a ∉ vars) → (∀ b, MadeOf h a b → b ∉ vars) →
    Unfolds (correlate h vars corr tol mu).2 flag (h.nodes.length + a) (relabel (h.groups.length + ·) d) := by
  have hgrp : ∀ {flag : Bool} {a : ℕ} {nd : DNode HPay}, (flag = true → a ∉ vars) → flag = false ∨ nd.group = none →
      flag = false ∨ (if a ∈ vars then { nd.shift h.nodes.length h.groups.length with group := some (newGroup h) }
        else nd.shift h.nodes.length h.groups.length).group = none := by
    rintro (_ | _) a nd h1 h2
    · exact Or.inl rfl
    · right
      rw [if_neg (h1 rfl)]
      rcases h2 with h2 | h2
      · exact absurd h2 (by simp)
      · simp [DNode.shift, h2]
  have hpay : ∀ {a : ℕ} {nd : DNode HPay}, (if a ∈ vars then { nd.shift h.nodes.length h.groups.length with group := some (newGroup h) }
        else nd.shift h.nodes.length h.groups.length).payload = nd.payload := by
    intro a nd; split_ifs <;> rfl
  have hkid : ∀ {a : ℕ} {nd : DNode HPay}, (if a ∈ vars then { nd.shift h.nodes.length h.groups.length with group := some (newGroup h) }
        else nd.shift h.nodes.length h.groups.length).kids = nd.kids.map (h.nodes.length + ·) := by
    intro a nd; split_ifs <;> rfl
  have hsub : ∀ {a b : ℕ}, (∀ b, MadeOf h a b → b ∉ vars) → RefersTo h a b →
      (b ∉ vars) ∧ ∀ c, MadeOf h b c → c ∉ vars := fun h1 h2 =>
    ⟨h1 _ (.single h2), fun c hc => h1 c (Relation.TransGen.head h2 hc)⟩
  induction hd with
  | @leaf flag a nd l lc rc hnd hp hg =>
    intro h1 _
    exact .leaf (correlate_copy hok hnd) (hpay.trans hp) (hgrp h1 hg)
  | @mix flag a k nd ws lc rc ds hnd hp hg hk hd ih =>
    intro h1 h2
    refine .mix (correlate_copy hok hnd) (hpay.trans hp) (hgrp h1 hg) (by rw [hkid, List.length_map, hk]) ?_
    intro i b hb
    rw [hkid, List.getElem?_map, Option.map_eq_some_iff] at hb
    obtain ⟨c, hc, rfl⟩ := hb
    obtain ⟨h3, h4⟩ := hsub h2 ⟨nd, hnd, Or.inl (List.mem_of_getElem? hc)⟩
    exact ih i c hc (fun _ => h3) h4
  | @un flag a l nd f d hnd hp hk hg hl ih =>
    intro h1 h2
    obtain ⟨h3, h4⟩ := hsub h2 (b := l) ⟨nd, hnd, Or.inl (by rw [hk]; simp)⟩
    exact .un (correlate_copy hok hnd) (hpay.trans hp) (by rw [hkid, hk]; rfl) (hgrp h1 hg) (ih (fun _ => h3) h4)
  | @bin flag a l r nd f d e hnd hp hk hg hl hr ihl ihr =>
    intro h1 h2
    obtain ⟨h3, h4⟩ := hsub h2 (b := l) ⟨nd, hnd, Or.inl (by rw [hk]; simp)⟩
    obtain ⟨h5, h6⟩ := hsub h2 (b := r) ⟨nd, hnd, Or.inl (by rw [hk]; simp)⟩
    exact .bin (correlate_copy hok hnd) (hpay.trans hp) (by rw [hkid, hk]; rfl) (hgrp h1 hg)
      (ihl (fun _ => h3) h4) (ihr (fun _ => h5) h6)
  | @corr a g k nd G ms i hnd hg hG hk hi hm ih =>
    intro h1 h2
    refine .corr (correlate_copy hok hnd) (g := h.groups.length + g) ?_ (correlate_copy_group hok hG) ?_ ?_ ?_
    · rw [if_neg (h1 rfl)]; simp [DNode.shift, hg]
    · simp [GNode.shift, hk]
    · simp [GNode.shift, hi]
    · intro j b hb
      simp only [GNode.shift, List.getElem?_map, Option.map_eq_some_iff] at hb
      obtain ⟨c, hc, rfl⟩ := hb
      obtain ⟨h3, h4⟩ := hsub h2 ⟨nd, hnd, Or.inr ⟨g, G, hg, hG, List.mem_of_getElem? hc⟩⟩
      exact ih j c hc (fun h => by simp at h) h4

end

end Verif
