import Verif.Props.Correlate

/-!
# C74: what correlating again does keep: the copies are linked among themselves
-/

namespace Verif

variable {P : Type}

/-- **C74** (what holds): `correlate` copies everything its variables lead to *together*.  There is one renaming
`ρ` of old objects into new ones with: the results are the renamed variables; whatever an object led to before
(through its parts and through the partners it is correlated with), its copy leads to the copy of; and the copy
of a correlated variable `x` (not itself passed) is correlated, by the same matrix, with the copies of its
partners.  So two expressions of correlated variables that are passed in *one* call stay linked to each other.
Missing: the link to the variables that were not passed; see `C74_nested_fails`. -/
theorem C74_copies_partial {h : DHeap P} {vars : List ℕ} {corr : CorrArg} {tol : Option ℝ} {mu : ℕ}
    {out : List ℕ} (hok : (correlate h vars corr tol mu).1 = .ok out) :
    ∃ ρ : ℕ → ℕ, Function.Injective ρ ∧ out = vars.map ρ ∧
      (∀ a b, h.Reach a b → (correlate h vars corr tol mu).2.Reach (ρ a) (ρ b)) ∧
      ∀ x nd g G, x ∉ vars → h.nodes[x]? = some nd → nd.group = some g → h.groups[g]? = some G →
        ∃ nd' g', (correlate h vars corr tol mu).2.nodes[ρ x]? = some nd' ∧ nd'.group = some g' ∧
          (correlate h vars corr tol mu).2.groups[g']? = some ⟨G.members.map ρ, G.info⟩ := by
  obtain ⟨ρ, g, m, hinj, -, -, hout, -, -, -, hnode⟩ := C34_result hok
  refine ⟨ρ, hinj, hout, fun a b hr => ?_, fun x nd g0 G hx hnd hg hG => ?_⟩
  · induction hr with
    | refl => exact .refl _
    | kid _ hnd hc ih =>
      obtain ⟨nd', h1, -, h3, -⟩ := hnode _ _ hnd
      exact .kid ih h1 (by rw [h3]; exact List.mem_map_of_mem hc)
    | @member b c g0 nd G _ hnd hg hG hc ih =>
      obtain ⟨nd', h1, -, -, h4, -, h6⟩ := hnode _ _ hnd
      by_cases hb : b ∈ vars
      · rw [(h4 hb).1] at hg; cases hg
      · obtain ⟨g', h7, -, -, h8⟩ := h6 hb _ _ hg hG
        exact .member ih h1 h7 h8 (List.mem_map_of_mem hc)
  · obtain ⟨nd', h1, -, -, -, -, h6⟩ := hnode _ _ hnd
    obtain ⟨g', h7, -, -, h8⟩ := h6 hx _ _ hg hG
    exact ⟨nd', g', h1, h7, h8⟩

/-- `x`, `y` correlated, `z = x + 1`, `w = 2 * y`: of the variables that `correlate((z, w), 0.5)` returns, the
first leads to a part of the second. -/
example : let h : DHeap ℕ := ⟨[⟨10, [], some 0⟩, ⟨20, [], some 0⟩, ⟨30, [0], none⟩, ⟨40, [1], none⟩],
      [⟨[0, 1], ⟨[[1, 1 / 2], [1 / 2, 1]], none, 100⟩⟩]⟩
    ∃ z' w' y', (correlate h [2, 3] (.number (1 / 2)) none 100).1 = .ok [z', w'] ∧
      (correlate h [2, 3] (.number (1 / 2)) none 100).2.Reach z' y' ∧
      (correlate h [2, 3] (.number (1 / 2)) none 100).2.Reach w' y' := by
  intro h
  obtain ⟨out, hok⟩ := ((C35_scalar h [2, 3] (1 / 2) none 100 (by simp) (by simp [h])).1).2 (by norm_num)
  obtain ⟨ρ, -, hout, hr, -⟩ := C74_copies_partial hok
  have h0 : h.Reach 2 0 := .kid (.refl 2) (nd := ⟨30, [0], none⟩) rfl (by simp)
  have h1 : h.Reach 2 1 := .member h0 (nd := ⟨10, [], some 0⟩) rfl
    rfl (G := ⟨[0, 1], ⟨[[1, 1 / 2], [1 / 2, 1]], none, 100⟩⟩) rfl (by simp)
  have h2 : h.Reach 3 1 := .kid (.refl 3) (nd := ⟨40, [1], none⟩) rfl (by simp)
  exact ⟨ρ 2, ρ 3, ρ 1, by rw [hok, hout]; rfl, hr _ _ h1, hr _ _ h2⟩

end Verif
