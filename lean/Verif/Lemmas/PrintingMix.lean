import Verif.Lemmas.PrintingTree

/-! Reading printed mixtures back. -/

namespace Verif

open Spec

set_option linter.unusedSectionVars false

variable {σ K : Type} [Field K] [LinearOrder K] [FloorRing K] [IsStrictOrderedRing K]

section
variable {num : K → String} (hnum : PrintsNumbers num)
include hnum

theorem num_nl (x : K) : '\n' ∉ (num x).toList := fun h => (hnum.chars x _ h).2.2.2.2 rfl

omit hnum in
theorem int_nl (z : ℤ) : '\n' ∉ (toString z).toList := fun h => (int_bare z _ h).2.2.2.2 rfl

omit hnum in
theorem nat_nl (n : ℕ) : '\n' ∉ (toString n).toList := int_nl (n : ℤ)

omit hnum in
theorem num_sides (d : DieSpec) : '\n' ∉ (toString d.sides).toList := by
  exact int_nl d.sides

theorem pstr_nl {v : Scalar K} (hv : IsNumber v) : '\n' ∉ (v.pstr num).toList :=
  fun h => (pstr_bare hnum hv _ h).2.2.2.2 rfl

theorem clipStr_nl {lc rc : Option (Scalar K)} (hl : ∀ v, lc = some v → IsNumber v)
    (hr : ∀ v, rc = some v → IsNumber v) : '\n' ∉ (clipStr num lc rc).toList := by
  cases lc with
  | none => cases rc with
    | none => simp [clipStr]
    | some r => simp [clipStr, pstr_nl hnum (hr r rfl)]
  | some l => cases rc with
    | none => simp [clipStr, pstr_nl hnum (hl l rfl)]
    | some r => simp [clipStr, pstr_nl hnum (hr r rfl), pstr_nl hnum (hl l rfl)]

theorem tStr_nl (x y : Option K) (t c : K) : '\n' ∉ (tStr num x y t c).toList := by
  have hn := num_nl hnum
  cases x with
  | none => simp [tStr, hn]
  | some x =>
    cases y <;> by_cases hc : c = 90 <;> simp [tStr, hn, hc]

theorem leaf_nl {l : Leaf K} {lc rc : Option (Scalar K)} (hl : PlainLeaf l lc rc) {s : String}
    (h : l.str? num lc rc = some s) : '\n' ∉ s.toList := by
  obtain ⟨h1, h2, h3⟩ := hl
  have hn := num_nl hnum
  have hc := clipStr_nl hnum h1 h2
  cases l with
  | const v =>
    simp only [Leaf.str?, Option.some.injEq] at h
    subst h
    simp [pstr_nl hnum h3.1]
  | die d =>
    have h' : d.explodeOn = none := h3.1
    simp only [Leaf.str?, h', Option.some.injEq] at h
    subst h
    simp only [String.toList_append, List.mem_append, not_or]
    exact ⟨⟨by decide, num_sides d⟩, by decide⟩
  | binomial n p =>
    simp only [Leaf.str?, Option.some.injEq] at h
    subst h
    simp only [String.toList_append, List.mem_append, not_or]
    exact ⟨⟨⟨⟨by decide, int_nl n⟩, by decide⟩, hn p⟩, by decide⟩
  | tdist x y t c | logtdist x y t c =>
    simp only [Leaf.str?, Option.some.injEq] at h
    subst h
    simp [hc, tStr_nl hnum]
  | coin =>
    simp only [Leaf.str?, Option.some.injEq] at h
    subst h
    decide
  | lognormal | invlognormal | categorical => exact h3.elim
  | _ =>
    simp only [Leaf.str?, Option.some.injEq] at h
    subst h
    simp [hn, hc]

end

/-- A plain expression is printed on one line. -/
theorem plain_nl (F : StrEnv σ K) (hnum : PrintsNumbers F.num) (d : Obj (St σ K) K) (hd : Plain d) :
    ∀ b, '\n' ∉ (strObj F b d).toList := by
  induction d with
  | lit v => intro b; simp only [strObj]; exact pstr_nl hnum hd
  | leaf l lc rc =>
    intro b
    obtain ⟨s, hs, -⟩ := leaf_form F.num hd
    have := leaf_nl hnum hd hs
    simp only [strObj, hs]
    cases b <;> simp [distPrefix, this]
  | un f x ih =>
    intro b
    have hx : Plain x := by
      cases f <;> first | exact hd.1 | exact hd
    have := ih hx true
    cases f <;> cases b <;> simp [strObj, distPrefix, this]
  | bin f x y ih1 ih2 =>
    intro b
    have h1 := ih1 hd.1 true
    have h2 := ih2 hd.2 true
    cases f with
    | op o => cases o <;> cases b <;> simp [strObj, distPrefix, BinOp.sym, h1, h2]
    | _ => cases b <;> simp [strObj, distPrefix, h1, h2]
  | corr g m ms i ih => intro b; simp only [strObj]; exact ih i hd b
  | _ => exact hd.elim

/-- The lines of a mixture determine its weights and components. -/
theorem mixLines_inj {num : K → String} (hnum : PrintsNumbers num) :
    ∀ {ws ws' : List K} {ds ds' : List String}, ws.length = ds.length → ws'.length = ds'.length →
    (∀ d ∈ ds, '\n' ∉ d.toList) → (∀ d ∈ ds', '\n' ∉ d.toList) →
    mixLines num ws ds = mixLines num ws' ds' → ws = ws' ∧ ds = ds' := by
  have hcut : ∀ {c : Char} {a a' r r' : List Char}, c ∉ a → c ∉ a' → (r = [] ∨ ∃ t, r = c :: t) →
      (r' = [] ∨ ∃ t, r' = c :: t) → a ++ r = a' ++ r' → a = a' ∧ r = r' := by
    intro c a
    induction a with
    | nil =>
      intro a' r r' _ ha' hr hr' h
      cases a' with
      | nil => exact ⟨rfl, by simpa using h⟩
      | cons x a' =>
        rcases hr with rfl | ⟨t, rfl⟩
        · simp at h
        · simp only [List.nil_append, List.cons_append, List.cons.injEq] at h
          exact absurd (by rw [h.1]; simp) ha'
    | cons x a ih =>
      intro a' r r' ha ha' hr hr' h
      cases a' with
      | nil =>
        rcases hr' with rfl | ⟨t, rfl⟩
        · simp at h
        · simp only [List.nil_append, List.cons_append, List.cons.injEq] at h
          exact absurd (by rw [← h.1]; simp) ha
      | cons x' a' =>
        simp only [List.cons_append, List.cons.injEq] at h
        obtain ⟨rfl, h⟩ := h
        obtain ⟨h1, h2⟩ := ih (fun hm => ha (by simp [hm])) (fun hm => ha' (by simp [hm])) hr hr' h
        exact ⟨by rw [h1], h2⟩
  have hrest : ∀ (ws : List K) (ds : List String),
      (mixLines num ws ds).toList = [] ∨ ∃ t, (mixLines num ws ds).toList = '\n' :: t := by
    intro ws ds
    cases ws with
    | nil => exact Or.inl (by simp [mixLines])
    | cons w ws => cases ds with
      | nil => exact Or.inl (by simp [mixLines])
      | cons d ds => exact Or.inr ⟨_, by simp [mixLines]; rfl⟩
  intro ws
  induction ws with
  | nil =>
    intro ws' ds ds' hl hl' _ _ h
    have : ds = [] := List.length_eq_zero_iff.1 hl.symm
    subst this
    cases ws' with
    | nil => exact ⟨rfl, (List.length_eq_zero_iff.1 hl'.symm).symm⟩
    | cons w' ws' => cases ds' with
      | nil => simp at hl'
      | cons d' ds' =>
        have := congrArg String.toList h
        simp [mixLines] at this
  | cons w ws ih =>
    intro ws' ds ds' hl hl' hd hd' h
    cases ds with
    | nil => simp at hl
    | cons d ds => cases ws' with
      | nil =>
        have := congrArg String.toList h
        simp [mixLines] at this
      | cons w' ws' => cases ds' with
        | nil => simp at hl'
        | cons d' ds' =>
          have h1 := congrArg String.toList h
          simp only [mixLines, String.toList_append, List.append_assoc, List.append_cancel_left_eq] at h1
          have hw : ' ' ∉ (num w).toList := fun hm => (hnum.chars w _ hm).1 rfl
          have hw' : ' ' ∉ (num w').toList := fun hm => (hnum.chars w' _ hm).1 rfl
          obtain ⟨e1, e2⟩ := hcut hw hw' (Or.inr ⟨_, rfl⟩) (Or.inr ⟨_, rfl⟩) h1
          have e2' : " weight on ".toList ++ (d.toList ++ (mixLines num ws ds).toList)
              = " weight on ".toList ++ (d'.toList ++ (mixLines num ws' ds').toList) := e2
          obtain ⟨e3, e4⟩ := hcut (hd d (by simp)) (hd' d' (by simp)) (hrest ws ds) (hrest ws' ds')
            (List.append_cancel_left e2')
          obtain ⟨e5, e6⟩ := ih (by simpa using hl) (by simpa using hl') (fun x hx => hd x (by simp [hx]))
            (fun x hx => hd' x (by simp [hx])) (String.toList_inj.1 e4)
          rw [hnum.inj w w' (String.toList_inj.1 e1), e5, String.toList_inj.1 e3, e6]
          exact ⟨rfl, rfl⟩

end Verif
