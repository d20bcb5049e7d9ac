import Verif.Model.Dice
import Verif.Spec.Dice
import Mathlib.Tactic.Linarith
import Mathlib.Tactic.Ring
import Mathlib.Data.Finset.Card
import Mathlib.Order.Interval.Finset.Basic
import Mathlib.Data.Int.Interval
import Mathlib.Algebra.Order.Ring.Int

/-! # Dice: C28, C29 -/

namespace Verif

/-! ## C28: accepted dice -/

theorem checkFaces_ok {s : ℤ} : ∀ {vs : List IntArg} {l : List ℤ},
    checkFaces s vs = .ok l ↔ vs = l.map some ∧ ∀ v ∈ l, 1 ≤ v ∧ v ≤ s
  | [], l => by
    simp only [checkFaces, Except.ok.injEq]
    constructor
    · rintro rfl; simp
    · rintro ⟨h, -⟩
      cases l with
      | nil => rfl
      | cons a b => simp at h
  | none :: rest, l => by
    simp only [checkFaces]
    constructor
    · rintro ⟨⟩
    · rintro ⟨h, -⟩
      cases l <;> simp at h
  | some v :: rest, l => by
    simp only [checkFaces]
    split
    · rename_i h
      constructor
      · rintro ⟨⟩
      · rintro ⟨h1, h2⟩
        cases l with
        | nil => simp at h1
        | cons a b =>
          simp only [List.map_cons, List.cons.injEq, Option.some.injEq] at h1
          have := h2 a (by simp)
          rcases h1 with ⟨rfl, -⟩
          omega
    · rename_i h
      have ih := @checkFaces_ok s rest
      cases hc : checkFaces s rest with
      | error e =>
        rw [show (do let vs ← (Except.error e : Except PyErr (List ℤ)); .ok (v :: vs)) =
          (Except.error e : Except PyErr (List ℤ)) from rfl]
        constructor
        · rintro ⟨⟩
        · rintro ⟨h1, h2⟩
          cases l with
          | nil => simp at h1
          | cons a b =>
            simp only [List.map_cons, List.cons.injEq, Option.some.injEq] at h1
            have := (@ih b).2 ⟨h1.2, fun x hx => h2 x (by simp [hx])⟩
            rw [hc] at this; cases this
      | ok l' =>
        rw [show (do let vs ← (Except.ok l' : Except PyErr (List ℤ)); .ok (v :: vs)) =
          (Except.ok (v :: l') : Except PyErr (List ℤ)) from rfl]
        have h' := (@ih l').1 hc
        constructor
        · intro hh
          cases hh
          refine ⟨by simp [h'.1], ?_⟩
          intro x hx
          rcases List.mem_cons.1 hx with rfl | hx
          · omega
          · exact h'.2 x hx
        · rintro ⟨h1, h2⟩
          cases l with
          | nil => simp at h1
          | cons a b =>
            simp only [List.map_cons, List.cons.injEq, Option.some.injEq] at h1
            have := (@ih b).2 ⟨h1.2, fun x hx => h2 x (by simp [hx])⟩
            rw [hc] at this; cases this; rw [h1.1]

/-- **C28.** Which dice are accepted: an integer number of sides, at least two; explode values, if
any, must be integers among the faces and fewer in number than the faces.  The die stores exactly
what it was given. -/
theorem C28_accepted_iff (sides : IntArg) (ex : ExplodeArg) (d : DieSpec) :
    dieInit sides ex = .ok d ↔
      2 ≤ d.sides ∧ sides = some d.sides ∧
      ex.toList? = d.explodeOn.map (List.map some) ∧
      ∀ l, d.explodeOn = some l → (l.length : ℤ) < d.sides ∧ ∀ v ∈ l, 1 ≤ v ∧ v ≤ d.sides := by
  obtain ⟨ds, dl⟩ := d
  unfold dieInit
  cases sides with
  | none => simp
  | some s =>
    simp only
    split_ifs with hs
    · constructor
      · rintro ⟨⟩
      · rintro ⟨h1, h2, -⟩
        simp only [Option.some.injEq] at h1 h2
        omega
    · cases ht : ex.toList? with
      | none =>
        constructor
        · intro h; cases h
          refine ⟨by simpa using hs, rfl, rfl, by simp⟩
        · rintro ⟨h1, h2, h3, h4⟩
          cases dl with
          | some l => simp at h3
          | none => cases h2; rfl
      | some vs =>
        simp only
        split_ifs with hl
        · constructor
          · rintro ⟨⟩
          · rintro ⟨h1, h2, h3, h4⟩
            cases dl with
            | none => simp at h3
            | some l =>
              have := (h4 l rfl).1
              simp only [Option.some.injEq, Option.map_some] at h2 h3
              subst h3 h2
              simp at hl; omega
        · cases hc : checkFaces s vs with
          | error e =>
            rw [show (do let vs' ← (Except.error e : Except PyErr (List ℤ)); .ok (DieSpec.mk s (some vs'))) =
              (Except.error e : Except PyErr DieSpec) from rfl]
            constructor
            · rintro ⟨⟩
            · rintro ⟨h1, h2, h3, h4⟩
              cases dl with
              | none => simp at h3
              | some l =>
                simp only [Option.some.injEq, Option.map_some] at h2 h3
                subst h3 h2
                rw [(checkFaces_ok (l := l)).2 ⟨rfl, (h4 l rfl).2⟩] at hc
                cases hc
          | ok l' =>
            rw [show (do let vs' ← (Except.ok l' : Except PyErr (List ℤ)); .ok (DieSpec.mk s (some vs'))) =
              (Except.ok (DieSpec.mk s (some l')) : Except PyErr DieSpec) from rfl]
            have h' := checkFaces_ok.1 hc
            constructor
            · intro h; cases h
              refine ⟨by simpa using hs, rfl, by simp [h'.1], ?_⟩
              intro l hl'
              cases hl'
              refine ⟨?_, h'.2⟩
              rw [h'.1] at hl; simpa using hl
            · rintro ⟨h1, h2, h3, h4⟩
              cases dl with
              | none => simp at h3
              | some l =>
                simp only [Option.some.injEq, Option.map_some] at h2 h3
                subst h3 h2
                rw [(checkFaces_ok (l := l)).2 ⟨rfl, (h4 l rfl).2⟩] at hc
                cases hc; rfl

/-- **C28.** Every other die is refused with a `ValueError`. -/
theorem C28_refused (sides : IntArg) (ex : ExplodeArg) :
    (∃ d, dieInit sides ex = .ok d) ∨ dieInit sides ex = .error .valueError := by
  have key : ∀ (s : ℤ) (vs : List IntArg),
      (∃ l, checkFaces s vs = .ok l) ∨ checkFaces s vs = .error .valueError := by
    intro s vs
    induction vs with
    | nil => exact Or.inl ⟨[], rfl⟩
    | cons v vs ih =>
      cases v with
      | none => exact Or.inr rfl
      | some v =>
        simp only [checkFaces]
        split_ifs
        · exact Or.inr rfl
        · rcases ih with ⟨l, h⟩ | h
          · exact Or.inl ⟨v :: l, by rw [h]; rfl⟩
          · exact Or.inr (by rw [h]; rfl)
  unfold dieInit
  cases sides with
  | none => exact Or.inr rfl
  | some s =>
    simp only
    split_ifs
    · exact Or.inr rfl
    · cases ex.toList? with
      | none => exact Or.inl ⟨_, rfl⟩
      | some vs =>
        simp only
        split_ifs
        · exact Or.inr rfl
        · rcases key s vs with ⟨l, h⟩ | h
          · exact Or.inl ⟨⟨s, some l⟩, by rw [h]; rfl⟩
          · exact Or.inr (by rw [h]; rfl)

/-- **C28.** An accepted exploding die has a face that does not explode. -/
theorem C28_safe_face (sides : IntArg) (ex : ExplodeArg) (d : DieSpec) (l : List ℤ)
    (h : dieInit sides ex = .ok d) (hl : d.explodeOn = some l) :
    ∃ f, 1 ≤ f ∧ f ≤ d.sides ∧ f ∉ l := by
  obtain ⟨h2, -, -, h4⟩ := (C28_accepted_iff sides ex d).1 h
  have hlen := (h4 l hl).1
  by_contra hcon
  push Not at hcon
  have hsub : Finset.Icc 1 d.sides ⊆ l.toFinset := by
    intro x hx
    rw [Finset.mem_Icc] at hx
    exact List.mem_toFinset.2 (hcon x hx.1 hx.2)
  have hc := Finset.card_le_card hsub
  rw [Int.card_Icc] at hc
  have := List.toFinset_card_le l
  omega

/-- The hypotheses are met: a six-sided die exploding on 5 and 6 is accepted. -/
example : dieInit (some 6) (.list [some 5, some 6]) = .ok ⟨6, some [5, 6]⟩ := rfl
/-- A two-sided die exploding on both faces is refused. -/
example : dieInit (some 2) (.list [some 1, some 2]) = .error .valueError := rfl

/-! ## C29: rolling -/

theorem explodeLoop_iff {S : Type} (next : S → Except PyErr ℤ × S) (l : List ℤ) :
    ∀ (fuel : ℕ) (roll total : ℤ) (s s' : S) (v : ℤ),
      explodeLoop next l fuel roll total s = (.ok v, s') ↔
        (roll ∉ l ∧ v = total ∧ s' = s) ∨
        (roll ∈ l ∧ ∃ rs r, Draws next s (rs ++ [r]) s' ∧ (∀ x ∈ rs, x ∈ l) ∧ r ∉ l ∧
          v = total + rs.sum + r ∧ rs.length < fuel) := by
  intro fuel
  induction fuel with
  | zero =>
    intro roll total s s' v
    unfold explodeLoop
    split_ifs with h
    · simp [h]
    · simp only [Prod.mk.injEq, Except.ok.injEq]
      constructor
      · rintro ⟨rfl, rfl⟩; exact Or.inl ⟨h, rfl, rfl⟩
      · rintro (⟨-, rfl, rfl⟩ | ⟨h', -⟩)
        · exact ⟨rfl, rfl⟩
        · exact absurd h' h
  | succ fuel ih =>
    intro roll total s s' v
    unfold explodeLoop
    split_ifs with h
    · cases hn : next s with
      | mk res s1 =>
        cases res with
        | error e =>
          simp only [Prod.mk.injEq, reduceCtorEq, false_and, false_iff]
          rintro (⟨h', -⟩ | ⟨-, rs, r, hd, -⟩)
          · exact h' h
          · cases rs with
            | nil => cases hd with | cons h1 h2 => rw [hn] at h1; cases h1
            | cons a b => cases hd with | cons h1 h2 => rw [hn] at h1; cases h1
        | ok r1 =>
          simp only
          rw [ih]
          constructor
          · rintro (⟨h1, rfl, rfl⟩ | ⟨h1, rs, r, hd, hin, hr, rfl, hlen⟩)
            · refine Or.inr ⟨h, [], r1, .cons hn (.nil _), by simp, h1, by simp, by simp⟩
            · refine Or.inr ⟨h, r1 :: rs, r, .cons hn hd, ?_, hr, ?_, by simp; omega⟩
              · intro x hx
                rcases List.mem_cons.1 hx with rfl | hx
                · exact h1
                · exact hin x hx
              · simp only [List.sum_cons]; ring
          · rintro (⟨h', -⟩ | ⟨-, rs, r, hd, hin, hr, rfl, hlen⟩)
            · exact absurd h h'
            · cases rs with
              | nil =>
                cases hd with
                | cons h1 h2 =>
                  rw [hn] at h1
                  cases h1
                  cases h2
                  exact Or.inl ⟨hr, by simp, rfl⟩
              | cons a b =>
                cases hd with
                | cons h1 h2 =>
                  rw [hn] at h1
                  cases h1
                  refine Or.inr ⟨hin _ (by simp), b, r, h2, fun x hx => hin x (by simp [hx]), hr, ?_,
                    by simp at hlen; omega⟩
                  simp only [List.sum_cons]; ring
    · simp only [Prod.mk.injEq, Except.ok.injEq]
      constructor
      · rintro ⟨rfl, rfl⟩; exact Or.inl ⟨h, rfl, rfl⟩
      · rintro (⟨-, rfl, rfl⟩ | ⟨h', -⟩)
        · exact ⟨rfl, rfl⟩
        · exact absurd h' h

/-- **C29.** The complete outcome of an exploding roll: it returns `v` exactly if the generator
produced some exploding faces followed by one non-exploding face, `v` is the sum of all of them, and
the generator was called exactly once per roll (the state is the one after these rolls). -/
theorem C29_roll_iff {S : Type} (next : S → Except PyErr ℤ × S) (l : List ℤ) (fuel : ℕ)
    (s s' : S) (v : ℤ) :
    singleRoll next (some l) fuel s = (.ok v, s') ↔
      ∃ rs r, Draws next s (rs ++ [r]) s' ∧ (∀ x ∈ rs, x ∈ l) ∧ r ∉ l ∧ v = rs.sum + r ∧
        rs.length ≤ fuel := by
  unfold singleRoll
  cases hn : next s with
  | mk res s1 =>
    cases res with
    | error e =>
      simp only [Prod.mk.injEq, reduceCtorEq, false_and, false_iff]
      rintro ⟨rs, r, hd, -⟩
      cases rs with
      | nil => cases hd with | cons h1 h2 => rw [hn] at h1; cases h1
      | cons a b => cases hd with | cons h1 h2 => rw [hn] at h1; cases h1
    | ok r1 =>
      simp only
      rw [explodeLoop_iff]
      constructor
      · rintro (⟨h1, rfl, rfl⟩ | ⟨h1, rs, r, hd, hin, hr, rfl, hlen⟩)
        · exact ⟨[], v, .cons hn (.nil _), by simp, h1, by simp, by simp⟩
        · refine ⟨r1 :: rs, r, .cons hn hd, ?_, hr, ?_, by simp; omega⟩
          · intro x hx
            rcases List.mem_cons.1 hx with rfl | hx
            · exact h1
            · exact hin x hx
          · simp
      · rintro ⟨rs, r, hd, hin, hr, rfl, hlen⟩
        cases rs with
        | nil =>
          cases hd with
          | cons h1 h2 =>
            rw [hn] at h1
            cases h1
            cases h2
            exact Or.inl ⟨hr, by simp, rfl⟩
        | cons a b =>
          cases hd with
          | cons h1 h2 =>
            rw [hn] at h1
            cases h1
            exact Or.inr ⟨hin _ (by simp), b, r, h2, fun x hx => hin x (by simp [hx]), hr,
              by simp, by simp at hlen; omega⟩

/-- **C29.** A plain die makes exactly one draw and returns it. -/
theorem C29_plain {S : Type} (next : S → Except PyErr ℤ × S) (fuel : ℕ) (s s' : S) (v : ℤ) :
    singleRoll next none fuel s = (.ok v, s') ↔ Draws next s [v] s' := by
  unfold singleRoll
  cases hn : next s with
  | mk res s1 =>
    cases res with
    | error e =>
      simp only [Prod.mk.injEq, reduceCtorEq, false_and, false_iff]
      intro hd
      cases hd with | cons h1 h2 => rw [hn] at h1; cases h1
    | ok r1 =>
      simp only [Prod.mk.injEq, Except.ok.injEq]
      constructor
      · rintro ⟨rfl, rfl⟩; exact .cons hn (.nil _)
      · intro hd
        cases hd with
        | cons h1 h2 => rw [hn] at h1; cases h1; cases h2; exact ⟨rfl, rfl⟩

theorem draws_range {S : Type} {next : S → Except PyErr ℤ × S} {lo hi : ℤ}
    (hr : ∀ s r s', next s = (.ok r, s') → lo ≤ r ∧ r ≤ hi) :
    ∀ {s rs s'}, Draws next s rs s' → ∀ r ∈ rs, lo ≤ r ∧ r ≤ hi := by
  intro s rs s' h
  induction h with
  | nil => simp
  | cons h1 _ ih =>
    intro r hr'
    rcases List.mem_cons.1 hr' with rfl | hr'
    · exact hr _ _ _ h1
    · exact ih r hr'

/-- **C29.** With rolls in `1..sides`, a die that explodes on its highest face never shows a multiple
of the number of sides, and a result in `(k*sides, (k+1)*sides)` used exactly `k+1` rolls. -/
theorem C29_never_multiple {S : Type} (next : S → Except PyErr ℤ × S) (d : DieSpec) (fuel : ℕ)
    (s s' : S) (v : ℤ) (hd : dieInit (some d.sides) (.one (some d.sides)) = .ok d)
    (hr : ∀ s r s', next s = (.ok r, s') → 1 ≤ r ∧ r ≤ d.sides)
    (h : singleRoll next d.explodeOn fuel s = (.ok v, s')) :
    ¬ d.sides ∣ v ∧ ∃ rs, Draws next s rs s' ∧ (rs.length : ℤ) = v / d.sides + 1 := by
  obtain ⟨h2, -, h3, -⟩ := (C28_accepted_iff _ _ _).1 hd
  have he : d.explodeOn = some [d.sides] := by
    cases hx : d.explodeOn with
    | none => rw [hx] at h3; simp [ExplodeArg.toList?] at h3
    | some l =>
      rw [hx] at h3
      simp only [ExplodeArg.toList?, Option.map_some, Option.some.injEq] at h3
      cases l with
      | nil => simp at h3
      | cons a b =>
        simp only [List.map_cons, List.cons.injEq, Option.some.injEq] at h3
        obtain ⟨h3, h5⟩ := h3
        have : b = [] := by simpa using h5.symm
        rw [this, h3]
  rw [he, C29_roll_iff] at h
  obtain ⟨rs, r, hdr, hin, hnot, rfl, -⟩ := h
  have hs : rs.sum = rs.length * d.sides := by
    have : ∀ (rs : List ℤ), (∀ x ∈ rs, x ∈ [d.sides]) → rs.sum = rs.length * d.sides := by
      intro rs
      induction rs with
      | nil => simp
      | cons a b ih =>
        intro h
        have ha : a = d.sides := by simpa using h a (by simp)
        rw [List.sum_cons, ih (fun x hx => h x (by simp [hx])), ha]
        push_cast [List.length_cons]; ring
    exact this rs hin
  have hrr := draws_range hr hdr r (by simp)
  have hne : r ≠ d.sides := by simpa using hnot
  have hlt : r < d.sides := lt_of_le_of_ne hrr.2 hne
  constructor
  · intro hdvd
    rw [hs] at hdvd
    have : d.sides ∣ r := (Int.dvd_add_right (Dvd.intro_left _ rfl)).1 hdvd
    have := Int.le_of_dvd (by omega) this
    omega
  · refine ⟨rs ++ [r], hdr, ?_⟩
    rw [hs, add_comm (_ * _) r, Int.add_mul_ediv_right _ _ (by omega), Int.ediv_eq_zero_of_lt (by omega) hlt]
    simp

/-- **C29.** Results are at least 1 and at most `sides` times the number of rolls. -/
theorem C29_range {S : Type} (next : S → Except PyErr ℤ × S) (sides : ℤ) (l : List ℤ) (fuel : ℕ)
    (s s' : S) (v : ℤ) (hr : ∀ s r s', next s = (.ok r, s') → 1 ≤ r ∧ r ≤ sides)
    (h : singleRoll next (some l) fuel s = (.ok v, s')) :
    ∃ rs, Draws next s rs s' ∧ 1 ≤ rs.length ∧ rs.sum = v ∧ rs.length ≤ v ∧ v ≤ sides * rs.length := by
  rw [C29_roll_iff] at h
  obtain ⟨rs, r, hdr, hin, hnot, rfl, -⟩ := h
  have hrr := draws_range hr hdr
  refine ⟨rs ++ [r], hdr, by simp, by simp, ?_⟩
  have : ∀ (rs : List ℤ), (∀ x ∈ rs, 1 ≤ x ∧ x ≤ sides) →
      (rs.length : ℤ) ≤ rs.sum ∧ rs.sum ≤ sides * rs.length := by
    intro rs
    induction rs with
    | nil => simp
    | cons a b ih =>
      intro h
      have h1 := ih (fun x hx => h x (by simp [hx]))
      have h2 := h a (by simp)
      rw [List.sum_cons, List.length_cons]
      push_cast
      constructor <;> nlinarith
  have h1 := this _ hrr
  simpa using h1

/-- **C29.** The bound on the number of rolls in the model is immaterial: more of it never changes a
result. -/
theorem C29_fuel_irrelevant {S : Type} (next : S → Except PyErr ℤ × S) (l : List ℤ) (fuel fuel' : ℕ)
    (s s' : S) (v : ℤ) (hf : fuel ≤ fuel') (h : singleRoll next (some l) fuel s = (.ok v, s')) :
    singleRoll next (some l) fuel' s = (.ok v, s') := by
  rw [C29_roll_iff] at h ⊢
  obtain ⟨rs, r, h1, h2, h3, h4, h5⟩ := h
  exact ⟨rs, r, h1, h2, h3, h4, le_trans h5 hf⟩

/-- A generator reading rolls from a list, for the examples. -/
def rollsFrom (s : List ℤ) : Except PyErr ℤ × List ℤ :=
  match s with
  | [] => (.error .indexError, [])
  | r :: rs => (.ok r, rs)

example : singleRoll rollsFrom (some [6]) 10 [6, 6, 3, 1] = (.ok 15, [1]) := by decide
/-- The hypotheses of `C29_never_multiple` are met by an accepted die, a generator with values in
`1..6` and a roll that explodes once. -/
example : dieInit (some 6) (.one (some 6)) = .ok ⟨6, some [6]⟩ ∧
    (∀ (s : ℕ) r s', (fun s : ℕ => ((.ok ((s : ℤ) % 6 + 1) : Except PyErr ℤ), s + 1)) s = (.ok r, s') →
      1 ≤ r ∧ r ≤ 6) ∧
    singleRoll (fun s : ℕ => ((.ok ((s : ℤ) % 6 + 1) : Except PyErr ℤ), s + 1)) (some [6]) 10 5
      = (.ok 7, 7) := by
  refine ⟨rfl, ?_, by decide⟩
  intro s r s' h
  simp only [Prod.mk.injEq, Except.ok.injEq] at h
  omega
example : singleRoll rollsFrom none 0 [4, 1] = (.ok 4, [1]) := by decide

end Verif
