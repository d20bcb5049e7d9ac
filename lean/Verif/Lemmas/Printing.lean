import Verif.Spec.PrintedForm
import Mathlib.Data.List.Basic
import Std.Data.String.ToInt

/-! Reading printed expressions back: scanning text with parentheses. -/

namespace Verif

open Spec

/-- `Bal p k l`: reading `l` at parenthesis depth `k` meets no character of `p` and no `)` at depth 0, and
ends at depth 0. -/
def Bal (p : Char → Bool) : ℕ → List Char → Prop
  | k, [] => k = 0
  | 0, c :: cs => p c = false ∧ c ≠ ')' ∧ Bal p (if c = '(' then 1 else 0) cs
  | k + 1, c :: cs => Bal p (if c = '(' then k + 2 else if c = ')' then k else k + 1) cs

/-- The text up to the first character of `p` at depth 0. -/
def cutAt (p : Char → Bool) : ℕ → List Char → List Char
  | _, [] => []
  | 0, c :: cs => if p c then [] else c :: cutAt p (if c = '(' then 1 else 0) cs
  | k + 1, c :: cs => c :: cutAt p (if c = '(' then k + 2 else if c = ')' then k else k + 1) cs

/-- The rest begins with a character of `p`, or is empty. -/
def Stops (p : Char → Bool) : List Char → Prop
  | [] => True
  | c :: _ => p c = true

theorem cutAt_append {p : Char → Bool} {r : List Char} (hr : Stops p r) :
    ∀ (l : List Char) (k : ℕ), Bal p k l → cutAt p k (l ++ r) = l := by
  intro l
  induction l with
  | nil =>
    intro k hk
    obtain rfl : k = 0 := hk
    cases r with
    | nil => rfl
    | cons c r => simp only [List.nil_append, cutAt]; rw [if_pos (show p c = true from hr)]
  | cons c l ih =>
    intro k hk
    cases k with
    | zero =>
      obtain ⟨h1, h2, h3⟩ := hk
      simp only [List.cons_append, cutAt, h1, Bool.false_eq_true, if_false]
      rw [ih _ h3]
    | succ k =>
      simp only [List.cons_append, cutAt]
      rw [ih _ hk]

/-- Two texts with the same first part up to a stop. -/
theorem bal_unique {p : Char → Bool} {l l' r r' : List Char} (hl : Bal p 0 l) (hl' : Bal p 0 l')
    (hr : Stops p r) (hr' : Stops p r') (h : l ++ r = l' ++ r') : l = l' ∧ r = r' := by
  have h1 := cutAt_append hr l 0 hl
  have h2 := cutAt_append hr' l' 0 hl'
  rw [h] at h1
  have : l = l' := h1.symm.trans h2
  subst this
  exact ⟨rfl, List.append_cancel_left h⟩

theorem bal_append {p : Char → Bool} {r : List Char} (hr : Bal p 0 r) :
    ∀ (l : List Char) (k : ℕ), Bal p k l → Bal p k (l ++ r) := by
  intro l
  induction l with
  | nil =>
    intro k hk
    obtain rfl : k = 0 := hk
    exact hr
  | cons c l ih =>
    intro k hk
    cases k with
    | zero => exact ⟨hk.1, hk.2.1, ih _ hk.2.2⟩
    | succ k => exact ih _ hk

theorem bal_mono {p q : Char → Bool} (hpq : ∀ c, q c = true → p c = true) :
    ∀ (l : List Char) (k : ℕ), Bal p k l → Bal q k l := by
  intro l
  induction l with
  | nil => intro k hk; exact hk
  | cons c l ih =>
    intro k hk
    cases k with
    | zero =>
      refine ⟨?_, hk.2.1, ih _ hk.2.2⟩
      by_contra h
      have := hpq c (by simpa using h)
      rw [hk.1] at this
      cases this
    | succ k => exact ih _ hk

theorem bal_close {p q : Char → Bool} {r : List Char} (hr : Bal p 0 r) :
    ∀ (l : List Char) (k : ℕ), Bal q k l → Bal p (k + 1) (l ++ ')' :: r) := by
  intro l
  induction l with
  | nil =>
    intro k hk
    obtain rfl : k = 0 := hk
    simpa [Bal] using hr
  | cons c l ih =>
    intro k hk
    cases k with
    | zero =>
      have h3 := ih _ hk.2.2
      have h2 := hk.2.1
      show Bal p (if c = '(' then 2 else if c = ')' then 0 else 1) (l ++ ')' :: r)
      rw [if_neg h2]
      by_cases hc : c = '('
      · rw [if_pos hc] at h3 ⊢; exact h3
      · rw [if_neg hc] at h3 ⊢; exact h3
    | succ k =>
      have h3 := ih _ hk
      show Bal p (if c = '(' then k + 3 else if c = ')' then k + 1 else k + 2) (l ++ ')' :: r)
      split_ifs at h3 ⊢ <;> exact h3

/-- Text without parentheses and without characters of `p`. -/
theorem bal_flat {p : Char → Bool} {l : List Char} (h : ∀ c ∈ l, p c = false ∧ c ≠ '(' ∧ c ≠ ')') :
    Bal p 0 l := by
  induction l with
  | nil => rfl
  | cons c l ih =>
    obtain ⟨h1, h2, h3⟩ := h c (by simp)
    refine ⟨h1, h3, ?_⟩
    rw [if_neg h2]
    exact ih fun c hc => h c (by simp [hc])

/-- `name(inner)`. -/
theorem bal_call {p q : Char → Bool} {name inner : List Char} (hp : p '(' = false)
    (hn : ∀ c ∈ name, p c = false ∧ c ≠ '(' ∧ c ≠ ')') (hi : Bal q 0 inner) :
    Bal p 0 (name ++ '(' :: (inner ++ [')'])) :=
  bal_append (r := '(' :: (inner ++ [')'])) ⟨hp, by decide, by simpa using bal_close (r := []) rfl inner 0 hi⟩
    name 0 (bal_flat hn)

/-! ### Argument lists -/

/-- `a, b, c`. -/
def joinArgs : List (List Char) → List Char
  | [] => []
  | [a] => a
  | a :: b :: as => a ++ ',' :: ' ' :: joinArgs (b :: as)

def isComma (c : Char) : Bool := c == ','
def isSep (c : Char) : Bool := c == ',' || c == ' '
def isOpen (c : Char) : Bool := c == '('
def isSpace (c : Char) : Bool := c == ' '
def noChar (_ : Char) : Bool := false

theorem joinArgs_bal {as : List (List Char)} (h : ∀ a ∈ as, Bal isComma 0 a) : Bal noChar 0 (joinArgs as) := by
  induction as with
  | nil => rfl
  | cons a as ih =>
    have ha : Bal noChar 0 a := bal_mono (by simp [noChar]) _ _ (h a (by simp))
    cases as with
    | nil => exact ha
    | cons b as =>
      refine bal_append (r := ',' :: ' ' :: joinArgs (b :: as)) ?_ a 0 ha
      refine ⟨rfl, by decide, ?_⟩
      refine ⟨rfl, by decide, ?_⟩
      exact ih fun x hx => h x (by simp [hx])

theorem joinArgs_inj : ∀ {as bs : List (List Char)}, (∀ a ∈ as, Bal isComma 0 a) → (∀ b ∈ bs, Bal isComma 0 b) →
    as ≠ [] → bs ≠ [] → joinArgs as = joinArgs bs → as = bs := by
  intro as
  induction as with
  | nil => intro bs _ _ h; exact absurd rfl h
  | cons a as ih =>
    intro bs ha hb _ hbs h
    cases bs with
    | nil => exact absurd rfl hbs
    | cons b bs =>
      have ha0 := ha a (by simp)
      have hb0 := hb b (by simp)
      have e1 : ∀ (x : List Char) (xs : List (List Char)), ∃ r, joinArgs (x :: xs) = x ++ r ∧ Stops isComma r ∧
          (xs = [] → r = []) ∧ (xs ≠ [] → r = ',' :: ' ' :: joinArgs xs) := by
        intro x xs
        cases xs with
        | nil => exact ⟨[], by simp [joinArgs], trivial, fun _ => rfl, fun h => absurd rfl h⟩
        | cons y ys =>
          exact ⟨',' :: ' ' :: joinArgs (y :: ys), rfl, show isComma ',' = true from rfl, fun h => absurd h (by simp),
            fun _ => rfl⟩
      obtain ⟨r, h1, h2, h3, h4⟩ := e1 a as
      obtain ⟨r', h1', h2', h3', h4'⟩ := e1 b bs
      rw [h1, h1'] at h
      obtain ⟨rfl, hr⟩ := bal_unique ha0 hb0 h2 h2' h
      by_cases hA : as = []
      · by_cases hB : bs = []
        · rw [hA, hB]
        · rw [h3 hA, h4' hB] at hr; cases hr
      · by_cases hB : bs = []
        · rw [h4 hA, h3' hB] at hr; cases hr
        · rw [h4 hA, h4' hB] at hr
          simp only [List.cons.injEq, true_and] at hr
          rw [ih (fun x hx => ha x (by simp [hx])) (fun x hx => hb x (by simp [hx])) hA hB hr]

theorem call_inj {n n' : List Char} {as bs : List (List Char)} (hn : '(' ∉ n) (hn' : '(' ∉ n')
    (ha : ∀ a ∈ as, Bal isComma 0 a) (hb : ∀ b ∈ bs, Bal isComma 0 b) (ha0 : as ≠ []) (hb0 : bs ≠ [])
    (h : n ++ '(' :: (joinArgs as ++ [')']) = n' ++ '(' :: (joinArgs bs ++ [')'])) : n = n' ∧ as = bs := by
  have key : ∀ (a b r r' : List Char), '(' ∉ a → '(' ∉ b → a ++ '(' :: r = b ++ '(' :: r' → a = b ∧ r = r' := by
    intro a
    induction a with
    | nil =>
      intro b r r' _ hb h
      cases b with
      | nil => simpa using h
      | cons c b =>
        simp only [List.nil_append, List.cons_append, List.cons.injEq] at h
        exact absurd (by rw [h.1]; simp) hb
    | cons c a ih =>
      intro b r r' ha hb h
      cases b with
      | nil =>
        simp only [List.nil_append, List.cons_append, List.cons.injEq] at h
        exact absurd (by rw [h.1]; simp) ha
      | cons c' b =>
        simp only [List.cons_append, List.cons.injEq] at h
        obtain ⟨h1, h2⟩ := ih b r r' (fun h => ha (by simp [h])) (fun h => hb (by simp [h])) h.2
        exact ⟨by rw [h.1, h1], h2⟩
  obtain ⟨h1, h2⟩ := key _ _ _ _ hn hn' h
  exact ⟨h1, joinArgs_inj ha hb ha0 hb0 (List.append_cancel_right h2)⟩

end Verif
