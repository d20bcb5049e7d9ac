import Verif.Model.Sample
import Mathlib.Data.List.Forall2
import Mathlib.Data.List.FinRange

/-! # Helper lemmas about the sampler monad and elementwise functions -/

namespace Verif

variable {σ K : Type}

/-! ### The monad -/

theorem SM.bind_ok {α β : Type} {m : SM σ K α} {f : α → SM σ K β} {s s' : St σ K} {b : β} :
    SM.bind m f s = (.ok b, s') ↔ ∃ a s1, m s = (.ok a, s1) ∧ f a s1 = (.ok b, s') := by
  unfold SM.bind
  cases hm : m s with
  | mk r s1 =>
    cases r with
    | error e => simp
    | ok a => simp

theorem SM.pure_ok {α : Type} {a b : α} {s s' : St σ K} :
    SM.pure a s = (.ok b, s') ↔ a = b ∧ s = s' := by
  simp [SM.pure]

theorem SM.lift_ok {α : Type} {r : Except PyErr α} {b : α} {s s' : St σ K} :
    SM.lift r s = (.ok b, s') ↔ r = .ok b ∧ s = s' := by
  simp [SM.lift]

theorem SM.throw_ok {α : Type} {e : PyErr} {b : α} {s s' : St σ K} :
    SM.throw e s = (.ok b, s') ↔ False := by
  simp [SM.throw]

theorem Except.bind_ok_iff {α β : Type} {m : Except PyErr α} {f : α → Except PyErr β} {b : β} :
    (m >>= f) = .ok b ↔ ∃ a, m = .ok a ∧ f a = .ok b := by
  cases m with
  | error e =>
    rw [show ((Except.error e : Except PyErr α) >>= f) = Except.error e from rfl]
    simp
  | ok a =>
    rw [show ((Except.ok a : Except PyErr α) >>= f) = f a from rfl]
    simp

/-- A run of one computation per list element, threading the state. -/
inductive SM.Runs {α β : Type} (f : α → SM σ K β) : St σ K → List α → List β → St σ K → Prop
  | nil (s : St σ K) : SM.Runs f s [] [] s
  | cons {s s1 s2 : St σ K} {a : α} {b : β} {as : List α} {bs : List β} :
      f a s = (.ok b, s1) → SM.Runs f s1 as bs s2 → SM.Runs f s (a :: as) (b :: bs) s2

theorem SM.mapL_ok {α β : Type} {f : α → SM σ K β} : ∀ {as : List α} {bs : List β}
    {s s' : St σ K}, SM.mapL f as s = (.ok bs, s') ↔ SM.Runs f s as bs s'
  | [], bs, s, s' => by
    simp only [SM.mapL, SM.pure_ok]
    constructor
    · rintro ⟨rfl, rfl⟩; exact .nil _
    · rintro ⟨⟩; exact ⟨rfl, rfl⟩
  | a :: as, bs, s, s' => by
    simp only [SM.mapL, SM.bind_ok, SM.pure_ok]
    constructor
    · rintro ⟨b, s1, h1, bs', s2, h2, rfl, rfl⟩
      exact .cons h1 (SM.mapL_ok.1 h2)
    · rintro (_ | ⟨h1, h2⟩)
      exact ⟨_, _, h1, _, _, SM.mapL_ok.2 h2, rfl, rfl⟩

theorem SM.Runs.length {α β : Type} {f : α → SM σ K β} {as : List α} {bs : List β}
    {s s' : St σ K} (h : SM.Runs f s as bs s') : bs.length = as.length := by
  induction h with
  | nil => rfl
  | cons _ _ ih => simp [ih]

theorem SM.Runs.forall₂ {α β : Type} {f : α → SM σ K β} {as : List α} {bs : List β}
    {s s' : St σ K} (h : SM.Runs f s as bs s') :
    List.Forall₂ (fun a b => ∃ t t', f a t = (.ok b, t')) as bs := by
  induction h with
  | nil => exact .nil
  | cons h _ ih => exact .cons ⟨_, _, h⟩ ih

theorem SM.replicateL_ok {α : Type} {m : SM σ K α} : ∀ {n : ℕ} {bs : List α} {s s' : St σ K},
    SM.replicateL m n s = (.ok bs, s') ↔ SM.Runs (fun _ : Unit => m) s (List.replicate n ()) bs s'
  | 0, bs, s, s' => by
    simp only [SM.replicateL, SM.pure_ok, List.replicate]
    constructor
    · rintro ⟨rfl, rfl⟩; exact .nil _
    · rintro ⟨⟩; exact ⟨rfl, rfl⟩
  | n + 1, bs, s, s' => by
    simp only [SM.replicateL, SM.bind_ok, SM.pure_ok, List.replicate]
    constructor
    · rintro ⟨b, s1, h1, bs', s2, h2, rfl, rfl⟩
      exact .cons h1 (SM.replicateL_ok.1 h2)
    · rintro (_ | ⟨h1, h2⟩)
      exact ⟨_, _, h1, _, _, SM.replicateL_ok.2 h2, rfl, rfl⟩

/-! ### `mapExcept` -/

theorem mapExcept_ok {α β : Type} {f : α → Except PyErr β} : ∀ {as : List α} {bs : List β},
    mapExcept f as = .ok bs ↔ List.Forall₂ (fun a b => f a = .ok b) as bs
  | [], bs => by
    simp only [mapExcept, Except.ok.injEq, List.forall₂_nil_left_iff]
    exact eq_comm
  | a :: as, bs => by
    simp only [mapExcept, Except.bind_ok_iff, List.forall₂_cons_left_iff, Except.ok.injEq]
    constructor
    · rintro ⟨b, h1, bs', h2, rfl⟩
      exact ⟨b, bs', h1, mapExcept_ok.1 h2, rfl⟩
    · rintro ⟨b, bs', h1, h2, rfl⟩
      exact ⟨b, h1, bs', mapExcept_ok.2 h2, rfl⟩

theorem mapExcept_length {α β : Type} {f : α → Except PyErr β} {as : List α} {bs : List β}
    (h : mapExcept f as = .ok bs) : bs.length = as.length :=
  (mapExcept_ok.1 h).length_eq.symm

/-- Elementwise: the `i`-th output comes from the `i`-th input. -/
theorem mapExcept_get {α β : Type} {f : α → Except PyErr β} {as : List α} {bs : List β}
    (h : mapExcept f as = .ok bs) (i : ℕ) (b : β) (hb : bs[i]? = some b) :
    ∃ a, as[i]? = some a ∧ f a = .ok b := by
  have h' := mapExcept_ok.1 h
  have hi : i < bs.length := by
    by_contra hc
    rw [List.getElem?_eq_none (not_lt.1 hc)] at hb; cases hb
  have hl := h'.length_eq
  refine ⟨as[i]'(by omega), List.getElem?_eq_getElem _, ?_⟩
  have := h'.get (i := i) (by omega) hi
  simp only [List.get_eq_getElem] at this
  rw [this]
  rw [List.getElem?_eq_getElem hi] at hb
  exact congrArg _ (Option.some.inj hb)

end Verif
