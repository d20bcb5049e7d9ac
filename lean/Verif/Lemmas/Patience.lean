import Verif.Props.Seed

/-!
# Helper lemmas: loops that are carried out to their end
-/

namespace Verif

section

variable {S : Type} {next : S → Except PyErr ℤ × S} {l : List ℤ}

theorem explodeLoop_more : ∀ (f f' : ℕ) (r tot : ℤ) (s : S), f ≤ f' →
    (explodeLoop next l f r tot s).1 ≠ .error .outOfFuel →
    explodeLoop next l f' r tot s = explodeLoop next l f r tot s := by
  intro f
  induction f with
  | zero =>
    intro f' r tot s _ h
    by_cases hr : r ∈ l
    · simp [explodeLoop, hr] at h
    · cases f' <;> simp [explodeLoop, hr]
  | succ f ih =>
    intro f' r tot s hf h
    obtain ⟨f', rfl⟩ : ∃ k, f' = k + 1 := ⟨f' - 1, by omega⟩
    by_cases hr : r ∈ l
    · simp only [explodeLoop, hr, if_true] at h ⊢
      cases hn : next s with
      | mk res s1 =>
        rw [hn] at h
        cases res with
        | error e => rfl
        | ok x => exact ih f' x _ s1 (by omega) h
    · simp [explodeLoop, hr]

theorem singleRoll_more (ex : Option (List ℤ)) {f f' : ℕ} {s : S} (hf : f ≤ f')
    (h : (singleRoll next ex f s).1 ≠ .error .outOfFuel) : singleRoll next ex f' s = singleRoll next ex f s := by
  unfold singleRoll at h ⊢
  cases hn : next s with
  | mk res s1 =>
    rw [hn] at h
    cases res with
    | error e => rfl
    | ok x =>
      cases ex with
      | none => rfl
      | some l => exact explodeLoop_more f f' x x s1 hf h

theorem singleRoll_agree (ex : Option (List ℤ)) {f f' : ℕ} {s : S}
    (h : (singleRoll next ex f s).1 ≠ .error .outOfFuel) (h' : (singleRoll next ex f' s).1 ≠ .error .outOfFuel) :
    singleRoll next ex f s = singleRoll next ex f' s := by
  rcases le_total f f' with hf | hf
  · exact (singleRoll_more ex hf h).symm
  · exact singleRoll_more ex hf h'

end

variable {σ K : Type} [Field K] [LinearOrder K] [FloorRing K]

/-- A roll that ends is carried out. -/
theorem rollDie_eq {E : Env σ K} (hE : E.Patient) {d : DieSpec} {s : St σ K} {f : ℕ}
    (h : (singleRoll (drawInt E 1 (d.sides + 1)) d.explodeOn f s).1 ≠ .error .outOfFuel) :
    rollDie E d s = singleRoll (drawInt E 1 (d.sides + 1)) d.explodeOn f s :=
  singleRoll_agree d.explodeOn (hE d s f h) h

open Classical in
/-- The same environment, with loops that are carried out to their end. -/
noncomputable def Env.patient (E : Env σ K) : Env σ K :=
  { E with fuel := fun d g =>
      if h : ∃ f, (singleRoll (drawInt E 1 (d.sides + 1)) d.explodeOn f ⟨g, fun _ _ => none⟩).1 ≠ .error .outOfFuel
      then h.choose else 0 }

/-- There is such an environment for every generator. -/
theorem Env.patient_patient (E : Env σ K) : E.patient.Patient := by
  intro d s f hf
  have key : ∀ f, (singleRoll (drawInt E 1 (d.sides + 1)) d.explodeOn f s).1
      = (singleRoll (drawInt E 1 (d.sides + 1)) d.explodeOn f ⟨s.rng, fun _ _ => none⟩).1 := by
    intro f
    have h := (singleRoll_blind (drawInt_blind E 1 (d.sides + 1)) d.explodeOn f s ⟨s.rng, fun _ _ => none⟩ rfl).2
    revert h
    cases (singleRoll (drawInt E 1 (d.sides + 1)) d.explodeOn f s).1 <;>
      cases (singleRoll (drawInt E 1 (d.sides + 1)) d.explodeOn f ⟨s.rng, fun _ _ => none⟩).1 <;> simp
  have h : ∃ f, (singleRoll (drawInt E 1 (d.sides + 1)) d.explodeOn f ⟨s.rng, fun _ _ => none⟩).1
      ≠ .error .outOfFuel := ⟨f, by rw [← key]; exact hf⟩
  change (singleRoll (drawInt E 1 (d.sides + 1)) d.explodeOn (E.patient.fuel d s.rng) s).1 ≠ _
  rw [key]
  simp only [Env.patient, dif_pos h]
  exact h.choose_spec

end Verif
