import Verif.Model.HeapSample
import Verif.Props.Seed
import Verif.Lemmas.Group

/-! # Lemmas for C131: sampling objects that point to each other -/

namespace Verif

variable {σ : Type} {α β γ δ : Type}

/-- Two computations started in related states end alike: related results or the same exception, and related
states. -/
def SM.Sim (I : St σ ℝ → St σ ℝ → Prop) (R : α → β → Prop) (m : SM σ ℝ α) (m' : SM σ ℝ β) : Prop :=
  ∀ s t, I s t → I (m s).2 (m' t).2 ∧
    ((∃ a b, (m s).1 = .ok a ∧ (m' t).1 = .ok b ∧ R a b) ∨ ∃ e, (m s).1 = .error e ∧ (m' t).1 = .error e)

/-- A relation of states that is about the same generator and survives drawing from it. -/
structure SteadyRel (I : St σ ℝ → St σ ℝ → Prop) : Prop where
  rng : ∀ s t, I s t → s.rng = t.rng
  draw : ∀ s t r, I s t → I { s with rng := r } { t with rng := r }

namespace SM.Sim

variable {I : St σ ℝ → St σ ℝ → Prop} {R : α → β → Prop} {Q : γ → δ → Prop}

theorem bind {m : SM σ ℝ α} {m' : SM σ ℝ β} {f : α → SM σ ℝ γ} {f' : β → SM σ ℝ δ} (h : SM.Sim I R m m')
    (hf : ∀ a b, R a b → SM.Sim I Q (f a) (f' b)) : SM.Sim I Q (SM.bind m f) (SM.bind m' f') := by
  intro s t hst
  have h1 := h s t hst
  unfold SM.bind
  rcases hm : m s with ⟨r1, s1⟩
  rcases hm' : m' t with ⟨r2, t1⟩
  rw [hm, hm'] at h1
  obtain ⟨h2, ⟨a, b, ha, hb, hab⟩ | ⟨e, ha, hb⟩⟩ := h1
  · simp only at ha hb
    subst ha; subst hb
    exact hf a b hab s1 t1 h2
  · simp only at ha hb
    subst ha; subst hb
    exact ⟨h2, Or.inr ⟨e, rfl, rfl⟩⟩

theorem pure {a : α} {b : β} (h : R a b) : SM.Sim I R (SM.pure a) (SM.pure b) :=
  fun _ _ hst => ⟨hst, Or.inl ⟨a, b, rfl, rfl, h⟩⟩

theorem throw (e : PyErr) : SM.Sim I R (SM.throw (α := α) e) (SM.throw (α := β) e) :=
  fun _ _ hst => ⟨hst, Or.inr ⟨e, rfl, rfl⟩⟩

theorem lift (r : Except PyErr α) : SM.Sim I Eq (SM.lift r) (SM.lift r) := fun _ _ hst => by
  refine ⟨hst, ?_⟩
  cases r with
  | ok a => exact Or.inl ⟨a, a, rfl, rfl, rfl⟩
  | error e => exact Or.inr ⟨e, rfl, rfl⟩

theorem mapL {f : α → SM σ ℝ γ} {f' : β → SM σ ℝ δ} {as : List α} {bs : List β} (h : List.Forall₂ R as bs)
    (hf : ∀ a b, R a b → SM.Sim I Q (f a) (f' b)) :
    SM.Sim I (List.Forall₂ Q) (SM.mapL f as) (SM.mapL f' bs) := by
  induction h with
  | nil => exact .pure .nil
  | cons hab _ ih => exact (hf _ _ hab).bind fun _ _ hc => ih.bind fun _ _ hcs => .pure (.cons hc hcs)

theorem replicateL {m : SM σ ℝ α} {m' : SM σ ℝ β} (h : SM.Sim I R m m') (n : ℕ) :
    SM.Sim I (List.Forall₂ R) (SM.replicateL m n) (SM.replicateL m' n) := by
  induction n with
  | zero => exact .pure .nil
  | succ n ih => exact h.bind fun _ _ hc => ih.bind fun _ _ hcs => .pure (.cons hc hcs)

end SM.Sim

section

variable {I : St σ ℝ → St σ ℝ → Prop}

theorem mapL_simEq {f f' : α → SM σ ℝ γ} (as : List α) (hf : ∀ a ∈ as, SM.Sim I Eq (f a) (f' a)) :
    SM.Sim I Eq (SM.mapL f as) (SM.mapL f' as) := by
  induction as with
  | nil => exact .pure rfl
  | cons a as ih =>
    refine (hf a (by simp)).bind ?_
    rintro b _ rfl
    refine (ih fun x hx => hf x (by simp [hx])).bind ?_
    rintro bs _ rfl
    exact .pure rfl

theorem replicateL_simEq {m m' : SM σ ℝ α} (h : SM.Sim I Eq m m') (n : ℕ) :
    SM.Sim I Eq (SM.replicateL m n) (SM.replicateL m' n) := by
  have := h.replicateL n
  rwa [List.forall₂_eq_eq_eq] at this

theorem drawSM_sim (hI : SteadyRel I) (E : Env σ ℝ) (p : Prim ℝ) (n : ℕ) :
    SM.Sim I Eq (drawSM E p n) (drawSM E p n) := by
  intro s t hst
  have h := hI.rng s t hst
  unfold drawSM
  rw [h]
  rcases E.gen.draw p n t.rng with ⟨r, g⟩
  refine ⟨hI.draw s t g hst, ?_⟩
  cases r with
  | ok a => exact Or.inl ⟨a, a, rfl, rfl, rfl⟩
  | error e => exact Or.inr ⟨e, rfl, rfl⟩

theorem leafSample_sim (hI : SteadyRel I) (E : Env σ ℝ) (l : Leaf ℝ) (n : ℕ) :
    SM.Sim I Eq (leafSample E l n) (leafSample E l n) := by
  intro s t hst
  have h1 := leafSample_blind E l n s t (hI.rng s t hst)
  have hs : (leafSample E l n s).2 = { s with rng := (leafSample E l n s).2.rng } := by
    have : (leafSample E l n s).2.left = s.left := funext fun g => leafSample_keeps g E l n s
    rw [← this]
  have ht : (leafSample E l n t).2 = { t with rng := (leafSample E l n t).2.rng } := by
    have : (leafSample E l n t).2.left = t.left := funext fun g => leafSample_keeps g E l n t
    rw [← this]
  constructor
  · rw [hs, ht, h1.1]
    exact hI.draw s t _ hst
  · have h2 := h1.2
    rcases h : (leafSample E l n s).1 with e | a <;> rcases h' : (leafSample E l n t).1 with e' | a' <;>
      rw [h, h'] at h2 <;> simp only at h2
    · exact Or.inr ⟨e, rfl, by rw [h2]⟩
    · exact Or.inl ⟨a, a', rfl, rfl, h2⟩

theorem mixtureRun_sim {ι : Type} (hI : SteadyRel I) (E : Env σ ℝ) {comp comp' : ι → ℕ → SM σ ℝ (Samples ℝ)}
    (hc : ∀ i n, SM.Sim I Eq (comp i n) (comp' i n)) (ws : List ℝ) (vals : List ι) (n : ℕ) :
    SM.Sim I Eq (mixtureRun E comp ws vals n) (mixtureRun E comp' ws vals n) := by
  intro s t hst
  unfold mixtureRun
  split
  · exact SM.Sim.throw _ s t hst
  · split
    · exact hc _ _ s t hst
    · split_ifs
      · refine SM.Sim.bind (mapL_simEq _ fun i _ => hc i n) ?_ s t hst
        rintro a _ rfl
        refine (drawSM_sim hI E _ _).bind ?_
        rintro us _ rfl
        exact SM.Sim.lift _
      · refine SM.Sim.bind (replicateL_simEq ?_ n) ?_ s t hst
        · refine (drawSM_sim hI E _ _).bind ?_
          rintro us _ rfl
          intro s t hst
          dsimp only
          split
          · split
            · exact hc _ _ s t hst
            · exact SM.Sim.throw _ s t hst
          · exact SM.Sim.throw _ s t hst
        · rintro ss _ rfl
          intro s t hst
          dsimp only
          split
          · exact SM.Sim.pure rfl s t hst
          · exact SM.Sim.lift _ s t hst

theorem withClips_sim (E : Env σ ℝ) (own : Option (Scalar ℝ) × Option (Scalar ℝ))
    {raw raw' : ℕ → SM σ ℝ (Samples ℝ)} {n : ℕ} (h : n ≠ 0 → SM.Sim I Eq (raw n) (raw' n))
    (lc rc : Option (Scalar ℝ)) :
    SM.Sim I Eq (withClips E own raw n lc rc) (withClips E own raw' n lc rc) := by
  unfold withClips
  split_ifs with hn
  · exact SM.Sim.throw _
  · refine (SM.Sim.lift _).bind ?_
    rintro l _ rfl
    refine (SM.Sim.lift _).bind ?_
    rintro r _ rfl
    refine (h hn).bind ?_
    rintro x _ rfl
    exact SM.Sim.lift _

end

/-! ## The environment -/

/-- The external functions with another correlation step for trees. -/
def Env.withInduce (E : Env σ ℝ) (f : ℕ → List (List ℝ) → Except PyErr (List (List ℝ))) : Env σ ℝ :=
  { E with induce := f }

theorem leafSample_withInduce (E : Env σ ℝ) (f : ℕ → List (List ℝ) → Except PyErr (List (List ℝ)))
    (l : Leaf ℝ) (n : ℕ) : leafSample (E.withInduce f) l n = leafSample E l n := by
  cases l <;> rfl

theorem heapSample_withInduce (X : HEnv σ) (H : DHeap HPay)
    (f : ℕ → List (List ℝ) → Except PyErr (List (List ℝ))) (fuel : ℕ) :
    heapSample ⟨X.E.withInduce f, X.induce⟩ H fuel = heapSample X H fuel := by
  induction fuel with
  | zero => rfl
  | succ fuel ih =>
    funext a corr n lc rc
    simp only [heapSample, ih]
    cases H.nodes[a]? with
    | none => rfl
    | some nd =>
      have hd : ∀ rec m, heapDispatch ⟨X.E.withInduce f, X.induce⟩ rec nd m = heapDispatch X rec nd m := by
        intro rec m
        unfold heapDispatch
        split
        · exact leafSample_withInduce _ _ _ _
        all_goals rfl
      have hr : ∀ rec, heapRaw ⟨X.E.withInduce f, X.induce⟩ H rec a nd corr = heapRaw X H rec a nd corr := by
        intro rec
        funext m
        unfold heapRaw
        split
        · rfl
        · exact hd rec m
      simp only [hr]
      rfl

end Verif
