import Verif.Model.Program
import Verif.Lemmas.DemoGen

/-! # C19: same seed, same program, same samples -/

namespace Verif

set_option linter.unusedSectionVars false

variable {σ K : Type} [Field K] [LinearOrder K] [FloorRing K]

/-- No correlated variable occurs, and Python functions depend on the state only through the
generator (they are deterministic apart from sampling). -/
def Obj.SeedOnly : Obj (St σ K) K → Prop
  | .lit _ => True
  | .call exn ret next => (∀ s, (ret s).SeedOnly) ∧
      ∀ s t : St σ K, s.rng = t.rng → exn s = exn t ∧ ret s = ret t ∧ (next s).rng = (next t).rng
  | .leaf _ _ _ => True
  | .mix _ ds _ _ _ => ∀ i, (ds i).SeedOnly
  | .un _ left => left.SeedOnly
  | .bin _ left right => left.SeedOnly ∧ right.SeedOnly
  | .userUn _ _ d left => left.SeedOnly ∧ ∀ x, (d x).SeedOnly
  | .userBin _ _ d left right => left.SeedOnly ∧ right.SeedOnly ∧ ∀ x y, (d x y).SeedOnly
  | .corr _ _ _ _ => False

/-- Two computations started with the same generator state end alike: results related by `R` (or the
same exception) and the same generator state. -/
def SM.Rel {α β : Type} (R : α → β → Prop) (m : SM σ K α) (m' : SM σ K β) : Prop :=
  ∀ s t : St σ K, s.rng = t.rng → (m s).2.rng = (m' t).2.rng ∧
    match (m s).1, (m' t).1 with
    | .ok a, .ok b => R a b
    | .error e, .error e' => e = e'
    | _, _ => False

theorem SM.Rel.bind {α β γ δ : Type} {R : α → β → Prop} {Q : γ → δ → Prop} {m : SM σ K α}
    {m' : SM σ K β} {f : α → SM σ K γ} {f' : β → SM σ K δ} (h : SM.Rel R m m')
    (hf : ∀ a b, R a b → SM.Rel Q (f a) (f' b)) : SM.Rel Q (SM.bind m f) (SM.bind m' f') := by
  intro s t hst
  have h1 := h s t hst
  unfold SM.bind
  rcases hm : m s with ⟨r1, s1⟩
  rcases hm' : m' t with ⟨r2, t1⟩
  rw [hm, hm'] at h1
  cases r1 <;> cases r2 <;> simp only at h1 ⊢
  · exact h1
  · exact h1.2.elim
  · exact h1.2.elim
  · exact hf _ _ h1.2 s1 t1 h1.1

theorem SM.Rel.pure {α β : Type} {R : α → β → Prop} {a : α} {b : β} (h : R a b) :
    SM.Rel (σ := σ) (K := K) R (SM.pure a) (SM.pure b) := fun _ _ hst => ⟨hst, h⟩

theorem SM.Rel.throw {α β : Type} {R : α → β → Prop} (e : PyErr) :
    SM.Rel (σ := σ) (K := K) R (SM.throw (α := α) e) (SM.throw (α := β) e) :=
  fun _ _ hst => ⟨hst, rfl⟩

theorem SM.Rel.lift {α : Type} (r : Except PyErr α) :
    SM.Rel (σ := σ) (K := K) Eq (SM.lift r) (SM.lift r) := by
  intro s t hst
  refine ⟨hst, ?_⟩
  cases r <;> rfl

theorem SM.Rel.mapL {α β γ δ : Type} {R : α → β → Prop} {Q : γ → δ → Prop} {f : α → SM σ K γ}
    {f' : β → SM σ K δ} {as : List α} {bs : List β} (h : List.Forall₂ R as bs)
    (hf : ∀ a b, R a b → SM.Rel Q (f a) (f' b)) :
    SM.Rel (List.Forall₂ Q) (SM.mapL f as) (SM.mapL f' bs) := by
  induction h with
  | nil => exact SM.Rel.pure .nil
  | cons hab _ ih =>
    exact (hf _ _ hab).bind fun _ _ hc => ih.bind fun _ _ hcs => SM.Rel.pure (.cons hc hcs)

theorem SM.Rel.replicateL {α β : Type} {R : α → β → Prop} {m : SM σ K α} {m' : SM σ K β}
    (h : SM.Rel R m m') (n : ℕ) :
    SM.Rel (List.Forall₂ R) (SM.replicateL m n) (SM.replicateL m' n) := by
  induction n with
  | zero => exact SM.Rel.pure .nil
  | succ n ih =>
    exact h.bind fun _ _ hc => ih.bind fun _ _ hcs => SM.Rel.pure (.cons hc hcs)

/-- Same computation on both sides, equal results. -/
def SM.Blind {α : Type} (m : SM σ K α) : Prop := SM.Rel Eq m m

theorem SM.Blind.bind {α β : Type} {m : SM σ K α} {f : α → SM σ K β} (h : SM.Blind m)
    (hf : ∀ a, SM.Blind (f a)) : SM.Blind (SM.bind m f) :=
  SM.Rel.bind h (by rintro a _ rfl; exact hf a)

theorem SM.Blind.mapL {α β : Type} {f : α → SM σ K β} (hf : ∀ a, SM.Blind (f a)) (as : List α) :
    SM.Blind (SM.mapL f as) := by
  have := SM.Rel.mapL (R := Eq) (Q := Eq) (f := f) (f' := f) (as := as) (bs := as)
    (List.forall₂_same.2 fun _ _ => rfl) (by rintro a _ rfl; exact hf a)
  rwa [List.forall₂_eq_eq_eq] at this

theorem SM.Blind.replicateL {α : Type} {m : SM σ K α} (h : SM.Blind m) (n : ℕ) :
    SM.Blind (SM.replicateL m n) := by
  have := SM.Rel.replicateL h n
  rwa [List.forall₂_eq_eq_eq] at this

theorem SM.Blind.pure {α : Type} (a : α) : SM.Blind (σ := σ) (K := K) (SM.pure a) := SM.Rel.pure rfl
theorem SM.Blind.lift {α : Type} (r : Except PyErr α) : SM.Blind (σ := σ) (K := K) (SM.lift r) :=
  SM.Rel.lift r
theorem SM.Blind.throw {α : Type} (e : PyErr) : SM.Blind (σ := σ) (K := K) (SM.throw (α := α) e) :=
  SM.Rel.throw e

theorem drawSM_blind (E : Env σ K) (p : Prim K) (n : ℕ) : SM.Blind (drawSM E p n) := by
  intro s t hst
  unfold drawSM
  rw [hst]
  rcases E.gen.draw p n t.rng with ⟨r, g⟩
  refine ⟨rfl, ?_⟩
  cases r <;> rfl

theorem drawSimple_blind (E : Env σ K) (p : Prim K) (n : ℕ) : SM.Blind (drawSimple E p n) :=
  (drawSM_blind E p n).bind fun _ => SM.Blind.pure _

theorem drawInt_blind (E : Env σ K) (low high : ℤ) : SM.Blind (drawInt E low high) := by
  refine (drawSM_blind E _ _).bind fun xs => ?_
  intro s t hst
  dsimp only
  split
  · exact SM.Blind.pure _ s t hst
  · exact SM.Blind.throw _ s t hst

theorem mixtureLarge_blind {ι : Type} (E : Env σ K) {comp : ι → ℕ → SM σ K (Samples K)}
    (hc : ∀ i n, SM.Blind (comp i n)) (ws : List K) (vals : List ι) (n : ℕ) :
    SM.Blind (mixtureLarge E comp ws vals n) :=
  (SM.Blind.mapL (fun i => hc i n) vals).bind fun _ =>
    (drawSM_blind E _ _).bind fun _ => SM.Blind.lift _

theorem mixtureSmall_blind {ι : Type} (E : Env σ K) {comp : ι → ℕ → SM σ K (Samples K)}
    (hc : ∀ i n, SM.Blind (comp i n)) (ws : List K) (vals : List ι) (n : ℕ) :
    SM.Blind (mixtureSmall E comp ws vals n) := by
  refine (SM.Blind.replicateL ?_ n).bind fun ss => ?_
  · refine (drawSM_blind E _ _).bind fun us => ?_
    intro s t hst
    dsimp only
    split
    · split
      · exact hc _ _ s t hst
      · exact SM.Blind.throw _ s t hst
    · exact SM.Blind.throw _ s t hst
  · intro s t hst
    dsimp only
    split
    · exact SM.Blind.pure _ s t hst
    · exact SM.Blind.lift _ s t hst

theorem mixtureRun_blind {ι : Type} (E : Env σ K) {comp : ι → ℕ → SM σ K (Samples K)}
    (hc : ∀ i n, SM.Blind (comp i n)) (ws : List K) (vals : List ι) (n : ℕ) :
    SM.Blind (mixtureRun E comp ws vals n) := by
  intro s t hst
  unfold mixtureRun
  split
  · exact SM.Blind.throw _ s t hst
  · split
    · exact hc _ _ s t hst
    · split_ifs
      · exact mixtureLarge_blind E hc _ _ _ s t hst
      · exact mixtureSmall_blind E hc _ _ _ s t hst

theorem explodeLoop_blind {next : SM σ K ℤ} (h : SM.Blind next) (l : List ℤ) :
    ∀ (fuel : ℕ) (r tot : ℤ), SM.Blind (explodeLoop next l fuel r tot) := by
  intro fuel
  induction fuel with
  | zero =>
    intro r tot s t hst
    simp only [explodeLoop.eq_def next l]
    split_ifs
    · exact ⟨hst, rfl⟩
    · exact ⟨hst, rfl⟩
  | succ fuel ih =>
    intro r tot s t hst
    rw [explodeLoop.eq_def next l (fuel + 1) r tot s, explodeLoop.eq_def next l (fuel + 1) r tot t]
    dsimp only
    split_ifs
    · have h1 := h s t hst
      rcases hm : next s with ⟨r1, s1⟩
      rcases hm' : next t with ⟨r2, t1⟩
      rw [hm, hm'] at h1
      cases r1 <;> cases r2 <;> simp only at h1 ⊢
      · exact h1
      · exact h1.2.elim
      · exact h1.2.elim
      · obtain ⟨h2, rfl⟩ := h1
        exact ih _ _ s1 t1 h2
    · exact ⟨hst, rfl⟩

theorem singleRoll_blind {next : SM σ K ℤ} (h : SM.Blind next) (l : Option (List ℤ)) (fuel : ℕ) :
    SM.Blind (σ := σ) (K := K) (singleRoll next l fuel) := by
  intro s t hst
  unfold singleRoll
  have h1 := h s t hst
  rcases hm : next s with ⟨r1, s1⟩
  rcases hm' : next t with ⟨r2, t1⟩
  rw [hm, hm'] at h1
  cases r1 <;> cases r2 <;> simp only at h1 ⊢
  · exact h1
  · exact h1.2.elim
  · exact h1.2.elim
  · obtain ⟨h2, rfl⟩ := h1
    cases l with
    | none => exact ⟨h2, rfl⟩
    | some l => exact explodeLoop_blind h l fuel _ _ s1 t1 h2

theorem rollDie_blind (E : Env σ K) (d : DieSpec) : SM.Blind (rollDie E d) := by
  intro s t hst
  have h := singleRoll_blind (drawInt_blind E 1 (d.sides + 1)) d.explodeOn (E.fuel d s.rng) s t hst
  unfold rollDie
  rw [← hst]
  exact h

theorem tInterval_blind (E : Env σ K) (low high t cred : K) (n : ℕ) :
    SM.Blind (tInterval E low high t cred n) :=
  (drawSimple_blind E _ _).bind fun _ => (drawSimple_blind E _ _).bind fun _ => SM.Blind.lift _

theorem leafSample_blind (E : Env σ K) (l : Leaf K) (n : ℕ) : SM.Blind (leafSample E l n) := by
  cases l with
  | const v => exact SM.Blind.pure _
  | categorical items =>
    exact (SM.Blind.lift _).bind fun p => mixtureRun_blind E (fun _ _ => SM.Blind.pure _) _ _ _
  | invlognormal m s => exact (drawSM_blind E _ _).bind fun _ => SM.Blind.lift _
  | bernoulli p => exact (drawSM_blind E _ _).bind fun _ => SM.Blind.lift _
  | pareto sh => exact (drawSM_blind E _ _).bind fun _ => SM.Blind.lift _
  | pert l m r lam => exact (drawSimple_blind E _ _).bind fun _ => SM.Blind.lift _
  | tdist x y t cred =>
    simp only [leafSample]
    split
    · exact (drawSM_blind E _ _).bind fun _ => SM.Blind.pure _
    · split_ifs
      · exact SM.Blind.throw _
      · exact SM.Blind.pure _
      · exact tInterval_blind E _ _ _ _ _
    · exact SM.Blind.throw _
  | logtdist x y t cred =>
    simp only [leafSample]
    split
    · exact (drawSM_blind E _ _).bind fun _ => SM.Blind.lift _
    · split_ifs
      · exact SM.Blind.throw _
      · exact SM.Blind.throw _
      · exact SM.Blind.pure _
      · exact (tInterval_blind E _ _ _ _ _).bind fun _ => SM.Blind.lift _
    · exact SM.Blind.throw _
  | die d =>
    exact (SM.Blind.replicateL (rollDie_blind E _) n).bind
      fun _ => SM.Blind.pure _
  | coin => exact (drawSM_blind E _ _).bind fun _ => SM.Blind.pure _
  | uniform | normal | lognormal | binomial | beta | poisson | chisquare | exponential | gamma
  | triangular | geometric => exact drawSimple_blind E _ _

theorem withClips_blind (E : Env σ K) (own : Option (Scalar K) × Option (Scalar K))
    {raw : ℕ → SM σ K (Samples K)} (h : ∀ n, SM.Blind (raw n)) (n : ℕ) (lc rc : Option (Scalar K)) :
    SM.Blind (withClips E own raw n lc rc) := by
  unfold withClips
  split_ifs
  · exact SM.Blind.throw _
  · exact (SM.Blind.lift _).bind fun _ => (SM.Blind.lift _).bind fun _ =>
      (h n).bind fun _ => SM.Blind.lift _

theorem rawObj_blind (E : Env σ K) (d : Obj (St σ K) K) :
    d.SeedOnly → ∀ n, SM.Blind (rawObj E d n) := by
  induction d with
  | lit v => intro _ n; exact SM.Blind.pure _
  | call exn ret next ih =>
    intro hd n
    simp only [rawObj]
    have h1 : SM.Rel (fun s t : St σ K => ret s = ret t) (callOnce exn next) (callOnce exn next) := by
      intro s t hst
      obtain ⟨h1, h2, h3⟩ := hd.2 s t hst
      unfold callOnce
      rw [h1]
      cases exn t with
      | none => exact ⟨h3, h2⟩
      | some e => exact ⟨h3, rfl⟩
    refine SM.Rel.bind (SM.Rel.replicateL h1 n) fun as bs hab => ?_
    refine SM.Rel.bind (SM.Rel.mapL (Q := Eq) hab ?_) ?_
    · intro a b hr
      rw [hr]
      split_ifs
      · exact SM.Blind.pure _
      · exact withClips_blind E _ (ih b (hd.1 b)) _ _ _
    · intro xs ys hxy
      rw [List.forall₂_eq_eq_eq] at hxy
      subst hxy
      exact SM.Blind.lift _
  | leaf l lc rc => intro _ n; exact leafSample_blind E l n
  | mix k ds ws lc rc ih =>
    intro hd n
    exact mixtureRun_blind E (fun i m => withClips_blind E _ (ih i (hd i)) _ _ _) _ _ _
  | un f left ih =>
    intro hd n
    exact (withClips_blind E _ (ih hd) _ _ _).bind fun _ => SM.Blind.lift _
  | bin f left right ihl ihr =>
    intro hd n
    exact (withClips_blind E _ (ihl hd.1) _ _ _).bind fun _ =>
      (withClips_blind E _ (ihr hd.2) _ _ _).bind fun _ => SM.Blind.lift _
  | userUn isDist val d left ihd ihl =>
    intro hd n
    refine (withClips_blind E _ (ihl hd.1) _ _ _).bind fun x => ?_
    split_ifs
    · exact withClips_blind E _ (ihd x (hd.2 x)) _ _ _
    · exact SM.Blind.lift _
  | userBin isDist val d left right ihd ihl ihr =>
    intro hd n
    refine (withClips_blind E _ (ihl hd.1) _ _ _).bind fun x =>
      (withClips_blind E _ (ihr hd.2.1) _ _ _).bind fun y => ?_
    split_ifs
    · exact withClips_blind E _ (ihd x y (hd.2.2 x y)) _ _ _
    · exact SM.Blind.lift _
  | corr g m members i ih => intro hd; exact hd.elim

/-- The operations of a program without correlated variables. -/
def Op.SeedOnly : Op σ K → Prop
  | .setSeed _ => True
  | .sample d _ _ _ => d.SeedOnly

theorem runOps_blind (E : Env σ K) (init : ℤ → σ) (ops : List (Op σ K)) (h : ∀ o ∈ ops, o.SeedOnly) :
    ∀ s t : St σ K, s.rng = t.rng → (runOps E init ops s).1 = (runOps E init ops t).1 := by
  induction ops with
  | nil => intro s t _; rfl
  | cons o ops ih =>
    intro s t hst
    cases o with
    | setSeed k => exact ih (fun o ho => h o (by simp [ho])) _ _ rfl
    | sample d n lc rc =>
      have h1 : SM.Blind (sampleObj E d n lc rc) :=
        withClips_blind E _ (rawObj_blind E d (h (.sample d n lc rc) (by simp))) n lc rc
      have h2 := h1 s t hst
      have h3 : (sampleObj E d n lc rc s).1 = (sampleObj E d n lc rc t).1 := by
        have := h2.2
        cases ha : (sampleObj E d n lc rc s).1 <;> cases hb : (sampleObj E d n lc rc t).1 <;>
          rw [ha, hb] at this
        · rw [this]
        · exact this.elim
        · exact this.elim
        · rw [this]
      simp only [runOps]
      rw [h3, ih (fun o ho => h o (by simp [ho])) _ _ h2.1]

/-- **C19.** After `set_seed(k)`, the results of every sequence of `set_seed`/`sample` calls without
correlated variables are the same whatever happened before (`s`, `t` are arbitrary earlier states).
(Missing: correlated variables, where it is false; caches, see C20-C23.) -/
theorem C19_same_seed_partial (E : Env σ K) (init : ℤ → σ) (k : ℤ) (ops : List (Op σ K))
    (h : ∀ o ∈ ops, o.SeedOnly) (s t : St σ K) :
    (runOps E init (.setSeed k :: ops) s).1 = (runOps E init (.setSeed k :: ops) t).1 :=
  runOps_blind E init ops h _ _ rfl

/-- Two correlated uniform variables `a`, `b`. -/
def demoCorr (i : Fin 2) : Obj (St ℕ ℚ) ℚ :=
  .corr 0 2 (fun _ => .leaf (.uniform 0 1) none none) i

/-- **C19 fails** with correlated variables: a draw of `a` made *before* `set_seed(7)` changes what
`sample(b)` returns after it. -/
theorem C19_correlated_fails :
    ((runOps demoEnv (fun k => k.toNat)
      [.setSeed 7, .sample (demoCorr 1) 3 none none] (demoSt 0)).1
        = [.ok (.arr [.flt 0, .flt (3 / 10), .flt (3 / 5)])]) ∧
    ((runOps demoEnv (fun k => k.toNat)
      [.sample (demoCorr 0) 3 none none, .setSeed 7, .sample (demoCorr 1) 3 none none] (demoSt 0)).1
        = [.ok (.arr [.flt 0, .flt (3 / 10), .flt (3 / 5)]),
           .ok (.arr [.flt (9 / 10), .flt (1 / 5), .flt (1 / 2)])]) := by
  constructor <;> decide +kernel

/-- The hypothesis is met by programs that use a function, a mixture and arithmetic. -/
example : (Op.sample (.bin (.op .add)
    (.call (fun _ => none) (fun s => if s.rng = 0 then .lit (.int 1) else .leaf (.uniform 0 1) none none)
      (fun s => { s with rng := s.rng + 1 }))
    (.mix 2 (fun _ => .leaf (.normal 0 1) none none) [1 / 2, 1 / 2] none none))
    3 none none : Op ℕ ℚ).SeedOnly := by
  refine ⟨⟨fun s => ?_, fun s t hst => ⟨rfl, ?_, ?_⟩⟩, fun _ => trivial⟩
  · by_cases h : s.rng = 0 <;> simp only [h, if_true, if_false] <;> trivial
  · simp only [hst]
  · simp only [hst]

end Verif
