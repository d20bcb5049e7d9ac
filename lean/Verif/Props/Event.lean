import Verif.Model.Forecast
import Verif.Spec.Named
import Verif.Lemmas.DemoGen
import Verif.Props.Dice
import Verif.Lemmas.Patience
import Verif.Props.Mixture

/-! # C68 (events happen with the stated probability) and C81 (each distribution draws its own law) -/

namespace Verif
open Verif.Spec MeasureTheory

variable {σ K : Type} [Field K] [LinearOrder K] [FloorRing K]

/-! ### C68 -/

theorem drawBelow_ok (E : Env σ K) (p : K) (st : St σ K) (u : K) (rng' : σ)
    (h : E.gen.draw (.uniform 0 1) 1 st.rng = (.ok [.flt u], rng')) :
    drawBelow E (.flt p) st = (.ok (decide (u < p)), { st with rng := rng' }) := by
  simp only [drawBelow, SM.bind, drawSM, h, SM.lift, Scalar.num?, Num.val]
  rfl

theorem volume_below (p : ℝ) (h1 : p ≤ 1) (P : ℝ → Prop)
    (hP : ∀ u, 0 ≤ u → u < 1 → (P u ↔ u < p)) : prob P = ENNReal.ofReal p := by
  have := volume_sandwich {u : ℝ | 0 ≤ u ∧ u < 1 ∧ P u} 0 p ?_ ?_
  · simpa [prob] using this
  · rintro u ⟨hu0, hup⟩
    have hu1 : u < 1 := lt_of_lt_of_le hup h1
    exact ⟨hu0.le, hu1, (hP u hu0.le hu1).2 hup⟩
  · rintro u ⟨hu0, hu1, hp⟩
    exact ⟨hu0, ((hP u hu0 hu1).1 hp).le⟩

/-- **C68** (`event`, `event_occurs`, `event_happens` with a number): whatever the state, if the next
uniform number of the generator is `u`, the event happens on a set of `u` of measure exactly `p`. -/
theorem C68_event (E : ℝ → Env σ ℝ) (st : St σ ℝ) (p : ℝ) (h0 : 0 ≤ p) (h1 : p ≤ 1)
    (hu : ∀ u, 0 ≤ u → u < 1 → ∃ rng', (E u).gen.draw (.uniform 0 1) 1 st.rng = (.ok [.flt u], rng')) :
    prob (fun u => (eventOccurs (E u) (.lit (.flt p)) st).1 = .ok true) = ENNReal.ofReal p ∧
    prob (fun u => (eventOccurs (E u) (.lit (.flt p)) st).1 = .ok false) = ENNReal.ofReal (1 - p) := by
  have key : ∀ u, 0 ≤ u → u < 1 →
      (eventOccurs (E u) (.lit (.flt p)) st).1 = .ok (decide (u < p)) := by
    intro u hu0 hu1
    obtain ⟨rng', h⟩ := hu u hu0 hu1
    simp only [eventOccurs, drawBelow_ok (E u) p st u rng' h]
  refine ⟨volume_below p h1 _ ?_, ?_⟩
  · intro u hu0 hu1
    rw [key u hu0 hu1]
    simp
  · refine volume_sandwich _ p 1 ?_ ?_
    · rintro u ⟨hup, hu1⟩
      have hu0 : 0 ≤ u := by linarith
      refine ⟨hu0, hu1, ?_⟩
      show (eventOccurs (E u) (.lit (.flt p)) st).1 = _
      rw [key u hu0 hu1]
      simpa using hup.le
    · rintro u ⟨hu0, hu1, hp⟩
      have hp : (eventOccurs (E u) (.lit (.flt p)) st).1 = _ := hp
      rw [key u hu0 hu1] at hp
      simp only [Except.ok.injEq, decide_eq_false_iff_not, not_lt] at hp
      exact ⟨hp, hu1.le⟩

/-- **C68**: an event of probability at least 1 always happens, one of probability at most 0 never, and
a more likely event happens whenever a less likely one would have (same generator state). -/
theorem C68_certain_and_impossible [IsStrictOrderedRing K] (E : Env σ K) (hE : E.gen.Lawful)
    (p : K) (st st' : St σ K) (b : Bool) (h : eventOccurs E (.lit (.flt p)) st = (.ok b, st')) :
    (1 ≤ p → b = true) ∧ (p ≤ 0 → b = false) ∧
      ∀ q, p ≤ q → b = true → eventOccurs E (.lit (.flt q)) st = (.ok true, st') := by
  simp only [eventOccurs, drawBelow, SM.bind_ok, SM.lift_ok] at h
  obtain ⟨us, s1, hd, hb, rfl⟩ := h
  obtain ⟨hl, hs⟩ := drawSM_lawful hE hd
  match us, hl with
  | [v], _ =>
    obtain ⟨u, rfl, h0, h1, hlt⟩ := hs v (by simp)
    have hlt := hlt zero_lt_one
    simp only [Scalar.num?, Num.val, Except.ok.injEq] at hb
    subst hb
    refine ⟨fun hp => decide_eq_true (lt_of_lt_of_le hlt hp), fun hp => ?_, fun q hq hb => ?_⟩
    · exact decide_eq_false (not_lt.2 (le_trans hp h0))
    · simp only [eventOccurs, drawBelow, SM.bind, hd, SM.lift, Scalar.num?, Num.val]
      have : u < p := of_decide_eq_true hb
      simp [lt_of_lt_of_le this hq]

/-- **C68** (probability given by a distribution or a function): it is sampled exactly once, then one
uniform number is drawn and compared with it. -/
theorem C68_event_uncertain (E : Env σ K) (d : Obj (St σ K) K) (st st' : St σ K) (b : Bool) :
    eventOccurs E d st = (.ok b, st') ↔
      ∃ x v st1, sampleObj E d 1 none none st = (.ok x, st1) ∧ x.toList = [v] ∧
        eventOccurs E (.lit v) st1 = (.ok b, st') := by
  have key : eventOccurs E d = SM.bind (sampleObj E d 1 none none) fun x =>
      match x with
      | .scalar v => drawBelow E v
      | .arr [v] => drawBelow E v
      | .arr _ => SM.throw .unmodelled := by
    cases d <;> rfl
  rw [key, SM.bind_ok]
  constructor
  · rintro ⟨x, st1, h1, h2⟩
    match x, h2 with
    | .scalar v, h2 => exact ⟨_, v, st1, h1, rfl, h2⟩
    | .arr [v], h2 => exact ⟨_, v, st1, h1, rfl, h2⟩
    | .arr [], h2 => simp [SM.throw] at h2
    | .arr (a :: c :: l), h2 => simp [SM.throw] at h2
  · rintro ⟨x, v, st1, h1, hx, h2⟩
    refine ⟨x, st1, h1, ?_⟩
    match x, hx with
    | .scalar w, hx => cases hx; exact h2
    | .arr [w], hx => cases hx; exact h2

/-! ### C81 -/

theorem mapExcept_map_ok {α β : Type} {f : α → Except PyErr β} {g : α → β} :
    ∀ {xs : List α}, (∀ x ∈ xs, f x = .ok (g x)) → mapExcept f xs = .ok (xs.map g)
  | [], _ => rfl
  | x :: xs, h => by
    simp only [mapExcept, h x (by simp), mapExcept_map_ok fun y hy => h y (List.mem_cons_of_mem _ hy),
      List.map_cons]
    rfl

theorem mapFlt_named {f : K → K} {xs : List (Scalar K)} (h : ∀ v ∈ xs, ∃ x, v = .flt x) :
    mapFlt f (.arr xs) = .ok (.arr (xs.map (onFlt f))) := by
  simp only [mapFlt]
  rw [mapExcept_map_ok (g := onFlt f)]
  · rfl
  · intro v hv
    obtain ⟨x, rfl⟩ := h v hv
    rfl

theorem mapFlt_simplify {f : K → K} {xs : List (Scalar K)} (h : ∀ v ∈ xs, ∃ x, v = .flt x) :
    mapFlt f (Samples.simplify (.arr xs)) = .ok (Samples.simplify (.arr (xs.map (onFlt f)))) := by
  match xs, h with
  | [], _ => rfl
  | [v], h =>
    obtain ⟨x, rfl⟩ := h v (by simp)
    rfl
  | a :: b :: c, h => exact mapFlt_named h

/-- **C81**: `sample(d, n)` of a distribution with a named law asks numpy once for `n` numbers of
exactly that law, applies the transformation to each, in order, and does nothing else. -/
theorem C81_named_law (E : Env σ K) (hE : E.gen.Lawful) (l : Leaf K) (p : Prim K)
    (f : Scalar K → Scalar K) (hl : named l = some (p, f)) (n : ℕ) (hn : 1 ≤ n) (st st' : St σ K)
    (x : Samples K) :
    sampleObj E (.leaf l none none) n none none st = (.ok x, st') ↔
      ∃ xs rng', E.gen.draw p n st.rng = (.ok xs, rng') ∧ x.toList = xs.map f ∧
        (∀ v, x = .scalar v ↔ n = 1 ∧ xs.map f = [v]) ∧ st' = { st with rng := rng' } := by
  have hshape : ∀ ys : List (Scalar K), ys.length = n →
      (x = Samples.simplify (.arr ys) ↔ x.toList = ys ∧ ∀ v, x = .scalar v ↔ n = 1 ∧ ys = [v]) := by
    intro ys hy
    constructor
    · rintro rfl
      refine ⟨toList_simplify ys, fun v => ?_⟩
      match ys, hy with
      | [], hy => simp at hy; omega
      | [w], hy => simp [Samples.simplify] at hy ⊢; exact fun _ => hy.symm
      | a :: b :: c, hy => simp [Samples.simplify]
    · rintro ⟨h1, h2⟩
      match ys, hy with
      | [], hy => simp at hy; omega
      | [w], hy => exact (h2 w).2 ⟨by simpa using hy.symm, rfl⟩
      | a :: b :: c, hy =>
        match x, h1, h2 with
        | .scalar v, h1, _ => simp [Samples.toList] at h1
        | .arr vs, h1, _ => simp only [Samples.toList] at h1; subst h1; rfl
  have hsample : sampleObj E (.leaf l none none) n none none st = (.ok x, st') ↔
      leafSample E l n st = (.ok x, st') := by
    unfold sampleObj
    rw [withClips_ok]
    constructor
    · rintro ⟨-, l', r', x', h1, h2, h3, h4⟩
      cases h1; cases h2; cases h4; exact h3
    · intro h
      exact ⟨by omega, none, none, x, rfl, rfl, h, rfl⟩
  have hdraw : ∀ xs s1, drawSM E p n st = (.ok xs, s1) ↔
      ∃ rng', E.gen.draw p n st.rng = (.ok xs, rng') ∧ s1 = { st with rng := rng' } := by
    intro xs s1
    constructor
    · intro h
      obtain ⟨h1, h2⟩ := drawSM_ok h
      refine ⟨_, h1, ?_⟩
      cases s1
      simp only [St.mk.injEq, true_and]
      exact h2
    · rintro ⟨rng', h1, rfl⟩
      simp only [drawSM, h1]
  have hfinal : (∃ xs s1, drawSM E p n st = (.ok xs, s1) ∧ x = Samples.simplify (.arr (xs.map f)) ∧
      st' = s1) ↔ ∃ xs rng', E.gen.draw p n st.rng = (.ok xs, rng') ∧ x.toList = xs.map f ∧
        (∀ v, x = .scalar v ↔ n = 1 ∧ xs.map f = [v]) ∧ st' = { st with rng := rng' } := by
    constructor
    · rintro ⟨xs, s1, h1, h2, rfl⟩
      have hlen := (drawSM_lawful hE h1).1
      obtain ⟨rng', h3, h4⟩ := (hdraw _ _).1 h1
      obtain ⟨h5, h6⟩ := (hshape (xs.map f) (by simpa using hlen)).1 h2
      exact ⟨xs, rng', h3, h5, h6, h4⟩
    · rintro ⟨xs, rng', h1, h2, h3, h4⟩
      have hlen := (hE _ _ _ _ _ h1).1
      exact ⟨xs, st', (hdraw _ _).2 ⟨rng', h1, h4⟩,
        (hshape (xs.map f) (by simpa using hlen)).2 ⟨h2, h3⟩, rfl⟩
  rw [hsample, ← hfinal]
  have simple : f = id → (drawSimple E p n st = (.ok x, st') ↔
      ∃ xs s1, drawSM E p n st = (.ok xs, s1) ∧ x = Samples.simplify (.arr (xs.map f)) ∧ st' = s1) := by
    rintro rfl
    rw [drawSimple_ok]
    constructor
    · rintro ⟨xs, h1, h2⟩; exact ⟨xs, st', h1, by rwa [List.map_id], rfl⟩
    · rintro ⟨xs, s1, h1, h2, rfl⟩; exact ⟨xs, h1, by rwa [List.map_id] at h2⟩
  have lifted : ∀ g : List (Scalar K) → Except PyErr (Samples K),
      (∀ xs, (∀ v ∈ xs, p.support v) → g xs = .ok (Samples.simplify (.arr (xs.map f)))) →
      (SM.bind (drawSM E p n) (fun xs => SM.lift (g xs)) st = (.ok x, st') ↔
      ∃ xs s1, drawSM E p n st = (.ok xs, s1) ∧ x = Samples.simplify (.arr (xs.map f)) ∧ st' = s1) := by
    intro g hg
    simp only [SM.bind_ok, SM.lift_ok]
    constructor
    · rintro ⟨xs, s1, h1, h2, rfl⟩
      rw [hg xs (drawSM_lawful hE h1).2] at h2
      cases h2
      exact ⟨xs, _, h1, rfl, rfl⟩
    · rintro ⟨xs, s1, h1, rfl, rfl⟩
      exact ⟨xs, _, h1, hg xs (drawSM_lawful hE h1).2, rfl⟩
  cases l <;> simp only [named, Option.some.injEq, Prod.mk.injEq, reduceCtorEq] at hl <;>
    obtain ⟨rfl, hf⟩ := hl <;> simp only [leafSample]
  case invlognormal m s =>
    refine lifted _ fun xs hs => ?_
    rw [mapFlt_named (fun v hv => by obtain ⟨x, h, -⟩ := hs v hv; exact ⟨x, h⟩), hf]
    rfl
  case pareto sh =>
    refine lifted _ fun xs hs => ?_
    rw [mapFlt_named (fun v hv => by obtain ⟨x, h, -⟩ := hs v hv; exact ⟨x, h⟩), hf]
    rfl
  case bernoulli q =>
    refine lifted _ fun xs hs => ?_
    rw [mapExcept_map_ok (g := f)]
    · rfl
    · intro v hv
      obtain ⟨u, rfl, -⟩ := hs v hv
      rw [← hf]
  case coin =>
    have := lifted (fun xs => .ok (Samples.simplify (.arr (xs.map fun v =>
        if v = .int 1 then .str "heads" else .str "tails")))) (fun xs _ => by
      rw [← hf]
      congr 3
      apply List.map_congr_left
      intro v _
      split_ifs <;> rfl)
    exact this
  case pert l m r lam =>
    have h1 : 1 + lam * (m - l) / (r - l) = 1 + lam * position l m r := by
      rw [position, mul_div_assoc]
    have h2 : 1 + lam * (r - m) / (r - l) = 1 + lam * position r m l := by
      rw [position, mul_div_assoc, ← neg_sub m r, ← neg_sub l r, neg_div_neg_eq]
    have := lifted (fun xs => mapFlt (fun x => l + x * (r - l)) (Samples.simplify (.arr xs)))
      (fun xs hs => by
        rw [mapFlt_simplify (fun v hv => by obtain ⟨x, h, -⟩ := hs v hv; exact ⟨x, h⟩), ← hf]
        simp only [mul_comm])
    rw [← this, h1, h2]
    unfold drawSimple
    simp only [SM.bind]
    cases drawSM E (.beta (1 + lam * position l m r) (1 + lam * position r m l)) n st with
    | mk r' s1 => cases r' <;> rfl
  all_goals exact simple hf.symm

/-- **C68** (`bernoulli(p)`): one sample is 1 with probability exactly `p` and 0 otherwise. -/
theorem C68_bernoulli (E : ℝ → Env σ ℝ) (st : St σ ℝ) (p : ℝ) (h1 : p ≤ 1)
    (hu : ∀ u, 0 ≤ u → u < 1 → ∃ rng', (E u).gen.draw (.uniform 0 1) 1 st.rng = (.ok [.flt u], rng')) :
    prob (fun u => (sampleObj (E u) (.leaf (.bernoulli p) none none) 1 none none st).1
      = .ok (.scalar (.int 1))) = ENNReal.ofReal p ∧
    ∀ u, 0 ≤ u → u < 1 →
      (sampleObj (E u) (.leaf (.bernoulli p) none none) 1 none none st).1 = .ok (.scalar (.int 1)) ∨
      (sampleObj (E u) (.leaf (.bernoulli p) none none) 1 none none st).1 = .ok (.scalar (.int 0)) := by
  have key : ∀ u, 0 ≤ u → u < 1 →
      (sampleObj (E u) (.leaf (.bernoulli p) none none) 1 none none st).1 =
        .ok (.scalar (.int (if u < p then 1 else 0))) := by
    intro u hu0 hu1
    obtain ⟨rng', h⟩ := hu u hu0 hu1
    have hd : drawSM (E u) (.uniform 0 1) 1 st = (.ok [.flt u], { st with rng := rng' }) := by
      simp only [drawSM, h]
    have : sampleObj (E u) (.leaf (.bernoulli p) none none) 1 none none st =
        (.ok (.scalar (.int (if u < p then 1 else 0))), { st with rng := rng' }) :=
      withClips_ok.2 ⟨one_ne_zero, none, none, _, rfl, rfl,
        SM.bind_ok.2 ⟨[.flt u], _, hd, SM.lift_ok.2 ⟨rfl, rfl⟩⟩, rfl⟩
    rw [this]
  refine ⟨volume_below p h1 _ fun u hu0 hu1 => ?_, fun u hu0 hu1 => ?_⟩
  · rw [key u hu0 hu1]
    split_ifs with h <;> simp [h]
  · rw [key u hu0 hu1]
    split_ifs with h <;> simp

theorem drawInt_iff (E : Env σ K) (lo hi : ℤ) (s s' : St σ K) (z : ℤ) :
    drawInt E lo hi s = (.ok z, s') ↔
      ∃ rng', E.gen.draw (.integers lo hi) 1 s.rng = (.ok [.int z], rng') ∧
        s' = { s with rng := rng' } := by
  refine SM.bind_ok.trans ?_
  constructor
  · rintro ⟨xs, s1, h1, h2⟩
    obtain ⟨h3, h4⟩ := drawSM_ok h1
    split at h2
    · cases h2
      refine ⟨_, h3, ?_⟩
      cases s'
      simp only [St.mk.injEq, true_and]
      exact h4
    · cases h2
  · rintro ⟨rng', h, rfl⟩
    exact ⟨[.int z], { s with rng := rng' }, by simp only [drawSM, h], rfl⟩

theorem draws_iff_rolls (E : Env σ K) (sides : ℤ) : ∀ (rs : List ℤ) (s s' : St σ K),
    Draws (drawInt E 1 (sides + 1)) s rs s' ↔ Rolls E sides s rs s'
  | [], s, s' => by
    constructor
    · rintro ⟨⟩; exact .nil _
    · rintro ⟨⟩; exact .nil _
  | r :: rs, s, s' => by
    constructor
    · rintro (_ | ⟨h1, h2⟩)
      obtain ⟨rng', h3, rfl⟩ := (drawInt_iff ..).1 h1
      exact .cons h3 ((draws_iff_rolls E sides rs _ _).1 h2)
    · rintro (_ | ⟨h1, h2⟩)
      exact .cons ((drawInt_iff ..).2 ⟨_, h1, rfl⟩) ((draws_iff_rolls E sides rs _ _).2 h2)

theorem rolls_append (E : Env σ K) (sides : ℤ) : ∀ (as bs : List ℤ) (s s' : St σ K),
    Rolls E sides s (as ++ bs) s' ↔ ∃ s1, Rolls E sides s as s1 ∧ Rolls E sides s1 bs s'
  | [], bs, s, s' => by
    constructor
    · intro h; exact ⟨s, .nil _, h⟩
    · rintro ⟨s1, ⟨⟩, h⟩; exact h
  | a :: as, bs, s, s' => by
    constructor
    · rintro (_ | ⟨h1, h2⟩)
      obtain ⟨s1, h3, h4⟩ := (rolls_append E sides as bs _ _).1 h2
      exact ⟨s1, .cons h1 h3, h4⟩
    · rintro ⟨s1, _ | ⟨h1, h2⟩, h3⟩
      exact .cons h1 ((rolls_append E sides as bs _ _).2 ⟨_, h2, h3⟩)

theorem singleRoll_rolls (E : Env σ K) (d : DieSpec) (f : ℕ) (s s' : St σ K) (v : ℤ) :
    singleRoll (drawInt E 1 (d.sides + 1)) d.explodeOn f s = (.ok v, s') ↔
      ∃ run, Rolls E d.sides s run s' ∧ ExplodingRun (d.explodeOn.getD []) run ∧
        run.length ≤ f + 1 ∧ v = run.sum := by
  cases hd : d.explodeOn with
  | none =>
    refine (C29_plain _ _ _ _ _).trans ((draws_iff_rolls ..).trans ?_)
    constructor
    · intro h
      exact ⟨[v], h, ⟨[], v, rfl, by simp, by simp⟩, by simp, by simp⟩
    · rintro ⟨run, h1, ⟨pre, last, rfl, h3, -⟩, -, rfl⟩
      have : pre = [] := by
        cases pre with
        | nil => rfl
        | cons a b => exact absurd (h3 a (by simp)) (by simp)
      subst this
      simpa using h1
  | some l =>
    refine (C29_roll_iff _ _ _ _ _ _).trans ?_
    constructor
    · rintro ⟨rs, r, h1, h2, h3, rfl, h4⟩
      exact ⟨rs ++ [r], (draws_iff_rolls ..).1 h1, ⟨rs, r, rfl, h2, h3⟩, by simpa using h4, by simp⟩
    · rintro ⟨run, h1, ⟨pre, last, rfl, h2, h3⟩, h4, rfl⟩
      exact ⟨pre, last, (draws_iff_rolls ..).2 h1, h2, h3, by simp, by simpa using h4⟩

theorem rollDie_rolls {E : Env σ K} (hP : E.Patient) (d : DieSpec) (s s' : St σ K) (v : ℤ) :
    rollDie E d s = (.ok v, s') ↔
      ∃ run, Rolls E d.sides s run s' ∧ ExplodingRun (d.explodeOn.getD []) run ∧ v = run.sum := by
  constructor
  · intro h
    obtain ⟨run, h1, h2, -, h3⟩ := (singleRoll_rolls E d _ s s' v).1 h
    exact ⟨run, h1, h2, h3⟩
  · rintro ⟨run, h1, h2, h3⟩
    have h := (singleRoll_rolls E d run.length s s' v).2 ⟨run, h1, h2, by omega, h3⟩
    rw [← h]
    exact rollDie_eq hP (by rw [h]; simp)

theorem runs_rolls {E : Env σ K} (hP : E.Patient) (d : DieSpec) : ∀ (n : ℕ) (s s' : St σ K) (vs : List ℤ),
    SM.Runs (fun _ : Unit => rollDie E d) s (List.replicate n ()) vs s' ↔
      ∃ runs : List (List ℤ), runs.length = n ∧ Rolls E d.sides s runs.flatten s' ∧
        (∀ run ∈ runs, ExplodingRun (d.explodeOn.getD []) run) ∧ vs = runs.map List.sum
  | 0, s, s', vs => by
    constructor
    · rintro ⟨⟩
      exact ⟨[], rfl, .nil _, by simp, rfl⟩
    · rintro ⟨runs, h1, h2, -, rfl⟩
      obtain rfl := List.length_eq_zero_iff.1 h1
      cases h2
      exact .nil _
  | n + 1, s, s', vs => by
    constructor
    · rintro (_ | ⟨h1, h2⟩)
      obtain ⟨run, h3, h4, rfl⟩ := (rollDie_rolls hP ..).1 h1
      obtain ⟨runs, h6, h7, h8, rfl⟩ := (runs_rolls hP d n _ _ _).1 h2
      refine ⟨run :: runs, by simp [h6], ?_, ?_, rfl⟩
      · rw [List.flatten_cons, rolls_append]
        exact ⟨_, h3, h7⟩
      · intro r hr
        rcases List.mem_cons.1 hr with rfl | hr
        · exact h4
        · exact h8 r hr
    · rintro ⟨runs, h1, h2, h3, rfl⟩
      match runs, h1 with
      | run :: runs, h1 =>
        rw [List.flatten_cons, rolls_append] at h2
        obtain ⟨s1, h4, h5⟩ := h2
        have h6 := h3 run (by simp)
        exact .cons ((rollDie_rolls hP ..).2 ⟨run, h4, h6, rfl⟩)
          ((runs_rolls hP d n _ _ _).2 ⟨runs, by simpa using h1, h5,
            fun r hr => h3 r (by simp [hr]), rfl⟩)

/-- **C81** (dice): `n` samples of a die are the sums of `n` consecutive maximal exploding runs of fair
rolls (of single rolls if the die does not explode); the generator is asked for exactly these rolls.
(`Patient`: a loop that ends is carried out to its end.) -/
theorem C81_die {E : Env σ K} (hP : E.Patient) (d : DieSpec) (n : ℕ) (hn : 1 ≤ n) (st st' : St σ K) (x : Samples K) :
    sampleObj E (.leaf (.die d) none none) n none none st = (.ok x, st') ↔
      ∃ runs : List (List ℤ), runs.length = n ∧ Rolls E d.sides st runs.flatten st' ∧
        (∀ run ∈ runs, ExplodingRun (d.explodeOn.getD []) run) ∧
        x = Samples.simplify (.arr (runs.map fun run => .int run.sum)) := by
  have hsample : sampleObj E (.leaf (.die d) none none) n none none st = (.ok x, st') ↔
      leafSample E (.die d) n st = (.ok x, st') := by
    unfold sampleObj
    rw [withClips_ok]
    constructor
    · rintro ⟨-, l', r', x', h1, h2, h3, h4⟩
      cases h1; cases h2; cases h4; exact h3
    · intro h
      exact ⟨by omega, none, none, x, rfl, rfl, h, rfl⟩
  rw [hsample]
  simp only [leafSample, SM.bind_ok, SM.pure_ok]
  constructor
  · rintro ⟨vs, s1, h, rfl, rfl⟩
    obtain ⟨runs, h1, h2, h3, rfl⟩ := (runs_rolls hP d n _ _ _).1 (SM.replicateL_ok.1 h)
    exact ⟨runs, h1, h2, h3, by simp [Function.comp_def]⟩
  · rintro ⟨runs, h1, h2, h3, rfl⟩
    exact ⟨_, st', SM.replicateL_ok.2 ((runs_rolls hP d n _ _ _).2 ⟨runs, h1, h2, h3, rfl⟩),
      by simp [Function.comp_def], rfl⟩

/-! ### The hypotheses are met -/

/-- A generator whose uniform numbers are all `u`. -/
noncomputable def constGen (u : ℝ) : Gen Unit ℝ where
  draw p n s := match p with
    | .uniform low high => (.ok (List.replicate n (.flt (low + (high - low) * u))), s)
    | _ => (.error .unmodelled, s)

/-- An environment with this generator. -/
noncomputable def constEnv (u : ℝ) : Env Unit ℝ where
  gen := constGen u
  exp := Real.exp
  log := Real.log
  powf _ _ := none
  ppf x := x
  fmt _ := ""
  induce _ cols := .ok cols
  fuel := fun _ _ => 0

example (st : St Unit ℝ) :
    prob (fun u => (eventOccurs (constEnv u) (.lit (.flt (1/4))) st).1 = .ok true) =
      ENNReal.ofReal (1/4) :=
  (C68_event constEnv st (1/4) (by norm_num) (by norm_num) fun u _ _ => ⟨(), by
    simp [constEnv, constGen, List.replicate]⟩).1

example (st : St Unit ℝ) :
    prob (fun u => (sampleObj (constEnv u) (.leaf (.bernoulli (1/4)) none none) 1 none none st).1
      = .ok (.scalar (.int 1))) = ENNReal.ofReal (1/4) :=
  (C68_bernoulli constEnv st (1/4) (by norm_num) fun u _ _ => ⟨(), by
    simp [constEnv, constGen, List.replicate]⟩).1

/-- 0.3 is below 1/2: the event happens. -/
example : eventOccurs demoEnv (.lit (.flt (1/2))) (demoSt 1) = (.ok true, demoSt 2) := by
  refine Prod.ext ?_ rfl
  decide +kernel

/-- The probability is first drawn from a uniform distribution (0.3), then compared with 0.6. -/
example : eventOccurs demoEnv (.leaf (.uniform 0 1) none none) (demoSt 1) = (.ok false, demoSt 3) := by
  refine Prod.ext ?_ rfl
  decide +kernel

example : named (K := ℚ) (.pert 0 1 4 4) = some (.beta 2 4, onFlt fun x => 0 + (4 - 0) * x) := by
  simp only [named, position]; norm_num

example : sampleObj demoEnv (.leaf (.uniform 2 4) none none) 2 none none (demoSt 1) =
    (.ok (.arr [.flt (13/5), .flt (16/5)]), demoSt 3) := by
  refine Prod.ext ?_ rfl
  decide +kernel

/-- Two samples of a six-sided die exploding on 6: the rolls 5 and (6, 1). -/
example : ∃ x st', sampleObj demoEnv (.leaf (.die ⟨6, some [6]⟩) none none) 2 none none (demoSt 4) =
    (.ok x, st') ∧ x.toList = [.int 5, .int 7] := ⟨_, _, rfl, rfl⟩

/-- The same with the loops carried out to their end. -/
example : ∃ st', sampleObj demoEnv.patient (.leaf (.die ⟨6, some [6]⟩) none none) 2 none none (demoSt 4) =
    (.ok (.arr [.int 5, .int 7]), st') := by
  refine ⟨demoSt 7, (C81_die demoEnv.patient_patient ⟨6, some [6]⟩ 2 (by norm_num) _ _ _).2
    ⟨[[5], [6, 1]], rfl, ?_, ?_, rfl⟩⟩
  · exact .cons (rng := 5) rfl (.cons (rng := 6) rfl (.cons (rng := 7) rfl (.nil _)))
  · intro run hrun
    simp only [List.mem_cons, List.not_mem_nil, or_false] at hrun
    rcases hrun with rfl | rfl
    · exact ⟨[], 5, rfl, by simp, by simp⟩
    · exact ⟨[6], 1, rfl, by simp, by simp⟩

end Verif
