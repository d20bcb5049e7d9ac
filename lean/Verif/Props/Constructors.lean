import Verif.Spec.Constructors
import Verif.Props.Clip
import Verif.Props.Dice
import Mathlib.Tactic.Linarith

/-!
# C72, C76: arguments of the constructors
-/

namespace Verif

variable {σ K : Type} [Field K] [LinearOrder K]

omit [Field K] in
theorem tBounds_ok (x y : Option K) : tBounds x y = .ok () ↔
    (x = none ∧ y = none) ∨ ∃ a b, x = some a ∧ y = some b ∧ a ≤ b := by
  cases x <;> cases y <;> simp [tBounds]

omit [Field K] in
theorem tBounds_cases (x y : Option K) : tBounds x y = .ok () ∨ tBounds x y = .error .valueError := by
  cases x <;> cases y <;> simp [tBounds]
  rename_i a b
  exact le_or_gt a b

theorem dieInit_ok_iff (sides : IntArg) (ex : ExplodeArg) : (∃ d, dieInit sides ex = .ok d) ↔
    ∃ s : ℤ, sides = some s ∧ 2 ≤ s ∧ ∀ vs, ex.toList? = some vs →
        (vs.length : ℤ) < s ∧ ∀ v ∈ vs, ∃ z : ℤ, v = some z ∧ 1 ≤ z ∧ z ≤ s := by
  constructor
  · rintro ⟨d, h⟩
    obtain ⟨h1, h2, h3, h4⟩ := (C28_accepted_iff sides ex d).1 h
    refine ⟨d.sides, h2, h1, ?_⟩
    intro vs hvs
    rw [hvs] at h3
    cases hd : d.explodeOn with
    | none => rw [hd] at h3; cases h3
    | some l =>
      rw [hd] at h3
      simp only [Option.map_some, Option.some.injEq] at h3
      subst h3
      obtain ⟨h5, h6⟩ := h4 l hd
      refine ⟨by simpa using h5, ?_⟩
      intro v hv
      obtain ⟨z, hz, rfl⟩ := List.mem_map.1 hv
      exact ⟨z, rfl, h6 z hz⟩
  · rintro ⟨s, rfl, h2, h3⟩
    cases hl : ex.toList? with
    | none =>
      refine ⟨⟨s, none⟩, (C28_accepted_iff _ _ _).2 ⟨h2, rfl, by simp [hl], ?_⟩⟩
      intro l h; cases h
    | some vs =>
      obtain ⟨h4, h5⟩ := h3 vs hl
      have hget : vs = (vs.map fun v => v.getD 0).map some := by
        rw [List.map_map]
        conv_lhs => rw [← List.map_id vs]
        apply List.map_congr_left
        intro v hv
        obtain ⟨z, rfl, -⟩ := h5 v hv
        rfl
      refine ⟨⟨s, some (vs.map fun v => v.getD 0)⟩, (C28_accepted_iff _ _ _).2
        ⟨h2, rfl, by rw [hl]; exact congrArg some hget, ?_⟩⟩
      intro l h
      cases h
      refine ⟨by simpa using h4, ?_⟩
      intro z hz
      obtain ⟨v, hv, rfl⟩ := List.mem_map.1 hz
      obtain ⟨z, rfl, h6⟩ := h5 v hv
      exact h6

/-- **C72**: a constructor returns a distribution exactly when its arguments meet the documented
requirements. -/
theorem C72_construct {S : Type} (c : DistCall K) :
    (∃ o : Obj S K, construct c = .ok o) ↔ ValidArgs c := by
  cases c with
  | const v => simp [construct, ValidArgs]
  | uniform x y => by_cases h : x < y <;> simp [construct, ValidArgs, h]
  | binomial n p =>
    simp only [construct, ValidArgs]
    split_ifs with h
    · simp only [reduceCtorEq, exists_false, false_iff, not_and_or, not_lt]; exact h
    · simpa [not_or] using h
  | beta a b => simp [construct, ValidArgs]
  | bernoulli p =>
    cases p with
    | none => simp [construct, ValidArgs]
    | some p =>
      simp only [construct, ValidArgs, Option.some.injEq, exists_eq_left']
      split_ifs with h
      · simpa using h
      · simpa using h
  | discrete items =>
    cases items with
    | list vs => cases vs <;> simp [construct, ValidArgs, NonEmptyContainer]
    | ndarray vs => cases vs <;> simp [construct, ValidArgs, NonEmptyContainer]
    | dict vs => cases vs <;> simp [construct, ValidArgs, NonEmptyContainer]
    | absent => simp [construct, ValidArgs, NonEmptyContainer]
    | other => simp [construct, ValidArgs, NonEmptyContainer]
  | tdist x y t cred lc rc =>
    simp only [construct, ValidArgs, ← tBounds_ok]
    rcases tBounds_cases x y with h | h <;> rw [h] <;> simp [bind, Except.bind]
  | logTdist x y t cred lc rc =>
    simp only [construct, ValidArgs]
    cases x with
    | none => cases y <;> simp [tBounds, bind, Except.bind]
    | some a =>
      cases y with
      | none => simp [tBounds, bind, Except.bind]
      | some b =>
        simp only [tBounds]
        by_cases h : a > b
        · simp only [if_pos h, bind, Except.bind, reduceCtorEq, exists_false, false_iff]
          rintro (⟨h1, -⟩ | ⟨a', b', h1, h2, h3, h4⟩)
          · cases h1
          · cases h1; cases h2; exact absurd h (not_lt.2 h4)
        · simp only [if_neg h, bind, Except.bind]
          by_cases h0 : a ≤ 0
          · simp only [if_pos h0, reduceCtorEq, exists_false, false_iff]
            rintro (⟨h1, -⟩ | ⟨a', b', h1, h2, h3, h4⟩)
            · cases h1
            · cases h1; exact absurd h3 (not_lt.2 h0)
          · simp only [if_neg h0]
            constructor
            · intro _
              exact Or.inr ⟨a, b, rfl, rfl, not_le.1 h0, not_lt.1 h⟩
            · intro _
              exact ⟨_, rfl⟩
  | triangular l m r lc rc =>
    simp only [construct, ValidArgs]
    split_ifs with h1 h2 h3
    · simp [h1]
    · simp only [reduceCtorEq, exists_false, false_iff]; rintro ⟨-, h, -⟩; exact absurd h2 (not_lt.2 h)
    · simp [h3]
    · simp only [Except.ok.injEq, exists_eq', true_iff]
      exact ⟨not_lt.1 h1, not_lt.1 h2, lt_of_le_of_ne ((not_lt.1 h1).trans (not_lt.1 h2)) h3⟩
  | pert l m r lam lc rc =>
    simp only [construct, ValidArgs]
    split_ifs with h1 h2 h3 h4
    · simp [h1]
    · simp only [reduceCtorEq, exists_false, false_iff]; rintro ⟨-, h, -⟩; exact absurd h2 (not_lt.2 h)
    · simp only [reduceCtorEq, exists_false, false_iff]
      rintro ⟨-, -, -, h⟩; exact absurd h3 (not_lt.2 h)
    · simp [h4]
    · simp only [Except.ok.injEq, exists_eq', true_iff]
      exact ⟨not_lt.1 h1, not_lt.1 h2, lt_of_le_of_ne ((not_lt.1 h1).trans (not_lt.1 h2)) h4,
        not_lt.1 h3⟩
  | poisson lam lc rc => simp [construct, ValidArgs]
  | chisquare df => by_cases h : df ≤ 0 <;> simp [construct, ValidArgs, h, not_lt.2, not_le.1]
  | exponential sc lc rc =>
    simp only [construct, ValidArgs]
    split_ifs with h1 h2
    · simp [h1, h2]
    · simp [h2]
    · simp only [reduceCtorEq, exists_false, false_iff]; rintro ⟨h, -⟩; exact h1 h
  | gamma sh sc lc rc => simp [construct, ValidArgs]
  | pareto sh => simp [construct, ValidArgs]
  | geometric p =>
    simp only [construct, ValidArgs]
    split_ifs with h
    · simp only [reduceCtorEq, exists_false, false_iff, not_and_or, not_le]; exact h
    · simpa [not_or] using h
  | die sides ex =>
    simp only [ValidArgs, ← dieInit_ok_iff, construct]
    cases h : dieInit sides ex <;> simp [bind, Except.bind]
  | coin => simp [construct, ValidArgs]

/-- **C72**, refusals: a refused call raises `ValueError` or (uniform, exponential, empty `discrete`)
`AssertionError`, nothing else. -/
theorem C72_refused {S : Type} (c : DistCall K) (h : ¬ ValidArgs c) :
    (construct c : Except PyErr (Obj S K)) = .error .valueError ∨
    (construct c : Except PyErr (Obj S K)) = .error .assertionError ∧
      ((∃ x y, c = .uniform x y) ∨ (∃ sc lc rc, c = .exponential sc lc rc) ∨
        ∃ items, c = .discrete items) := by
  rw [← C72_construct (S := S)] at h
  cases hc : (construct c : Except PyErr (Obj S K)) with
  | ok o => exact absurd ⟨o, hc⟩ h
  | error e =>
    have key : e = .valueError ∨ e = .assertionError ∧ ((∃ x y, c = .uniform x y) ∨
        (∃ sc lc rc, c = .exponential sc lc rc) ∨ ∃ items, c = .discrete items) := by
      cases c with
      | const v => cases hc
      | uniform x y =>
        simp only [construct] at hc
        split_ifs at hc; cases hc
        exact Or.inr ⟨rfl, Or.inl ⟨_, _, rfl⟩⟩
      | binomial n p => simp only [construct] at hc; split_ifs at hc; cases hc; exact Or.inl rfl
      | beta a b => cases hc
      | bernoulli p =>
        cases p with
        | none => cases hc; exact Or.inl rfl
        | some p => simp only [construct] at hc; split_ifs at hc; cases hc; exact Or.inl rfl
      | discrete items =>
        cases items with
        | absent => cases hc; exact Or.inl rfl
        | other => cases hc; exact Or.inl rfl
        | list vs =>
          simp only [construct] at hc; split_ifs at hc; cases hc
          exact Or.inr ⟨rfl, Or.inr (Or.inr ⟨_, rfl⟩)⟩
        | ndarray vs =>
          simp only [construct] at hc; split_ifs at hc; cases hc
          exact Or.inr ⟨rfl, Or.inr (Or.inr ⟨_, rfl⟩)⟩
        | dict vs =>
          simp only [construct] at hc; split_ifs at hc; cases hc
          exact Or.inr ⟨rfl, Or.inr (Or.inr ⟨_, rfl⟩)⟩
      | tdist x y t cred lc rc =>
        simp only [construct] at hc
        rcases tBounds_cases x y with h | h <;> rw [h] at hc <;> cases hc
        exact Or.inl rfl
      | logTdist x y t cred lc rc =>
        simp only [construct] at hc
        rcases tBounds_cases x y with h | h <;> rw [h] at hc
        · simp only [bind, Except.bind] at hc
          cases x with
          | none => cases hc
          | some a => simp only at hc; split_ifs at hc; cases hc; exact Or.inl rfl
        · cases hc; exact Or.inl rfl
      | triangular l m r lc rc =>
        simp only [construct] at hc; split_ifs at hc <;> cases hc <;> exact Or.inl rfl
      | pert l m r lam lc rc =>
        simp only [construct] at hc; split_ifs at hc <;> cases hc <;> exact Or.inl rfl
      | poisson lam lc rc => cases hc
      | chisquare df => simp only [construct] at hc; split_ifs at hc; cases hc; exact Or.inl rfl
      | exponential sc lc rc =>
        simp only [construct] at hc
        split_ifs at hc <;> cases hc <;> exact Or.inr ⟨rfl, Or.inr (Or.inl ⟨_, _, _, rfl⟩)⟩
      | gamma sh sc lc rc => cases hc
      | pareto sh => cases hc
      | geometric p => simp only [construct] at hc; split_ifs at hc; cases hc; exact Or.inl rfl
      | die sides ex =>
        simp only [construct] at hc
        rcases C28_refused sides ex with ⟨d, h⟩ | h <;> rw [h] at hc <;> cases hc
        exact Or.inl rfl
      | coin => cases hc
    rcases key with rfl | ⟨rfl, h⟩
    · exact Or.inl rfl
    · exact Or.inr ⟨rfl, h⟩

section Sample

variable [FloorRing K]

/-- **C72**, `sample`: it raises `ValueError` without touching the generator when fewer than one sample
is asked or the object cannot be sampled. -/
theorem C72_sample_refused (E : Env σ K) (t : Target (St σ K) K) (n : Count K)
    (lc rc : Option (Scalar K)) (s : St σ K) (h : n.toInt < 1 ∨ t = .other) :
    sampleCall E t n lc rc s = (.error .valueError, s) := by
  unfold sampleCall
  split_ifs with h1
  · rfl
  · rcases h with h | rfl
    · omega
    · rfl

/-- **C72**, `sample`: otherwise the call is the sampler proper, on a positive number of samples. -/
theorem C72_sample_accepted (E : Env σ K) (o : Obj (St σ K) K) (n : Count K)
    (lc rc : Option (Scalar K)) (s : St σ K) (h : 1 ≤ n.toInt) :
    ∃ k : ℕ, 1 ≤ k ∧ (k : ℤ) = n.toInt ∧
      sampleCall E (.obj o) n lc rc s = sampleObj E o k lc rc s := by
  refine ⟨n.toInt.toNat, by omega, by omega, ?_⟩
  unfold sampleCall
  rw [if_neg (by omega)]

variable [IsStrictOrderedRing K]

/-- **C72**, the number of samples: a float is accepted exactly when it is at least 1, and counts as
its integer part. -/
theorem C72_count (x : K) :
    (1 ≤ (Count.flt x).toInt ↔ 1 ≤ x) ∧
    (1 ≤ x → ((Count.flt x).toInt : K) ≤ x ∧ x < (Count.flt x).toInt + 1) := by
  have key : ∀ y : K, 0 ≤ y → (Count.flt y).toInt = ⌊y⌋ := by
    intro y hy
    simp [Count.toInt, truncZ, hy]
  constructor
  · by_cases h0 : 0 ≤ x
    · rw [key x h0, Int.le_floor]
      simp
    · have h0' : x < 0 := not_le.1 h0
      constructor
      · intro h
        simp only [Count.toInt, truncZ, if_neg h0] at h
        have : ⌈x⌉ ≤ 0 := Int.ceil_le.2 (by simpa using h0'.le)
        omega
      · intro h; linarith
  · intro h
    rw [key x (by linarith)]
    exact ⟨Int.floor_le x, Int.lt_floor_add_one x⟩

/-- `d @ n` and `~d` are `sample(d, n)` and `sample(d)`. -/
theorem C72_operators (E : Env σ K) (o : Obj (St σ K) K) (n : Count K) :
    matmul E o n = sampleCall E (.obj o) n none none ∧
    invert E o = sampleObj E o 1 none none := by
  refine ⟨rfl, ?_⟩
  funext s
  obtain ⟨k, -, h2, h3⟩ := C72_sample_accepted E o (.int 1) none none s (by simp [Count.toInt])
  have : k = 1 := by simp only [Count.toInt] at h2; omega
  subst this
  exact h3

/-- **C76**, full statement minus `triangular`: whatever else is constructed with bounds, every sample
respects the upper bound, and (when the bounds are in order) the lower bound. -/
theorem C76_bounds_partial (E : Env σ K) (c : DistCall K) (o : Obj (St σ K) K)
    (hc : construct c = .ok o) (hnt : ∀ l m r lc rc, c ≠ .triangular l m r lc rc)
    (n : ℕ) (s s' : St σ K) (z : Samples K) (h : sampleObj E o n none none s = (.ok z, s')) :
    ∀ v ∈ z.toList, (∀ u ∈ c.bounds.2, ScalarLe v u) ∧
      ((∀ l ∈ c.bounds.1, ∀ u ∈ c.bounds.2, ScalarLe l u) → ∀ l ∈ c.bounds.1, ScalarLe l v) := by
  have hcl : o.clips = c.bounds := by
    cases c with
    | triangular l m r lc rc => exact absurd rfl (hnt l m r lc rc)
    | const v => cases hc; rfl
    | uniform x y => simp only [construct] at hc; split_ifs at hc; cases hc; rfl
    | binomial n p => simp only [construct] at hc; split_ifs at hc; cases hc; rfl
    | beta a b => cases hc; rfl
    | bernoulli p =>
      cases p with
      | none => cases hc
      | some p => simp only [construct] at hc; split_ifs at hc; cases hc; rfl
    | discrete items =>
      cases items with
      | absent => cases hc
      | other => cases hc
      | list vs => simp only [construct] at hc; split_ifs at hc; cases hc; rfl
      | ndarray vs => simp only [construct] at hc; split_ifs at hc; cases hc; rfl
      | dict vs => simp only [construct] at hc; split_ifs at hc; cases hc; rfl
    | tdist x y t cred lc rc =>
      simp only [construct] at hc
      rcases tBounds_cases x y with h | h <;> rw [h] at hc <;> cases hc
      rfl
    | logTdist x y t cred lc rc =>
      simp only [construct] at hc
      rcases tBounds_cases x y with h | h <;> rw [h] at hc
      · simp only [bind, Except.bind] at hc
        cases x with
        | none => cases hc; rfl
        | some a => simp only at hc; split_ifs at hc; cases hc; rfl
      · cases hc
    | pert l m r lam lc rc => simp only [construct] at hc; split_ifs at hc; cases hc; rfl
    | poisson lam lc rc => cases hc; rfl
    | chisquare df => simp only [construct] at hc; split_ifs at hc; cases hc; rfl
    | exponential sc lc rc => simp only [construct] at hc; split_ifs at hc; cases hc; rfl
    | gamma sh sc lc rc => cases hc; rfl
    | pareto sh => cases hc; rfl
    | geometric p => simp only [construct] at hc; split_ifs at hc; cases hc; rfl
    | die sides ex =>
      simp only [construct] at hc
      rcases C28_refused sides ex with ⟨d, h⟩ | h <;> rw [h] at hc <;> cases hc
      rfl
    | coin => cases hc; rfl
  intro v hv
  have := C12_bounds E o n none none s s' z h v hv
  simp only [lowerBounds, upperBounds, Option.toList_none, List.nil_append, Option.mem_toList,
    hcl] at this
  exact this

end Sample

/-- **C76** is false of `triangular`: its bounds are dropped.  With `lclip=1/2` a sample of `3/10` is
returned. -/
theorem C76_bounds_fails :
    ∃ (E : Env ℕ ℚ) (o : Obj (St ℕ ℚ) ℚ) (s s' : St ℕ ℚ) (z : Samples ℚ),
      E.gen.Lawful ∧ construct (.triangular 0 (1 / 2) 1 (some (.flt (1 / 2))) none) = .ok o ∧
      sampleObj E o 1 none none s = (.ok z, s') ∧ ∃ v ∈ z.toList, ¬ ScalarLe (.flt (1 / 2)) v := by
  refine ⟨demoEnv, .leaf (.triangular 0 (1 / 2) 1) none none, demoSt 1, _,
    .scalar (.flt (3 / 10)), demoGen_lawful, ?_, Prod.ext (by decide +kernel) rfl, ?_⟩
  · simp only [construct]; norm_num
  · refine ⟨.flt (3 / 10), by simp [Samples.toList], ?_⟩
    rintro ⟨x, y, hx, hy, hxy⟩
    cases hx
    cases hy
    norm_num [Num.val] at hxy

/-- The hypotheses of `C76_bounds_partial` are met: `gamma(2, 1, lclip=1/2)` returns the bound. -/
example : construct (.gamma 2 1 (some (.flt (1 / 2))) none) =
      (.ok (.leaf (.gamma 2 1) (some (.flt (1 / 2))) none) : Except PyErr (Obj (St ℕ ℚ) ℚ)) ∧
    (sampleObj demoEnv (.leaf (.gamma 2 1) (some (.flt (1 / 2))) none) 1 none none (demoSt 1)).1 =
      .ok (.scalar (.flt (1 / 2))) := ⟨rfl, by decide +kernel⟩

end Verif
