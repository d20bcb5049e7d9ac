import Verif.Props.Params

/-!
# C43, C44: which constructor calls succeed, and with what fields
-/

namespace Verif

open Spec

/-! ## C44 -/

/-- **C44** for the normal distribution, exact: a constructed normal distribution always has a mean; it
lacks a standard deviation exactly if `x`, `y` and `mean` were given together. -/
theorem C44_norm_partial (ppf : ℝ → ℝ) (x y mean sd : Option ℝ) (cred : ℝ) (f : NormalFields)
    (h : normalInit ppf x y mean sd cred = .ok f) :
    f.mean.isSome ∧ (f.sd = none ↔ x.isSome ∧ y.isSome ∧ mean.isSome) := by
  unfold normalInit at h
  cases x <;> cases y <;> cases mean <;> cases sd <;>
    simp [outOfOrder] at h <;>
    (first
      | (split at h
         · exact absurd h (by simp)
         · obtain rfl := Except.ok.inj h; simp)
      | (subst h; simp))

/-- **C44 is false** for `norm(x=…, y=…, mean=…)`: the object is built without a standard deviation. -/
theorem C44_norm_fails (ppf : ℝ → ℝ) (x y mean cred : ℝ) (hxy : x ≤ y) :
    normalInit ppf (some x) (some y) (some mean) none cred = .ok ⟨some mean, none⟩ := by
  simp [normalInit, outOfOrder, not_lt.2 hxy]

/-- When `norm(...)` returns: exactly for an ordered interval without `sd`, or a standard deviation
without any interval bound. -/
theorem C44_norm_accept (ppf : ℝ → ℝ) (x y mean sd : Option ℝ) (cred : ℝ) :
    (∃ f, normalInit ppf x y mean sd cred = .ok f) ↔
      (∃ a b, x = some a ∧ y = some b ∧ a ≤ b ∧ sd = none) ∨ (x = none ∧ y = none ∧ ∃ s, sd = some s) := by
  unfold normalInit
  cases x <;> cases y <;> cases mean <;> cases sd <;> simp [outOfOrder]
  · rename_i a b
    rcases lt_or_ge b a with h | h
    · simp [h]
    · simp [h, not_lt.2 h]
  · rename_i a b _
    rcases lt_or_ge b a with h | h
    · simp [h]
    · simp [h, not_lt.2 h]

/-- … and otherwise raises `ValueError`. -/
theorem C44_norm_error (ppf : ℝ → ℝ) (x y mean sd : Option ℝ) (cred : ℝ) (e : PyErr)
    (h : normalInit ppf x y mean sd cred = .error e) : e = .valueError := by
  unfold normalInit at h
  cases x <;> cases y <;> cases mean <;> cases sd <;> simp [outOfOrder] at h <;>
    (first
      | exact h.symm
      | (split at h
         · exact (Except.error.inj h).symm
         · exact absurd h (by simp)))

/-- The ways the common checks can pass: exactly one parametrisation is given. -/
theorem logChecks_ok {a : LogArgs} {f : LogFields} (h : logChecks a = .ok f) :
    (∃ x y, a.x = some x ∧ a.y = some y ∧ x ≤ y ∧ 0 < x ∧ a.normSd = none ∧ a.lognormSd = none ∧
      f.normSd = none ∧ f.lognormSd = none) ∨
    (∃ s, a.x = none ∧ a.y = none ∧ a.normSd = some s ∧ a.lognormSd = none ∧ f.normSd = some s ∧
      f.normMean = some (a.normMean.getD 0) ∧ f.lognormSd = none) ∨
    (∃ s, a.x = none ∧ a.y = none ∧ a.normSd = none ∧ a.lognormSd = some s ∧ f.normSd = none ∧
      f.lognormSd = some s ∧ f.lognormMean = some (a.lognormMean.getD 1)) := by
  obtain ⟨x, y, nm, ns, lm, ls, c⟩ := a
  unfold logChecks at h
  cases x <;> cases y <;> cases nm <;> cases ns <;> cases lm <;> cases ls <;>
    simp [outOfOrder] at h <;>
    (first
      | (split at h
         · exact absurd h (by simp)
         · split at h
           · exact absurd h (by simp)
           · obtain rfl := Except.ok.inj h
             simp_all)
      | (subst h; simp))

/-- **C44** for the lognormal distribution: whatever combination of arguments is given, a constructed
lognormal distribution has all four parameters. -/
theorem C44_lognorm (ppf : ℝ → ℝ) (a : LogArgs) (f : LogFields) (h : lognormInit ppf a = .ok f) :
    f.normMean.isSome ∧ f.normSd.isSome ∧ f.lognormMean.isSome ∧ f.lognormSd.isSome := by
  unfold lognormInit at h
  cases hc : logChecks a with
  | error e => rw [hc] at h; exact absurd h (by simp [Bind.bind, Except.bind])
  | ok g =>
    rw [hc] at h
    obtain ⟨gnm, gns, glm, gls⟩ := g
    rcases logChecks_ok hc with ⟨x, y, hx, hy, -, -, -, -, h1, h2⟩ |
      ⟨s, hx, hy, -, -, h1, h2, h3⟩ | ⟨s, hx, hy, -, -, h1, h2, h3⟩
    · simp only at h1 h2
      subst h1 h2
      simp only [hx, hy, Bind.bind, Except.bind] at h
      obtain rfl := Except.ok.inj h
      simp
    · simp only at h1 h2 h3
      subst h1 h2 h3
      simp only [hx, hy, Bind.bind, Except.bind] at h
      obtain rfl := Except.ok.inj h
      simp
    · simp only at h1 h2 h3
      subst h1 h2 h3
      simp only [hx, hy, Bind.bind, Except.bind] at h
      split at h
      · exact absurd h (by simp)
      · obtain rfl := Except.ok.inj h
        simp

/-- **C44** for the inverse lognormal distribution. -/
theorem C44_invlognorm (ppf : ℝ → ℝ) (a : LogArgs) (f : LogFields)
    (h : invlognormInit ppf a = .ok f) :
    f.normMean.isSome ∧ f.normSd.isSome ∧ f.lognormMean.isSome ∧ f.lognormSd.isSome := by
  unfold invlognormInit at h
  cases hc : logChecks a with
  | error e => rw [hc] at h; exact absurd h (by simp [Bind.bind, Except.bind])
  | ok g =>
    rw [hc] at h
    obtain ⟨gnm, gns, glm, gls⟩ := g
    rcases logChecks_ok hc with ⟨x, y, hx, hy, -, -, -, -, h1, h2⟩ |
      ⟨s, hx, hy, -, -, h1, h2, h3⟩ | ⟨s, hx, hy, -, -, h1, h2, h3⟩
    · simp only at h1 h2
      subst h1 h2
      simp only [hx, hy, Bind.bind, Except.bind] at h
      obtain rfl := Except.ok.inj h
      simp
    · simp only at h1 h2 h3
      subst h1 h2 h3
      simp only [hx, hy, Bind.bind, Except.bind] at h
      obtain rfl := Except.ok.inj h
      simp
    · simp only at h1 h2 h3
      subst h1 h2 h3
      simp only [hx, hy, Bind.bind, Except.bind] at h
      split at h
      · exact absurd h (by simp)
      · split at h
        · exact absurd h (by simp)
        · obtain rfl := Except.ok.inj h
          simp

/-- **C44**, errors of the lognormal constructor: only `ValueError` and, for a zero `lognorm_mean`, the
division error; a missing value is never used in arithmetic (`TypeError`). -/
theorem C44_lognorm_error (ppf : ℝ → ℝ) (a : LogArgs) (e : PyErr) (h : lognormInit ppf a = .error e) :
    e = .valueError ∨ (e = .zeroDivisionError ∧ a.lognormMean = some 0) := by
  unfold lognormInit at h
  cases hc : logChecks a with
  | error e' =>
    rw [hc] at h
    have : e = e' := by
      simp [Bind.bind, Except.bind] at h
      exact h.symm
    subst this
    unfold logChecks at hc
    left
    repeat' split at hc
    all_goals first
      | exact (Except.error.inj hc).symm
      | exact absurd hc (by simp)
  | ok g =>
    rw [hc] at h
    obtain ⟨gnm, gns, glm, gls⟩ := g
    rcases logChecks_ok hc with ⟨x, y, hx, hy, -, -, -, -, h1, h2⟩ |
      ⟨s, hx, hy, -, -, h1, h2, h3⟩ | ⟨s, hx, hy, -, -, h1, h2, h3⟩
    · simp only at h1 h2
      subst h1 h2
      simp only [hx, hy, Bind.bind, Except.bind] at h
      exact absurd h (by simp)
    · simp only at h1 h2 h3
      subst h1 h2 h3
      simp only [hx, hy, Bind.bind, Except.bind] at h
      exact absurd h (by simp)
    · simp only at h1 h2 h3
      subst h1 h2 h3
      simp only [hx, hy, Bind.bind, Except.bind] at h
      split at h
      · rename_i h0
        right
        refine ⟨(Except.error.inj h).symm, ?_⟩
        cases hlm : a.lognormMean with
        | none => rw [hlm] at h0; simp at h0
        | some v => rw [hlm] at h0; simpa using h0
      · exact absurd h (by simp)

example (ppf : ℝ → ℝ) : ∃ f, lognormInit ppf { lognormSd := some 2 } = .ok f ∧
    f.lognormMean = some 1 := by
  refine ⟨⟨some (Real.log (1 ^ 2 / Real.sqrt (2 ^ 2 + 1 ^ 2))),
    some (Real.sqrt (Real.log (1 + 2 ^ 2 / 1 ^ 2))), some 1, some 2⟩, ?_, rfl⟩
  have : ∀ α (a b : Except PyErr α), (if (1 : ℝ) = 0 then a else b) = b :=
    fun _ _ _ => if_neg one_ne_zero
  simp only [lognormInit, logChecks, outOfOrder]
  exact this _ _ _

/-! ## C43 -/

/-- **C43**: `to(x, y)` for an ordered pair never fails: it is `lognorm(x, y)` for positive `x` and
`norm(x, y)` otherwise, fully defined; for `x > y` it raises `ValueError`. -/
theorem C43_to (ppf : ℝ → ℝ) (x y cred : ℝ) :
    (x ≤ y → 0 < x → ∃ f, toInit ppf x y cred = .ok (.lognorm f) ∧
      lognormInit ppf { x := some x, y := some y, cred := cred } = .ok f ∧
      f.normMean.isSome ∧ f.normSd.isSome ∧ f.lognormMean.isSome ∧ f.lognormSd.isSome) ∧
    (x ≤ y → x ≤ 0 → ∃ m s, toInit ppf x y cred = .ok (.norm ⟨some m, some s⟩) ∧
      normalInit ppf (some x) (some y) none none cred = .ok ⟨some m, some s⟩) ∧
    (y < x → toInit ppf x y cred = .error .valueError) := by
  refine ⟨fun hxy hx => ?_, fun hxy hx => ?_, fun hyx => ?_⟩
  · have h := lognormInit_xy ppf cred hx hxy
    refine ⟨_, ?_, h, C44_lognorm ppf _ _ h⟩
    unfold toInit
    rw [if_pos hx, h]
    rfl
  · have h : normalInit ppf (some x) (some y) none none cred =
        .ok ⟨some ((x + y) / 2), some ((y - (x + y) / 2) / normedSigma ppf cred)⟩ := by
      simp [normalInit, outOfOrder, not_lt.2 hxy]
    refine ⟨_, _, ?_, h⟩
    unfold toInit
    rw [if_neg (not_lt.2 hx), h]
    rfl
  · unfold toInit
    split
    · have : lognormInit ppf { x := some x, y := some y, cred := cred } = .error .valueError := by
        simp [lognormInit, logChecks, outOfOrder, hyx, Bind.bind, Except.bind]
      rw [this]
      rfl
    · have : normalInit ppf (some x) (some y) none none cred = .error .valueError := by
        simp [normalInit, outOfOrder, hyx]
      rw [this]
      rfl

/-- The law of what `to` returns. -/
noncomputable def ToDist.law : ToDist → MeasureTheory.Measure ℝ
  | .lognorm f => lognormalLaw (f.normMean.getD 0) (f.normSd.getD 0)
  | .norm f => normalLaw (f.mean.getD 0) (f.sd.getD 0)

/-- **C43** (meaning): for `x < y`, `to(x, y, credibility)` has central credible interval `[x, y]`,
whichever family it picks. -/
theorem C43_interval {ppf : ℝ → ℝ} (hp : IsPpf ppf) {x y cred : ℝ} (hxy : x < y) (h0 : 0 < cred)
    (h1 : cred < 100) : ∃ d, toInit ppf x y cred = .ok d ∧ HasCI d.law x y cred := by
  by_cases hx : 0 < x
  · obtain ⟨f, hf, hf', -⟩ := (C43_to ppf x y cred).1 hxy.le hx
    refine ⟨_, hf, ?_⟩
    obtain ⟨g, m, s, hg, hm, hs, -, hci⟩ := C39_lognorm_interval hp hx hxy h0 h1
    rw [hf'] at hg
    obtain rfl := Except.ok.inj hg
    simpa [ToDist.law, hm, hs] using hci
  · push Not at hx
    obtain ⟨m, s, hf, hf'⟩ := (C43_to ppf x y cred).2.1 hxy.le hx
    refine ⟨_, hf, ?_⟩
    obtain ⟨m', s', hg, -, -, hci⟩ := C38_norm_interval hp hxy h0 h1
    rw [hf'] at hg
    have hfs := Except.ok.inj hg
    simp only [NormalFields.mk.injEq, Option.some.injEq] at hfs
    obtain ⟨rfl, rfl⟩ := hfs
    simpa [ToDist.law] using hci

example : ∃ ppf d, IsPpf ppf ∧ toInit ppf (-2) 5 80 = .ok d ∧ HasCI d.law (-2) 5 80 := by
  obtain ⟨ppf, hp⟩ := exists_ppf
  obtain ⟨d, h⟩ := C43_interval hp (x := -2) (y := 5) (cred := 80) (by norm_num) (by norm_num)
    (by norm_num)
  exact ⟨ppf, d, hp, h⟩

end Verif
