import Verif.Model.Aliasing
import Verif.Props.Dice
import Mathlib.Algebra.Field.Rat
import Mathlib.Data.Rat.Floor

/-!
# C96: a distribution does not change after it was built
-/

namespace Verif

section

variable {K : Type} [Field K] [LinearOrder K]

theorem runWrites_other (ws : List (ℕ × Cell K)) (c : ℕ) (hc : ∀ w ∈ ws, w.1 ≠ c) :
    ∀ h : Cells K, runWrites ws h c = h c := by
  induction ws with
  | nil => intro h; rfl
  | cons w ws ih =>
    intro h
    have := ih (fun v hv => hc v (List.mem_cons_of_mem _ hv))
    unfold runWrites at this ⊢
    rw [List.foldl_cons, this, if_neg]
    exact fun e => hc w List.mem_cons_self e.symm

theorem checkFaces_ints {s : ℤ} : ∀ {vs : List IntArg} {l : List ℤ}, checkFaces s vs = .ok l →
    vs.filterMap id = l := by
  intro vs
  induction vs with
  | nil => intro l h; simp only [checkFaces, Except.ok.injEq] at h; simp [← h]
  | cons v vs ih =>
    intro l h
    cases v with
    | none => simp [checkFaces] at h
    | some v =>
      simp only [checkFaces] at h
      split_ifs at h
      cases hc : checkFaces s vs with
      | error e => simp [hc, bind, Except.bind] at h
      | ok l' =>
        simp only [hc, bind, Except.bind, Except.ok.injEq] at h
        rw [← h, ← ih hc]; rfl

/-- **C96.** Right after the call the object stands for the distribution that was asked for: the die that
`dieInit` describes … -/
theorem C96_die_now {S : Type} (h : Cells K) (sides : IntArg) (c : ℕ) (k : Kept K)
    (hb : build h (.dieList sides c) = .ok k) :
    ∃ d, dieInit sides (.list (h c).toFaces) = .ok d ∧ k.now (S := S) h = .leaf (.die d) none none := by
  simp only [build] at hb
  cases hd : dieInit sides (.list (h c).toFaces) with
  | error e => rw [hd] at hb; cases hb
  | ok d =>
    rw [hd] at hb
    simp only [Except.ok.injEq] at hb
    subst hb
    refine ⟨d, rfl, ?_⟩
    simp only [Kept.now]
    congr 2
    unfold dieInit at hd
    cases sides with
    | none => cases hd
    | some s =>
      simp only [ExplodeArg.toList?] at hd
      split_ifs at hd
      cases hf : checkFaces s (h c).toFaces with
      | error e => simp [hf, bind, Except.bind] at hd
      | ok l =>
        simp only [hf, bind, Except.bind, Except.ok.injEq] at hd
        subst hd
        exact congrArg (fun l => DieSpec.mk s (some l)) (checkFaces_ints hf)

/-- … and the discrete distribution that the constructor describes. -/
theorem C96_discrete_now (h : Cells K) (c : ℕ) (k : Kept K) (hb : build h (.discrete c) = .ok k) :
    construct (S := Unit) (.discrete (h c).toItems) = .ok (k.now h) := by
  simp only [build] at hb
  cases hd : construct (S := Unit) (.discrete (h c).toItems) with
  | error e => rw [hd] at hb; cases hb
  | ok d =>
    rw [hd] at hb
    simp only [Except.ok.injEq] at hb
    subst hb
    simp only [Kept.now]
    cases hc : (h c) with
    | faces l =>
      simp only [hc, Cell.toItems, construct] at hd ⊢
      split_ifs at hd; exact hd.symm
    | items l =>
      simp only [hc, Cell.toItems, construct] at hd ⊢
      split_ifs at hd; exact hd.symm
    | dict l =>
      simp only [hc, Cell.toItems, construct] at hd ⊢
      split_ifs at hd; exact hd.symm

/-- **C96.** The items are exactly those that are in the caller's list or dict, in their order, with the caller's
weights. -/
theorem C96_discrete_contents {S : Type} (h : Cells K) (c : ℕ) (k : Kept K) (hb : build h (.discrete c) = .ok k)
    (h' : Cells K) :
    (∀ l, h' c = .items l → k.now (S := S) h' = .leaf (.categorical (.list l)) none none) ∧
    (∀ l, h' c = .dict l → k.now (S := S) h' = .leaf (.categorical (.dict l)) none none) := by
  simp only [build] at hb
  split at hb <;> cases hb
  constructor <;>
  · intro l hl
    simp only [Kept.now, hl, Cell.toItems]

/-- **C96.** A mixture of a dict has the dict's numbers as components and its weights, a mixture of a list the list's
numbers: those that `_process_weights_values` makes of them, for ever. -/
theorem C96_mixture_contents {S : Type} (h : Cells K) (c : ℕ) (k : Kept K) (hb : build h (.mixture c) = .ok k)
    (v : VArg K (Scalar K)) (hv : (∃ l, h c = .items l ∧ v = .list l) ∨ ∃ l, h c = .dict l ∧ v = .dict l)
    (h' : Cells K) :
    ∃ ws vs, (processWeightsValues (K := K) (fun _ => false) .absent .absent v false).result = .ok (ws, vs) ∧
      ∃ xs : List (Scalar K), xs = vs.filterMap VItem.plain? ∧
        k.now (S := S) h' = .mix xs.length (fun i => .lit xs[i]) ws none none := by
  have hc : (h c).toItems = v := by
    rcases hv with ⟨l, h1, rfl⟩ | ⟨l, h1, rfl⟩ <;> simp only [h1, Cell.toItems]
  simp only [build, hc] at hb
  split at hb
  · cases hb
  · rename_i ws vs hr
    cases hb
    exact ⟨ws, vs, hr, _, rfl, rfl⟩

/-- **C96** (what holds): whatever lists and dicts the caller changes after the call, the object stands for
the same distribution, as long as the list or dict that was passed is not among them.  *Missing:* changes of
that list or dict; see `C96_die_fails` and `C96_discrete_fails`. -/
theorem C96_unchanged_partial {S : Type} (h : Cells K) (b : BuildCall K) (k : Kept K) (hb : build h b = .ok k)
    (ws : List (ℕ × Cell K)) (hw : ∀ c, b.cell? = some c → ∀ w ∈ ws, w.1 ≠ c) :
    k.now (S := S) (runWrites ws h) = k.now h := by
  cases b with
  | die sides =>
    simp only [build] at hb
    split at hb <;> cases hb
    rfl
  | dieOne sides v =>
    simp only [build] at hb
    split at hb <;> cases hb
    rfl
  | dieList sides c =>
    simp only [build] at hb
    split at hb <;> cases hb
    simp only [Kept.now, runWrites_other ws c (hw c rfl)]
  | discrete c =>
    simp only [build] at hb
    split at hb <;> cases hb
    simp only [Kept.now, runWrites_other ws c (hw c rfl)]
  | discreteArray vs =>
    simp only [build] at hb
    split at hb <;> cases hb
    rfl
  | mixture c =>
    simp only [build] at hb
    split at hb <;> cases hb
    rfl

/-- **C96.** Mixtures, dice built with a single exploding face and `discrete` on numpy arrays never change,
whatever the caller does with their lists. -/
theorem C96_copied {S : Type} (h : Cells K) (b : BuildCall K) (k : Kept K) (hb : build h b = .ok k)
    (hkind : (∃ c, b = .mixture c) ∨ (∃ s v, b = .dieOne s v) ∨ (∃ s, b = .die s) ∨ ∃ vs, b = .discreteArray vs)
    (h' : Cells K) : k.now (S := S) h' = k.now h := by
  rcases hkind with ⟨c, rfl⟩ | ⟨s, v, rfl⟩ | ⟨s, rfl⟩ | ⟨vs, rfl⟩
  all_goals
    simp only [build] at hb
    split at hb <;> cases hb
    rfl

/-- Sampling `discrete` does not change the caller's list or dict. -/
theorem C96_sampling_keeps_items {α : Type} [DecidableEq α] (items : VArg K α) :
    (processDiscrete items).callerList = none := by
  have go : ∀ v : VArg K α, (processWeightsValues (K := K) (fun _ => false) .absent .absent v false).callerList
      = none := by
    intro v
    have habs : (WArg.absent : WArg K).isAbsent = true := rfl
    simp only [processWeightsValues, habs, Bool.not_true, Bool.and_false, Bool.false_eq_true, if_false,
      resolveWeights]
    split_ifs
    · rfl
    cases hr : resolveValues (K := K) none v with
    | error e => rfl
    | ok p =>
      obtain ⟨w2, vs⟩ := p
      simp only
      cases hf : fillWeights (K := K) (fun _ => false) false w2 vs with
      | error e => rfl
      | ok q =>
        obtain ⟨⟨ws, owner⟩, vs'⟩ := q
        simp only
        cases hn : requireNumbers ws with
        | error e => rfl
        | ok ws' =>
          simp only
          have howner : owner = .fresh := by
            have hw2 : ∀ x, w2 = some x → x.2 = .fresh := by
              intro x hx
              cases v <;> simp only [resolveValues, Except.ok.injEq, Prod.mk.injEq, reduceCtorEq] at hr
              · rw [← hr.1] at hx; cases hx
              · rw [← hr.1] at hx; cases hx
              · rw [← hr.1] at hx; cases hx; rfl
            cases w2 with
            | some x =>
              simp only [fillWeights, Bool.false_and, Bool.false_eq_true, if_false, Except.ok.injEq,
                Prod.mk.injEq] at hf
              have := hw2 x rfl
              rw [hf.1] at this
              exact this
            | none =>
              cases vs with
              | nil => simp [fillWeights] at hf
              | cons a vs =>
                cases a with
                | plain a =>
                  simp only [fillWeights, Except.ok.injEq, Prod.mk.injEq] at hf
                  exact hf.1.2.symm
                | pair w a =>
                  simp only [fillWeights, bind, Except.bind] at hf
                  split at hf
                  · cases hf
                  · simp only [Bool.false_and, Bool.false_eq_true, if_false, Except.ok.injEq,
                      Prod.mk.injEq] at hf
                    exact hf.1.2.symm
          subst howner
          unfold finishWeights
          simp only [Bool.false_eq_true, if_false]
          split_ifs <;> rfl
  unfold processDiscrete
  cases items with
  | list vs => simp only; split_ifs <;> exact go _
  | ndarray vs => simp only; split_ifs <;> exact go _
  | _ => exact go _

/-- **C96 fails**, 1: a die is built with the caller's list; when the caller then adds faces to the list so
that all are there, rolling it never ends: whatever the generator returns (faces of the die), no number of
extra rolls is enough. -/
theorem C96_die_fails {R : Type} (h : Cells K) (s : ℤ) (c : ℕ) (k : Kept K)
    (hb : build h (.dieList (some s) c) = .ok k) :
    ∃ ws, ∃ d : DieSpec, k.now (S := R) (runWrites ws h) = .leaf (.die d) none none ∧ d.sides = s ∧
      ∀ (S : Type) (next : S → Except PyErr ℤ × S),
        (∀ st, ∃ r st', next st = (.ok r, st') ∧ 1 ≤ r ∧ r ≤ s) →
        ∀ fuel st, (singleRoll next d.explodeOn fuel st).1 = .error .outOfFuel := by
  obtain ⟨d, hd, -⟩ := C96_die_now (S := R) h (some s) c k hb
  have hs : d.sides = s := by
    have := ((C28_accepted_iff _ _ d).1 hd).2.1
    simpa using this.symm
  have hk : k = .dieShared s c := by
    simp only [build, hd] at hb
    rw [← hs]
    cases hb; rfl
  subst hk
  obtain ⟨l, hl⟩ : ∃ l : List ℤ, ∀ r : ℤ, 1 ≤ r → r ≤ s → r ∈ l :=
    ⟨(Finset.Icc 1 s).toList, fun r h1 h2 => Finset.mem_toList.2 (Finset.mem_Icc.2 ⟨h1, h2⟩)⟩
  refine ⟨[(c, .faces (l.map some))], ⟨s, some l⟩, ?_, rfl, ?_⟩
  · have e : (l.map some).filterMap id = l := by
      rw [List.filterMap_map]; exact List.filterMap_some
    simp only [Kept.now, runWrites, List.foldl_cons, List.foldl_nil, if_true, Cell.toFaces]
    rw [e]
  · intro S next hnext fuel st
    have loop : ∀ (f : ℕ) (r tot : ℤ) (st : S), 1 ≤ r → r ≤ s →
        (explodeLoop next l f r tot st).1 = .error .outOfFuel := by
      intro f
      induction f with
      | zero => intro r tot st h1 h2; simp [explodeLoop, hl r h1 h2]
      | succ f ih =>
        intro r tot st h1 h2
        obtain ⟨r', st', hn, h3, h4⟩ := hnext st
        simp only [explodeLoop, hl r h1 h2, if_true, hn]
        exact ih r' _ st' h3 h4
    obtain ⟨r, st', hn, h1, h2⟩ := hnext st
    simp only [singleRoll, hn]
    exact loop fuel r r st' h1 h2

end

/-- The caller's lists: cell 0 holds `[6]`, cell 1 `[1, 2]`. -/
def demoCells : Cells ℚ
  | 0 => .faces [some 6]
  | 1 => .items [.plain (.int 1), .plain (.int 2)]
  | _ => .faces []

/-- The premises are met: `die(6, explode_on=[6])` is built. -/
theorem C96_die_example : ∃ k, build demoCells (.dieList (some 6) 0) = .ok k := by
  refine ⟨.dieShared 6 0, ?_⟩
  simp [build, demoCells, Cell.toFaces, dieInit, ExplodeArg.toList?, checkFaces, bind, Except.bind]

/-- **C96 fails**, 2: `items = [1, 2]; d = discrete(items); items[:] = [5]`: from then on `d` is the
distribution of 5. -/
theorem C96_discrete_fails : ∃ k, build demoCells (.discrete 1) = .ok k ∧
    k.now (S := Unit) demoCells = .leaf (.categorical (.list [.plain (.int 1), .plain (.int 2)])) none none ∧
    k.now (S := Unit) (runWrites [(1, .items [.plain (.int 5)])] demoCells)
      = .leaf (.categorical (.list [.plain (.int 5)])) none none := by
  refine ⟨.itemsShared 1, ?_, rfl, rfl⟩
  simp [build, demoCells, Cell.toItems, construct]

end Verif
