import Verif.Props.Bayesnet
import Verif.Model.Update
import Mathlib.Tactic.FieldSimp
import Mathlib.Tactic.Ring
import Mathlib.Tactic.Positivity

/-!
# C149: the answers of `bayesnet` from the same cached events are coherent

A user asks `bayesnet` for one probability after the other: `P(h)`, `P(f | h)`, `P(f | not h)`,
`P(h | f)`.  The calls differ in `find` and `conditional_on`; each call could in principle draw its own
events.  With `memcache=True` they all answer from the same ones, so the answers are the conditional
probabilities of one probability.
-/

namespace Verif

set_option linter.unusedSectionVars false

variable {S α K : Type} [Field K]

/-- `bayesnet(g, n=n, find=f, conditional_on=c, …)` with yes/no questions `f` and `c`; `c = none` is
`conditional_on=None`. -/
def askChance (E : BEnv S α) (o : BOpts) (g : ℕ) (n : ℤ) (f : α → Bool) (c : Option (α → Bool))
    (s : BSt S α) : Except PyErr (BResult Unit K) × BSt S α :=
  bayesnet E o (some g) n (.findReduce (fun e => .ok (.bool (f e))) none : Query α Unit K)
    (c.map fun c e => .ok (c e)) s

/-- What a probability of yes/no questions is: nonnegative, one for the certain question, additive for
questions that exclude each other. -/
structure IsProb [LE K] (P : (α → Bool) → K) : Prop where
  nonneg : ∀ f, 0 ≤ P f
  certain : P (fun _ => true) = 1
  additive : ∀ f g, (∀ e, ¬ (f e = true ∧ g e = true)) → P (fun e => f e || g e) = P f + P g

/-- The answer a probability gives to "how probable is `f`, given `c`?". -/
def IsProb.answer [DecidableEq K] (P : (α → Bool) → K) (f : α → Bool) (c : Option (α → Bool)) :
    Except PyErr (BResult Unit K) :=
  if P (c.getD fun _ => true) = 0 then .error .valueError
  else .ok (.mean (P (fun e => (c.getD fun _ => true) e && f e) / P (c.getD fun _ => true)))

/-- Share of the list. -/
def share (l : List α) (f : α → Bool) : K := (l.countP f : ℕ) / (l.length : ℕ)

theorem countP_or (f g : α → Bool) (h : ∀ e, ¬ (f e = true ∧ g e = true)) :
    ∀ l : List α, (l.countP fun e => f e || g e) = l.countP f + l.countP g
  | [] => rfl
  | a :: l => by
    have := h a
    simp only [List.countP_cons, countP_or f g h l]
    cases hf : f a <;> cases hg : g a <;> simp_all <;> omega

theorem share_prob [LinearOrder K] [IsStrictOrderedRing K] {l : List α} (hl : l ≠ []) :
    IsProb (share l : (α → Bool) → K) where
  nonneg f := by unfold share; positivity
  certain := by
    have : (l.length : K) ≠ 0 := by
      simpa using hl
    unfold share
    rw [List.countP_true]
    exact div_self this
  additive f g h := by
    unfold share
    rw [countP_or f g h]
    push_cast
    ring

theorem seen_mean {r : Except PyErr (BResult Unit K)} {s2 s3 : BSt S α} {x : K}
    (h : (do let r ← r; Except.ok (r.seen s2))
      = (do let r ← (.ok (.mean x) : Except PyErr (BResult Unit K)); Except.ok (r.seen s3))) :
    r = .ok (.mean x) := by
  cases r with
  | error e => simp [bind, Except.bind] at h
  | ok r => cases r <;> simp [bind, Except.bind, BResult.seen] at h ⊢; exact h

/-- The answer is a ratio of shares of the events used. -/
theorem ask_of_used [LinearOrder K] [IsStrictOrderedRing K] {E : BEnv S α} {o : BOpts} {g : ℕ} {n : ℤ}
    {s s1 : BSt S α} {l : List α}
    (hl : bayesnet E o (some g) n (.reduceEvents .ok : Query α (List α) K) none s
      = (.ok (.reduced l), s1)) (hne : l ≠ []) (f : α → Bool) (c : Option (α → Bool)) :
    (askChance E o g n f c s : Except PyErr (BResult Unit K) × BSt S α).1
      = IsProb.answer (share l) f c := by
  have hlen : (l.length : K) ≠ 0 := by simpa using hne
  have key : ∀ c : α → Bool,
      (if l.countP c = 0 then .error .valueError
        else .ok (.mean ((l.countP fun e => c e && f e : ℕ) / (l.countP c : ℕ) : K)) :
        Except PyErr (BResult Unit K)) = IsProb.answer (share l) f (some c) := by
    intro c
    unfold IsProb.answer share
    simp only [Option.getD_some, div_eq_zero_iff, hlen, or_false, Nat.cast_eq_zero]
    split_ifs with h0
    · rfl
    · rw [div_div_div_cancel_right₀ hlen]
  cases c with
  | some c =>
    rw [← key c]
    exact C46_frequency E o (some g) n f c s s1 l hl
  | none =>
    have e1 : (IsProb.answer (share l) f none : Except PyErr (BResult Unit K))
        = IsProb.answer (share l) f (some fun _ => true) := rfl
    rw [e1, ← key]
    have h0 : l.countP (fun _ => true) ≠ 0 := by
      rw [List.countP_true]; simpa using hne
    rw [if_neg h0]
    obtain ⟨h, -⟩ := C46_refines E o (some g) n
      (.findReduce (fun e => .ok (.bool (f e))) none : Query α Unit K) none s s1 l hl
    have h2 := C46_frequency (ρ := Unit) E o (some g) n f (fun _ => true) s s1 l hl
    obtain ⟨h3, -⟩ := C46_refines E o (some g) n
      (.findReduce (fun e => .ok (.bool (f e))) none : Query α Unit K)
      (some fun _ => .ok true) s s1 l hl
    rw [if_neg h0] at h2
    have h4 : answerAbout (.findReduce (fun e => .ok (.bool (f e))) none : Query α Unit K) none l
        = answerAbout (.findReduce (fun e => .ok (.bool (f e))) none : Query α Unit K)
          (some fun _ => .ok true) l := by
      have : filterExcept (fun _ => .ok true) l = .ok l := by
        rw [filterExcept_pure (fun _ => true) l]; simp
      simp only [answerAbout, this, bind, Except.bind]
    rw [h4, ← h3, h2] at h
    exact seen_mean h

/-- The cached events survive a call that answers. -/
theorem knows_of_ask {E : BEnv S α} {o : BOpts} {g : ℕ} {n : ℤ} {s s1 : BSt S α}
    (hwf : s.WF) (hm : o.memcache = some true) (hl : truthyName o.load = none)
    {f : α → Bool} {c : Option (α → Bool)} {x : K}
    (h1 : askChance E o g n f c s = (.ok (.mean x), s1)) :
    ∃ l t, l ≠ [] ∧ Knows (some g) l n s1 ∧
      bayesnet E o (some g) n (.reduceEvents .ok : Query α (List α) K) none s
        = (.ok (.reduced l), t) := by
  unfold askChance at h1
  have hf := bayesnet_frame E o (some g) n
    (.findReduce (fun e => .ok (.bool (f e))) none : Query α Unit K) (c.map fun c e => .ok (c e)) s
  have he := C46_error E o (some g) n
    (.findReduce (fun e => .ok (.bool (f e))) none : Query α Unit K) (c.map fun c e => .ok (c e)) s
  rw [h1] at hf he
  rcases hu : bayesnet E o (some g) n (.reduceEvents .ok : Query α (List α) K) none s with ⟨e | r, t⟩
  · simpa using he t e hu
  · rw [bayesnet_eq] at hu h1
    rcases hp : prepareEvents E o (some g) n s with ⟨e | _ | ref, s2⟩
    · rw [hp] at hu; simp at hu
    · rw [hp] at h1; simp at h1
    · rw [hp] at hu hf
      have hk := knows_of_prepare hwf hm hl hp
      simp only [answerEvents] at hu
      split_ifs at hu with h0
      · simp at hu
      · have hne : s2.lists ref ≠ [] := by
          intro h; rw [h] at h0; simp at h0
        refine ⟨s2.lists ref, s2, hne, ?_, ?_⟩
        · rcases hf with hf | ⟨l', hf⟩
          · simp only at hf; rw [hf]; exact hk
          · simp only at hf; rw [hf]; exact hk.alloc l'
        · exact hu.symm

/-- **C149**: one call with `memcache=True` (and no file to load) answered.  Then there is one probability
`P` of yes/no questions such that this answer, and – whatever calls, for whatever event functions and
questions, happen in between, as long as the entry of this event function is not reloaded, the process not
restarted and no list changed in place – every later answer with `memcache=True` for no more events, is
the conditional probability according to `P`, the error being ValueError exactly if the condition has
probability zero. -/
theorem C149_coherent [LinearOrder K] [IsStrictOrderedRing K] (E : BEnv S α) (o : BOpts) (g : ℕ) (n : ℤ)
    (f0 : α → Bool) (c0 : Option (α → Bool)) (s s1 : BSt S α) (hwf : s.WF)
    (hm : o.memcache = some true) (hl : truthyName o.load = none) (x : K)
    (h1 : askChance E o g n f0 c0 s = (.ok (.mean x), s1)) :
    ∃ P : (α → Bool) → K, IsProb P ∧
      (.ok (.mean x) : Except PyErr (BResult Unit K)) = IsProb.answer P f0 c0 ∧
      ∀ (ρ : Type) (ops : List (BOp α ρ K)), (∀ op ∈ ops, ¬ op.Mutates ∧ ¬ op.Replaces (some g)) →
      ∀ (o' : BOpts), o'.memcache = some true → o'.reload = false → truthyName o'.load = none →
        truthyName o'.dump = none →
      ∀ n' ≤ n, ∀ (f : α → Bool) (c : Option (α → Bool)),
        (askChance E o' g n' f c (runBayes E ops s1) : Except PyErr (BResult Unit K) × BSt S α).1
          = IsProb.answer P f c := by
  obtain ⟨l, t, hne, hk, hu⟩ := knows_of_ask hwf hm hl h1
  refine ⟨share l, share_prob hne, ?_, ?_⟩
  · rw [← ask_of_used hu hne f0 c0, h1]
  · intro ρ ops hops o' hm' hr' hl' hd' n' hn f c
    exact ask_of_used (used_of_knows hne (Knows.run (E := E) ops hops s1 hk) hm' hr' hl' hd' hn) hne f c

/-! ## The rules of probability between calls -/

/-- After the state `s1`, some admissible history and call with `find=f`, `conditional_on=c` has the result
`r` (histories and options as in `C149_coherent`). -/
def LaterAnswer (E : BEnv S α) (g : ℕ) (n : ℤ) (s1 : BSt S α) (f : α → Bool) (c : Option (α → Bool))
    (r : Except PyErr (BResult Unit K)) : Prop :=
  ∃ (ρ : Type) (ops : List (BOp α ρ K)) (o' : BOpts) (n' : ℤ),
    (∀ op ∈ ops, ¬ op.Mutates ∧ ¬ op.Replaces (some g)) ∧ o'.memcache = some true ∧
    o'.reload = false ∧ truthyName o'.load = none ∧ truthyName o'.dump = none ∧ n' ≤ n ∧
    (askChance E o' g n' f c (runBayes E ops s1)).1 = r

section Rules

variable [LinearOrder K] [IsStrictOrderedRing K] {E : BEnv S α} {o : BOpts} {g : ℕ} {n : ℤ}
  {f0 : α → Bool} {c0 : Option (α → Bool)} {s s1 : BSt S α} {x : K}

theorem later_answers (hwf : s.WF) (hm : o.memcache = some true) (hl : truthyName o.load = none)
    (h1 : askChance E o g n f0 c0 s = (.ok (.mean x), s1)) :
    ∃ P : (α → Bool) → K, IsProb P ∧ ∀ f c r, LaterAnswer E g n s1 f c r → r = IsProb.answer P f c := by
  obtain ⟨P, hP, -, h⟩ := C149_coherent E o g n f0 c0 s s1 hwf hm hl x h1
  refine ⟨P, hP, ?_⟩
  rintro f c r ⟨ρ, ops, o', n', a1, a2, a3, a4, a5, a6, rfl⟩
  exact h ρ ops a1 o' a2 a3 a4 a5 n' a6 f c

theorem answer_ok {P : (α → Bool) → K} {f : α → Bool} {c : Option (α → Bool)} {a : K}
    (h : .ok (.mean a) = IsProb.answer P f c) :
    P (c.getD fun _ => true) ≠ 0 ∧
      a = P (fun e => (c.getD fun _ => true) e && f e) / P (c.getD fun _ => true) := by
  unfold IsProb.answer at h
  split_ifs at h with h0
  exact ⟨h0, by simpa using h⟩

theorem IsProb.split {P : (α → Bool) → K} (hP : IsProb P) (c f : α → Bool) :
    P c = P (fun e => c e && f e) + P (fun e => c e && !f e) := by
  rw [← hP.additive _ _ (by intro e; cases f e <;> simp)]
  congr 1
  funext e
  cases c e <;> cases f e <;> rfl

/-- **C149**, sum rule: `P(f | c) + P(not f | c) = 1`, asked in two calls. -/
theorem C149_sum (hwf : s.WF) (hm : o.memcache = some true) (hl : truthyName o.load = none)
    (h1 : askChance E o g n f0 c0 s = (.ok (.mean x), s1))
    (f : α → Bool) (c : Option (α → Bool)) (a : K) (r : Except PyErr (BResult Unit K))
    (ha : LaterAnswer E g n s1 f c (.ok (.mean a)))
    (hr : LaterAnswer E g n s1 (fun e => !f e) c r) : r = .ok (.mean (1 - a)) := by
  obtain ⟨P, hP, h⟩ := later_answers hwf hm hl h1
  obtain ⟨h0, rfl⟩ := answer_ok (h _ _ _ ha)
  rw [h _ _ _ hr]
  unfold IsProb.answer
  rw [if_neg h0]
  congr 2
  rw [eq_sub_iff_add_eq, ← add_div, add_comm, ← hP.split (c.getD fun _ => true) f, div_self h0]

/-- **C149**, product rule: `P(f and k | c) = P(k | c) * P(f | c and k)`, asked in three calls. -/
theorem C149_product (hwf : s.WF) (hm : o.memcache = some true) (hl : truthyName o.load = none)
    (h1 : askChance E o g n f0 c0 s = (.ok (.mean x), s1))
    (f k c : α → Bool) (a b : K) (r : Except PyErr (BResult Unit K))
    (ha : LaterAnswer E g n s1 k (some c) (.ok (.mean a)))
    (hb : LaterAnswer E g n s1 f (some fun e => c e && k e) (.ok (.mean b)))
    (hr : LaterAnswer E g n s1 (fun e => f e && k e) (some c) r) : r = .ok (.mean (a * b)) := by
  obtain ⟨P, hP, h⟩ := later_answers hwf hm hl h1
  obtain ⟨h0, rfl⟩ := answer_ok (h _ _ _ ha)
  obtain ⟨h2, rfl⟩ := answer_ok (h _ _ _ hb)
  rw [h _ _ _ hr]
  simp only [Option.getD_some] at h0 h2
  unfold IsProb.answer
  simp only [Option.getD_some]
  rw [if_neg h0]
  have e : (fun e => c e && (f e && k e)) = fun e => c e && k e && f e := by
    funext e; cases c e <;> cases f e <;> cases k e <;> rfl
  rw [e]
  congr 2
  field_simp

/-- **C149**, total probability: `P(f) = P(f | h) P(h) + P(f | not h) (1 - P(h))`, asked in four calls. -/
theorem C149_total (hwf : s.WF) (hm : o.memcache = some true) (hl : truthyName o.load = none)
    (h1 : askChance E o g n f0 c0 s = (.ok (.mean x), s1))
    (f k : α → Bool) (p a b : K) (r : Except PyErr (BResult Unit K))
    (hp : LaterAnswer E g n s1 k none (.ok (.mean p)))
    (ha : LaterAnswer E g n s1 f (some k) (.ok (.mean a)))
    (hb : LaterAnswer E g n s1 f (some fun e => !k e) (.ok (.mean b)))
    (hr : LaterAnswer E g n s1 f none r) : r = .ok (.mean (a * p + b * (1 - p))) := by
  obtain ⟨P, hP, h⟩ := later_answers hwf hm hl h1
  obtain ⟨-, hp'⟩ := answer_ok (h _ _ _ hp)
  obtain ⟨h0, rfl⟩ := answer_ok (h _ _ _ ha)
  obtain ⟨h2, rfl⟩ := answer_ok (h _ _ _ hb)
  rw [h _ _ _ hr]
  simp only [Option.getD_some, Option.getD_none, Bool.true_and] at h0 h2 hp' ⊢
  have hc := hP.certain
  have hs := hP.split (fun _ => true) k
  simp only [Bool.true_and, hc] at hs
  rw [hc, div_one] at hp'
  subst hp'
  unfold IsProb.answer
  simp only [Option.getD_none, Bool.true_and]
  rw [hc, if_neg one_ne_zero, div_one]
  have e1 : 1 - P k = P fun e => !k e := by rw [hs]; ring
  rw [e1, div_mul_cancel₀ _ h0, div_mul_cancel₀ _ h2, hP.split f k]
  congr 4 <;> funext e <;> exact Bool.and_comm _ _

end Rules

/-- **C149**, Bayes: `P(h | f)` as answered by `bayesnet` is exactly what `simple_bayes` computes from the
answers `P(f | h)`, `P(f | not h)` and `P(h)`; `bayesnet` raises ValueError exactly when `simple_bayes`
divides by zero. -/
theorem C149_bayes {E : BEnv S α} {o : BOpts} {g : ℕ} {n : ℤ}
    {f0 : α → Bool} {c0 : Option (α → Bool)} {s s1 : BSt S α} {x : ℝ}
    (hwf : s.WF) (hm : o.memcache = some true) (hl : truthyName o.load = none)
    (h1 : askChance E o g n f0 c0 s = (.ok (.mean x), s1))
    (f k : α → Bool) (p a b : ℝ) (r : Except PyErr (BResult Unit ℝ))
    (hp : LaterAnswer E g n s1 k none (.ok (.mean p)))
    (ha : LaterAnswer E g n s1 f (some k) (.ok (.mean a)))
    (hb : LaterAnswer E g n s1 f (some fun e => !k e) (.ok (.mean b)))
    (hr : LaterAnswer E g n s1 k (some f) r) :
    (simpleBayes a b p = .error .zeroDivisionError ∧ r = .error .valueError) ∨
    ∃ y, simpleBayes a b p = .ok y ∧ r = .ok (.mean y) := by
  obtain ⟨P, hP, h⟩ := later_answers hwf hm hl h1
  obtain ⟨-, hp'⟩ := answer_ok (h _ _ _ hp)
  obtain ⟨h0, rfl⟩ := answer_ok (h _ _ _ ha)
  obtain ⟨h2, rfl⟩ := answer_ok (h _ _ _ hb)
  rw [h _ _ _ hr]
  simp only [Option.getD_some, Option.getD_none, Bool.true_and] at h0 h2 hp' ⊢
  have hc := hP.certain
  have hs := hP.split (fun _ => true) k
  simp only [Bool.true_and, hc] at hs
  rw [hc, div_one] at hp'
  subst hp'
  have e1 : 1 - P k = P fun e => !k e := by rw [hs]; ring
  have e2 : P f = P (fun e => k e && f e) + P (fun e => !k e && f e) := by
    rw [hP.split f k]
    congr 2 <;> funext e <;> exact Bool.and_comm _ _
  have e3 : (fun e => f e && k e) = fun e => k e && f e := by
    funext e; exact Bool.and_comm _ _
  unfold simpleBayes pyDiv IsProb.answer
  simp only [Option.getD_some]
  rw [e1, div_mul_cancel₀ _ h0, div_mul_cancel₀ _ h2, ← e2, e3]
  by_cases hf : P f = 0
  · left
    rw [if_pos hf, if_pos hf]
    exact ⟨rfl, rfl⟩
  · right
    rw [if_neg hf, if_neg hf]
    exact ⟨_, rfl, rfl⟩

/-- **C149**, one piece of evidence after the other: `P(k | c and f)` is what `simple_bayes` makes of the
earlier answer `P(k | c)` and the likelihoods of the new evidence `f` given `c and k` and given
`c and not k`. -/
theorem C149_bayes_given {E : BEnv S α} {o : BOpts} {g : ℕ} {n : ℤ}
    {f0 : α → Bool} {c0 : Option (α → Bool)} {s s1 : BSt S α} {x : ℝ}
    (hwf : s.WF) (hm : o.memcache = some true) (hl : truthyName o.load = none)
    (h1 : askChance E o g n f0 c0 s = (.ok (.mean x), s1))
    (f k c : α → Bool) (p a b : ℝ) (r : Except PyErr (BResult Unit ℝ))
    (hp : LaterAnswer E g n s1 k (some c) (.ok (.mean p)))
    (ha : LaterAnswer E g n s1 f (some fun e => c e && k e) (.ok (.mean a)))
    (hb : LaterAnswer E g n s1 f (some fun e => c e && !k e) (.ok (.mean b)))
    (hr : LaterAnswer E g n s1 k (some fun e => c e && f e) r) :
    (simpleBayes a b p = .error .zeroDivisionError ∧ r = .error .valueError) ∨
    ∃ y, simpleBayes a b p = .ok y ∧ r = .ok (.mean y) := by
  obtain ⟨P, hP, h⟩ := later_answers hwf hm hl h1
  obtain ⟨hc, rfl⟩ := answer_ok (h _ _ _ hp)
  obtain ⟨h0, rfl⟩ := answer_ok (h _ _ _ ha)
  obtain ⟨h2, rfl⟩ := answer_ok (h _ _ _ hb)
  rw [h _ _ _ hr]
  simp only [Option.getD_some] at hc h0 h2 ⊢
  have e1 : 1 - P (fun e => c e && k e) / P c = P (fun e => c e && !k e) / P c := by
    rw [sub_eq_iff_eq_add, ← add_div, add_comm, ← hP.split c k, div_self hc]
  have e2 : P (fun e => c e && f e)
      = P (fun e => c e && k e && f e) + P (fun e => c e && !k e && f e) := by
    rw [hP.split (fun e => c e && f e) k]
    congr 2 <;> funext e <;> cases c e <;> cases f e <;> cases k e <;> rfl
  have e3 : (fun e => c e && f e && k e) = fun e => c e && k e && f e := by
    funext e; cases c e <;> cases f e <;> cases k e <;> rfl
  unfold simpleBayes pyDiv IsProb.answer
  simp only [Option.getD_some]
  rw [e1, div_mul_div_cancel₀ h0, div_mul_div_cancel₀ h2, ← add_div, ← e2, e3]
  by_cases hf : P (fun e => c e && f e) = 0
  · left
    rw [if_pos hf, if_pos (by rw [hf, zero_div])]
    exact ⟨rfl, rfl⟩
  · right
    rw [if_neg hf, if_neg (div_ne_zero hf hc), div_div_div_cancel_right₀ hc]
    exact ⟨_, rfl, rfl⟩

/-! ## Hypotheses met, and what happens without the cache -/

/-- `x` of `.ok (.mean x)`. -/
def answerNum (r : Except PyErr (BResult Unit K)) : Option K :=
  match r with
  | .ok (.mean x) => some x
  | _ => none

theorem answerNum_some {r : Except PyErr (BResult Unit K)} {x : K} (h : answerNum r = some x) :
    r = .ok (.mean x) := by
  unfold answerNum at h
  split at h
  · cases h; rfl
  · cases h

/-- **C149 fails** without the cache: with `memcache=False` every call draws its own events, and the answers
for "odd" and "not odd" from five events each add up to 6/5. -/
theorem C149_fresh_fails :
    let o : BOpts := { memcache := some false }
    let odd : ℕ → Bool := fun k => k % 2 == 1
    let first : Except PyErr (BResult Unit ℚ) × BSt ℕ ℕ := askChance demoB o 0 5 odd none (.fresh 3)
    let second : Except PyErr (BResult Unit ℚ) × BSt ℕ ℕ :=
      askChance demoB o 0 5 (fun k => !odd k) none first.2
    answerNum first.1 = some (3 / 5) ∧ answerNum second.1 = some (3 / 5) := by
  constructor <;> decide +kernel

/-- The hypotheses are met: a first call over the events 3 … 8, then other calls (one of them for another
event function, one without the cache), then calls that answer. -/
example : ∃ s1, askChance demoB {} 0 6 (fun k => k % 2 == 1) none (.fresh 3)
      = (.ok (.mean (1 / 2 : ℚ)), s1) ∧
    LaterAnswer demoB 0 6 s1 (fun k => decide (4 < k)) (some fun k => k % 2 == 1)
      (.ok (.mean (2 / 3 : ℚ))) ∧
    LaterAnswer demoB 0 6 s1 (fun k => decide (4 < k)) (some fun k => !(k % 2 == 1))
      (.ok (.mean (2 / 3 : ℚ))) ∧
    LaterAnswer demoB 0 6 s1 (fun k => k % 2 == 1) (some fun k => decide (4 < k))
      (.ok (.mean (1 / 2 : ℚ))) := by
  refine ⟨_, Prod.ext (answerNum_some (by decide +kernel)) rfl, ?_, ?_, ?_⟩
  · exact ⟨Unit, [.call {} (some 1) 4 .events none,
      .call { memcache := some false } (some 0) 9 .events none], {}, 6, by
        simp [BOp.Mutates, BOp.Replaces, BOpts.saves], rfl, rfl, rfl, rfl, le_refl _,
      answerNum_some (by decide +kernel)⟩
  · exact ⟨Unit, [.call {} (some 0) 2 .events none], {}, 3, by
        simp [BOp.Mutates, BOp.Replaces, BOpts.saves], rfl, rfl, rfl, rfl, by decide,
      answerNum_some (by decide +kernel)⟩
  · exact ⟨Unit, [], { cores := 4 }, 1, by simp, rfl, rfl, rfl, rfl, by decide,
      answerNum_some (by decide +kernel)⟩

example : (BSt.fresh 3 : BSt ℕ ℕ).WF := fresh_wf 3

end Verif
