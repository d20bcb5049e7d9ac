import Verif.Lemmas.EventTree
import Verif.Props.ConditionalMean

/-!
# C114: `bayesnet` answers found by following the branches of the event function

Examples: the alarm network, the Monty Hall problem and the two bags of dice of the README.
-/

namespace Verif

open MeasureTheory ProbabilityTheory Spec

/-! ## Sums over branches -/

theorem branchChance_one {α : Type} (a : α) (w : ℝ) (q : α → Bool) :
    branchChance [(a, w)] q = if q a then w else 0 := by
  unfold branchChance
  cases h : q a <;> simp [h]

theorem branchChance_append {α : Type} (t u : List (α × ℝ)) (q : α → Bool) :
    branchChance (t ++ u) q = branchChance t q + branchChance u q := by
  simp [branchChance]

theorem branchChance_mul {α : Type} (t : List (α × ℝ)) (w : ℝ) (q : α → Bool) :
    branchChance (t.map fun e => (e.1, w * e.2)) q = w * branchChance t q := by
  induction t with
  | nil => simp [branchChance]
  | cons e t ih =>
    simp only [branchChance] at ih
    simp only [branchChance, List.map_cons, List.filter_cons]
    cases q e.1 <;> simp [ih, mul_add]

theorem branchChance_flatMap {α A : Type} (u : List (A × ℝ)) (t : A → List (α × ℝ)) (q : α → Bool) :
    branchChance (u.flatMap fun x => (t x.1).map fun e => (e.1, x.2 * e.2)) q
      = (u.map fun x => x.2 * branchChance (t x.1) q).sum := by
  induction u with
  | nil => simp [branchChance]
  | cons x u ih => rw [List.flatMap_cons, branchChance_append, branchChance_mul, ih, List.map_cons, List.sum_cons]

theorem branchChance_real {α : Type} [MeasurableSpace α] {t : List (α × ℝ)} (ht : ∀ e ∈ t, 0 ≤ e.2) {q : α → Bool}
    (hq : Measurable q) : (pointsLaw t).real {e | q e = true} = branchChance t q := by
  rw [pointsLaw_real ht (q := fun e => q e = true) (hq (measurableSet_singleton true))]
  unfold branchChance
  congr 2
  exact List.filter_congr fun e _ => by cases q e.1 <;> rfl

theorem branchSum_indicator {α : Type} (t : List (α × ℝ)) (q : α → Bool) (f : α → ℝ) :
    (t.map fun e => e.2 * if q e.1 = true then f e.1 else 0).sum = branchSum t q f := by
  induction t with
  | nil => rfl
  | cons e t ih =>
    simp only [branchSum] at ih
    simp only [branchSum, List.map_cons, List.sum_cons, List.filter_cons, ih]
    cases q e.1 <;> simp

/-- Without a condition the result is the frequency among all used events. -/
theorem frequency_all {S α ρ K : Type} [Field K] (B : BEnv S α) (o : BOpts) (fn : Option ℕ) (n : ℤ) (f : α → Bool)
    (s s1 : BSt S α) (l : List α) (hne : l ≠ [])
    (hl : bayesnet B o fn n (.reduceEvents .ok : Query α (List α) K) none s = (.ok (.reduced l), s1)) :
    (bayesnet B o fn n (.findReduce (fun e => .ok (.bool (f e))) none : Query α ρ K) none s).1
      = .ok (.mean ((l.countP f : ℕ) / (l.length : ℕ) : K)) := by
  obtain ⟨h, -⟩ := C46_refines B o fn n
    (.findReduce (fun e => .ok (.bool (f e))) none : Query α ρ K) none s s1 l hl
  obtain ⟨h', -⟩ := C46_refines B o fn n
    (.findReduce (fun e => .ok (.bool (f e))) none : Query α ρ K) (some fun _ => .ok true) s s1 l hl
  have hfr := C46_frequency (ρ := ρ) B o fn n f (fun _ => true) s s1 l hl
  have heq : answerAbout (.findReduce (fun e => .ok (.bool (f e))) none : Query α ρ K) none l
      = answerAbout (.findReduce (fun e => .ok (.bool (f e))) none : Query α ρ K) (some fun _ => .ok true) l := by
    simp only [answerAbout, filterExcept_pure (fun _ => true), List.filter_true, bind, Except.bind]
  have hlen : l.countP (fun _ => true) = l.length := by simp
  have h0 : ¬ l.length = 0 := by simpa using hne
  rw [hlen, if_neg h0] at hfr
  rw [heq, ← h'] at h
  revert h hfr
  rcases bayesnet B o fn n (.findReduce (fun e => .ok (.bool (f e))) none : Query α ρ K) none s with ⟨r, s2⟩
  rcases bayesnet B o fn n (.findReduce (fun e => .ok (.bool (f e))) none : Query α ρ K)
    (some fun _ => .ok true) s with ⟨r', s2'⟩
  intro h hfr
  simp only at hfr
  subst hfr
  cases r with
  | error e => simp [bind, Except.bind] at h
  | ok r =>
    cases r <;> simp [bind, Except.bind, BResult.seen] at h ⊢
    exact h

/-! ## The property -/

section

variable {Ω : Type} [MeasurableSpace Ω] (S : IdealSource Ω) (hS : Documented S) {E : Env (ℕ → Ω) ℝ} (hE : S.Drives E)
  {α : Type} [MeasurableSpace α] {f : EventFn (St (ℕ → Ω) ℝ) α Unit} {t : List (α × ℝ)}

include hS hE

/-- **C114**: the chances of all branches add up to 1. -/
theorem C114_total (hf : LeavesAre f () t) : (∀ e ∈ t, 0 ≤ e.2) ∧ branchChance t (fun _ => true) = 1 := by
  obtain ⟨h0, h1, -⟩ := leavesAre_draws S hS (left := fun _ _ => none) hE hf
  refine ⟨h0, ?_⟩
  rw [← h1, branchChance, List.filter_true]

/-- **C114**: `bayesnet(event_fn, n, find=…)` is within `δ` of the sum of the chances of the branches that meet
`find`, except with a probability that decreases exponentially with `n`. -/
theorem C114_frequency {ρ : Type} (hf : LeavesAre f () t)
    {B : BEnv (St (ℕ → Ω) ℝ) α} {g : ℕ} (hB : B.event g = f.run E ())
    {o : BOpts} (hcores : o.cores = 1) (hload : truthyName o.load = none)
    (hdump : truthyName o.dump = none) (s : BSt (St (ℕ → Ω) ℝ) α)
    (hfresh : o.reload = true ∨ s.mem (some g) = none) {n : ℕ} (hn : 1 ≤ n)
    {find : α → Bool} (hfind : Measurable find) {δ : ℝ} (hδ : 0 < δ) :
    (Measure.infinitePi fun _ : ℕ => S.law).real
      {ω | ¬ ∃ x s', bayesnet B o (some g) n
          (.findReduce (fun e => .ok (.bool (find e))) none : Query α ρ ℝ) none
          { s with inner := ⟨ω, s.inner.left⟩ } = (.ok (.mean x), s') ∧ |x - branchChance t find| < δ}
      ≤ 2 * Real.exp (-2 * n * δ ^ 2) := by
  obtain ⟨h0, h1, hd⟩ := leavesAre_draws S hS (left := s.inner.left) hE hf
  have hp := pointsLaw_prob h0 h1
  obtain ⟨X, hX, hae, hlaw, hind⟩ := events_of_draws S hB hcores hload hdump s hd hfresh hn
  have hb := frequency_bound hn hX hlaw hind find (hfind (measurableSet_singleton true)) hδ
  rw [branchChance_real h0 hfind] at hb
  refine le_trans ?_ hb
  refine ENNReal.toReal_mono (measure_ne_top _ _) (measure_mono_ae ?_)
  filter_upwards [hae] with ω hω hbad
  obtain ⟨s', hs'⟩ := hω
  by_contra hlt
  have hne : (List.ofFn fun i => X i ω) ≠ [] := by
    intro h
    have := congrArg List.length h
    simp at this
    omega
  have hfr := frequency_all (ρ := ρ) B o (some g) n find _ _ _ hne hs'
  rw [List.length_ofFn] at hfr
  exact hbad ⟨_, _, Prod.ext hfr rfl, not_le.1 hlt⟩

/-- **C114**: `bayesnet(event_fn, n, find=…, conditional_on=…)` is within `δ` of the quotient of two sums over
branches, except with a probability that decreases exponentially with `n`. -/
theorem C114_conditional {ρ : Type} (hf : LeavesAre f () t)
    {B : BEnv (St (ℕ → Ω) ℝ) α} {g : ℕ} (hB : B.event g = f.run E ())
    {o : BOpts} (hcores : o.cores = 1) (hload : truthyName o.load = none)
    (hdump : truthyName o.dump = none) (s : BSt (St (ℕ → Ω) ℝ) α)
    (hfresh : o.reload = true ∨ s.mem (some g) = none) {n : ℕ} (hn : 1 ≤ n)
    {find given : α → Bool} (hfind : Measurable find) (hgiven : Measurable given)
    (hpos : 0 < branchChance t given) {δ : ℝ} (hδ : 0 < δ) :
    (Measure.infinitePi fun _ : ℕ => S.law).real
      {ω | ¬ ∃ x s', bayesnet B o (some g) n
          (.findReduce (fun e => .ok (.bool (find e))) none : Query α ρ ℝ) (some fun e => .ok (given e))
          { s with inner := ⟨ω, s.inner.left⟩ } = (.ok (.mean x), s') ∧
        |x - branchChance t (fun e => given e && find e) / branchChance t given| < δ}
      ≤ 4 * Real.exp (-2 * n * (δ * branchChance t given / (2 + δ)) ^ 2) := by
  obtain ⟨h0, h1, hd⟩ := leavesAre_draws S hS (left := s.inner.left) hE hf
  have hp := pointsLaw_prob h0 h1
  have hmg : MeasurableSet {e | given e = true} := hgiven (measurableSet_singleton true)
  have hmf : MeasurableSet {e | find e = true} := hfind (measurableSet_singleton true)
  have hboth : Measurable fun e => given e && find e := measurable_to_bool (by
    have : (fun e => given e && find e) ⁻¹' {true} = {e | given e = true} ∩ {e | find e = true} := by ext e; simp
    rw [this]; exact hmg.inter hmf)
  have hset : {e | (given e && find e) = true} = {e | given e = true} ∩ {e | find e = true} := by
    ext e; simp
  have hc : (cond (pointsLaw t) {e | given e = true}).real {e | find e = true}
      = branchChance t (fun e => given e && find e) / branchChance t given := by
    rw [← branchChance_real h0 hboth, ← branchChance_real h0 hgiven, Measure.real, cond_apply hmg,
      ENNReal.toReal_mul, ENNReal.toReal_inv, hset, div_eq_inv_mul]
    rfl
  have h := conditional_of_draws S (ρ := ρ) hB hcores hload hdump s hd hfresh hn hfind hgiven
    (by rw [branchChance_real h0 hgiven]; exact hpos) hδ
  rw [hc, branchChance_real h0 hgiven] at h
  exact h

open Filter Topology in
/-- **C114**: with a numeric `find` the result tends to the average of `find` over the branches that meet the
condition, weighted with their chances. -/
theorem C114_conditional_mean {ρ : Type} (hf : LeavesAre f () t)
    {B : BEnv (St (ℕ → Ω) ℝ) α} {g : ℕ} (hB : B.event g = f.run E ())
    {o : BOpts} (hcores : o.cores = 1) (hload : truthyName o.load = none)
    (hdump : truthyName o.dump = none) (s : BSt (St (ℕ → Ω) ℝ) α)
    (hfresh : o.reload = true ∨ s.mem (some g) = none)
    {find : α → ℝ} {given : α → Bool} (hfind : Measurable find) (hgiven : Measurable given)
    (hpos : 0 < branchChance t given) {δ : ℝ} (hδ : 0 < δ) :
    Tendsto (fun n : ℕ => (Measure.infinitePi fun _ : ℕ => S.law)
      {ω | ¬ ∃ x s', bayesnet B o (some g) n
          (.findReduce (fun e => .ok (.flt (find e))) none : Query α ρ ℝ) (some fun e => .ok (given e))
          { s with inner := ⟨ω, s.inner.left⟩ } = (.ok (.mean x), s') ∧
        |x - branchSum t given find / branchChance t given| < δ}) atTop (𝓝 0) := by
  obtain ⟨h0, h1, hd⟩ := leavesAre_draws S hS (left := s.inner.left) hE hf
  have hp := pointsLaw_prob h0 h1
  have hmg : MeasurableSet {e | given e = true} := hgiven (measurableSet_singleton true)
  have hFm : Measurable fun e => if given e = true then find e else 0 := Measurable.ite hmg hfind measurable_const
  have hc : ∫ e, find e ∂(cond (pointsLaw t) {e | given e = true})
      = branchSum t given find / branchChance t given := by
    rw [← branchChance_real h0 hgiven, ← branchSum_indicator t given find, ← (pointsLaw_integral h0 hFm).2,
      ProbabilityTheory.cond, integral_smul_measure, smul_eq_mul, ENNReal.toReal_inv, div_eq_inv_mul,
      ← integral_indicator hmg]
    congr 2
    funext e
    simp only [Set.indicator_apply, Set.mem_ofPred_eq]
  have h := conditional_mean_of_draws S (ρ := ρ) hB hcores hload hdump s hd hfresh hfind hgiven
    (pointsLaw_integral h0 hfind).1 (by rw [branchChance_real h0 hgiven]; exact hpos) hδ
  rw [hc] at h
  exact h

end

/-! ## The alarm network -/

/-- README.md:358-384: burglary, earthquake, alarm, John calls, Mary calls. -/
noncomputable def alarmNet (S : Type) : EventFn S ((((Unit × Bool) × Bool) × Bool) × Bool × Bool) Unit :=
  .happens (fun _ => 1 / 1000) measurable_const <|
  .happens (fun _ => 2 / 1000) measurable_const <|
  .happens (fun γ => if γ.1.2 && γ.2 then 95 / 100 else if γ.1.2 && !γ.2 then 94 / 100
    else if !γ.1.2 && γ.2 then 29 / 100 else 1 / 1000) (measurable_of_finite _) <|
  .happens (fun γ => if γ.2 then 9 / 10 else 5 / 100) (measurable_of_finite _) <|
  .happens (fun γ => if γ.1.2 then 7 / 10 else 1 / 100) (measurable_of_finite _) <|
  .ret (fun γ => (γ.1.1, γ.1.2, γ.2)) (measurable_of_finite _)

/-- Both call. -/
def bothCall (e : (((Unit × Bool) × Bool) × Bool) × Bool × Bool) : Bool := e.2.1 && e.2.2
/-- There was an earthquake. -/
def earthquake (e : (((Unit × Bool) × Bool) × Bool) × Bool × Bool) : Bool := e.1.1.2
/-- There was a burglary. -/
def burglary (e : (((Unit × Bool) × Bool) × Bool) × Bool × Bool) : Bool := e.1.1.1.2

theorem alarmNet_leaves (S : Type) : ∃ t, LeavesAre (alarmNet S) () t ∧
    branchChance t earthquake = 2 / 1000 ∧
    branchChance t (fun e => earthquake e && bothCall e) / branchChance t earthquake = 0.18347047 ∧
    branchChance t bothCall = 0.002084100239 ∧
    branchChance t (fun e => bothCall e && burglary e) = 0.00059224259 := by
  refine ⟨_, .happens _ (by norm_num) (by norm_num) fun b1 => .happens _ (by norm_num) (by norm_num) fun b2 =>
    .happens _ ?_ ?_ fun b3 => .happens _ ?_ ?_ fun b4 => .happens _ ?_ ?_ fun b5 => .ret _, ?_⟩
  · cases b1 <;> cases b2 <;> norm_num
  · cases b1 <;> cases b2 <;> norm_num
  · cases b3 <;> norm_num
  · cases b3 <;> norm_num
  · cases b3 <;> norm_num
  · cases b3 <;> norm_num
  · simp only [branchChance_append, branchChance_mul, branchChance_one, earthquake, bothCall, burglary]
    norm_num

/-- With a million events the answers are within 0.05 of 0.18347… and of 0.28417…, except with the probabilities
given by the bounds. -/
example : ∃ S : IdealSource (Prim ℝ → ℝ), Documented S ∧ ∃ E, S.Drives E ∧
    ∀ B : BEnv (St (ℕ → Prim ℝ → ℝ) ℝ) ((((Unit × Bool) × Bool) × Bool) × Bool × Bool),
    B.event 0 = (alarmNet _).run E () → ∀ {n : ℕ}, 1 ≤ n →
    (Measure.infinitePi fun _ : ℕ => S.law).real
      {ω | ¬ ∃ x s', bayesnet B {} (some 0) n
          (.findReduce (fun e => .ok (.bool (bothCall e))) none : Query _ Unit ℝ) (some fun e => .ok (earthquake e))
          (BSt.fresh ⟨ω, fun _ _ => none⟩) = (.ok (.mean x), s') ∧ |x - 0.18347047| < 1 / 20}
      ≤ 4 * Real.exp (-2 * n * (1 / 20 * (2 / 1000) / (2 + 1 / 20)) ^ 2) ∧
    (Measure.infinitePi fun _ : ℕ => S.law).real
      {ω | ¬ ∃ x s', bayesnet B {} (some 0) n
          (.findReduce (fun e => .ok (.bool (burglary e))) none : Query _ Unit ℝ) (some fun e => .ok (bothCall e))
          (BSt.fresh ⟨ω, fun _ _ => none⟩) = (.ok (.mean x), s') ∧ |x - 0.00059224259 / 0.002084100239| < 1 / 20}
      ≤ 4 * Real.exp (-2 * n * (1 / 20 * 0.002084100239 / (2 + 1 / 20)) ^ 2) := by
  obtain ⟨S, hS, E, hE⟩ := C110_generator
  refine ⟨S, hS, E, hE, fun B hB n hn => ?_⟩
  obtain ⟨t, ht, e1, e2, e3, e4⟩ := alarmNet_leaves (St (ℕ → Prim ℝ → ℝ) ℝ)
  constructor
  · have h := C114_conditional S hS hE (ρ := Unit) ht hB (o := {}) rfl rfl rfl
      (BSt.fresh ⟨fun _ _ => 0, fun _ _ => none⟩) (Or.inr rfl) hn (find := bothCall) (given := earthquake)
      (measurable_of_finite _) (measurable_of_finite _) (by rw [e1]; norm_num) (δ := 1 / 20) (by norm_num)
    rw [e2, e1] at h
    exact h
  · have h := C114_conditional S hS hE (ρ := Unit) ht hB (o := {}) rfl rfl rfl
      (BSt.fresh ⟨fun _ _ => 0, fun _ _ => none⟩) (Or.inr rfl) hn (find := burglary) (given := bothCall)
      (measurable_of_finite _) (measurable_of_finite _) (by rw [e3]; norm_num) (δ := 1 / 20) (by norm_num)
    rw [e4, e3] at h
    exact h

/-! ## Monty Hall -/

/-- `sq.discrete([...])` of texts. -/
def discreteTexts (S : Type) (ts : List String) : Obj S ℝ :=
  .leaf (.categorical (.list (ts.map fun t => .plain (.str t)))) none none

/-- The doors other than two. -/
def otherDoors (a b : String) : List String := ["A", "B", "C"].filter fun d => d != a && d != b

/-- README.md:414-431: the door picked, whether to switch, the door of the car, the door revealed; the event is
whether the car is won and whether the door was switched. -/
noncomputable def montyHall (S : Type) : EventFn S (Bool × Bool) Unit :=
  .text (fun _ => ()) measurable_const (fun _ => discreteTexts S ["A", "B", "C"]) <|
  .happens (fun _ => 1 / 2) measurable_const <|
  .text (fun _ => ()) measurable_const (fun _ => discreteTexts S ["A", "B", "C"]) <|
  .text (ι := String × String) (fun γ => (γ.1.1.2, γ.2)) Measurable.of_discrete
    (fun p => discreteTexts S (otherDoors p.1 p.2)) <|
  .ret (fun γ => (some γ.1.2 == (if γ.1.1.2 then (otherDoors γ.1.1.1.2 γ.2).head? else some γ.1.1.1.2), γ.1.1.2))
    Measurable.of_discrete

theorem montyHall_leaves (S : Type) : ∃ t, LeavesAre (montyHall S) () t ∧
    branchChance t (fun e => e.2) = 1 / 2 ∧ branchChance t (fun e => !e.2) = 1 / 2 ∧
    branchChance t (fun e => e.2 && e.1) = 1 / 3 ∧ branchChance t (fun e => !e.2 && e.1) = 1 / 6 := by
  refine ⟨_, .text _ (.items ?_) fun x _ hx => .happens _ ?_ ?_ fun b =>
    .text _ (.items ?_) fun y _ hy => .text _ (.items ?_) fun z _ hz => .ret _, ?_⟩
  · simp
  · norm_num
  · norm_num
  · simp
  · simp only [List.map_cons, List.map_nil, List.mem_cons, List.not_mem_nil, or_false, Prod.mk.injEq] at hx hy
    rcases hx with ⟨rfl, -⟩ | ⟨rfl, -⟩ | ⟨rfl, -⟩ <;> rcases hy with ⟨rfl, -⟩ | ⟨rfl, -⟩ | ⟨rfl, -⟩ <;>
      simp [otherDoors]
  · simp [otherDoors, branchChance]
    norm_num

/-- Switching wins two times out of three, not switching one time out of three. -/
example : ∃ S : IdealSource (Prim ℝ → ℝ), Documented S ∧ ∃ E, S.Drives E ∧
    ∀ B : BEnv (St (ℕ → Prim ℝ → ℝ) ℝ) (Bool × Bool), B.event 0 = (montyHall _).run E () → ∀ {n : ℕ}, 1 ≤ n →
    ∀ {δ : ℝ}, 0 < δ →
    (Measure.infinitePi fun _ : ℕ => S.law).real
      {ω | ¬ ∃ x s', bayesnet B {} (some 0) n
          (.findReduce (fun e => .ok (.bool e.1)) none : Query _ Unit ℝ) (some fun e => .ok e.2)
          (BSt.fresh ⟨ω, fun _ _ => none⟩) = (.ok (.mean x), s') ∧ |x - 2 / 3| < δ}
      ≤ 4 * Real.exp (-2 * n * (δ * (1 / 2) / (2 + δ)) ^ 2) ∧
    (Measure.infinitePi fun _ : ℕ => S.law).real
      {ω | ¬ ∃ x s', bayesnet B {} (some 0) n
          (.findReduce (fun e => .ok (.bool e.1)) none : Query _ Unit ℝ) (some fun e => .ok (!e.2))
          (BSt.fresh ⟨ω, fun _ _ => none⟩) = (.ok (.mean x), s') ∧ |x - 1 / 3| < δ}
      ≤ 4 * Real.exp (-2 * n * (δ * (1 / 2) / (2 + δ)) ^ 2) := by
  obtain ⟨S, hS, E, hE⟩ := C110_generator
  refine ⟨S, hS, E, hE, fun B hB n hn δ hδ => ?_⟩
  obtain ⟨t, ht, e1, e2, e3, e4⟩ := montyHall_leaves (St (ℕ → Prim ℝ → ℝ) ℝ)
  constructor
  · have h := C114_conditional S hS hE (ρ := Unit) ht hB (o := {}) rfl rfl rfl
      (BSt.fresh ⟨fun _ _ => 0, fun _ _ => none⟩) (Or.inr rfl) hn (find := fun e => e.1) (given := fun e => e.2)
      (measurable_of_finite _) (measurable_of_finite _) (by rw [e1]; norm_num) hδ
    rw [e3, e1, show (1 / 3 / (1 / 2) : ℝ) = 2 / 3 by norm_num] at h
    exact h
  · have h := C114_conditional S hS hE (ρ := Unit) ht hB (o := {}) rfl rfl rfl
      (BSt.fresh ⟨fun _ _ => 0, fun _ _ => none⟩) (Or.inr rfl) hn (find := fun e => e.1) (given := fun e => !e.2)
      (measurable_of_finite _) (measurable_of_finite _) (by rw [e2]; norm_num) hδ
    rw [e4, e2, show (1 / 6 / (1 / 2) : ℝ) = 1 / 3 by norm_num] at h
    exact h

/-! ## Two bags of dice -/

/-- README.md:463-468: a coin chooses between a die with six sides and a die with 4, 6, 10 or 20 sides. -/
noncomputable def diceBags (S : Type) : EventFn S ℝ Unit :=
  .text (fun _ => ()) measurable_const (fun _ => .leaf .coin none none) <|
  .ite (fun γ => γ.2 == "heads") 
    (Measurable.comp (g := fun t : String => t == "heads") Measurable.of_discrete measurable_snd)
    (.draw (.leaf (.die ⟨6, none⟩) none none) (.ret (fun γ => γ.2) measurable_snd))
    (.draw (.leaf (.categorical (.list ([.int 4, .int 6, .int 10, .int 20].map .plain))) none none) <|
      .drawFrom (fun γ => ⌊γ.2⌋₊) (Nat.measurable_floor.comp measurable_snd)
        (fun k => .leaf (.die ⟨k, none⟩) none none) <|
      .ret (fun γ => γ.2) measurable_snd)

theorem numpyLaw_coin : numpyLaw (.integers 0 2) = some ((2 : ENNReal)⁻¹ • (Measure.dirac 0 + Measure.dirac 1)) := by
  have h : Finset.Ico (0 : ℤ) 2 = {0, 1} := by decide
  have e : ENNReal.ofReal (1 / 2) = (2 : ENNReal)⁻¹ := by
    rw [one_div, ENNReal.ofReal_inv_of_pos (by norm_num), ENNReal.ofReal_ofNat]
  simp only [numpyLaw, if_pos (show (0 : ℤ) < 2 by norm_num), integersLaw, h]
  rw [Finset.sum_pair (by norm_num), ← smul_add]
  norm_num [e]

/-- The faces of a die. -/
noncomputable def faces (k : ℕ) : List (ℝ × ℝ) := (List.range k).map fun j : ℕ => ((j : ℝ) + 1, 1 / (k : ℝ))

theorem faces_outcomes {S : Type} {k : ℕ} (hk : 1 ≤ k) :
    OutcomesAre (T := S) (.leaf (.die ⟨k, none⟩) none none) (faces k) :=
  OutcomesAre.die (lo := none) (hi := none) hk trivial trivial

theorem diceBags_leaves (S : Type) : ∃ t, LeavesAre (diceBags S) () t ∧
    branchChance t (fun e => decide (e = 6)) = 59 / 480 ∧
    branchChance t (fun _ => true) = 1 ∧ branchSum t (fun _ => true) (fun e => e) = 9 / 2 := by
  refine ⟨_, .text _ (.coin numpyLaw_coin) (t := fun v => if v = "heads"
      then (faces 6).flatMap fun x => [(x.1, (1 : ℝ))].map fun e => (e.1, x.2 * e.2)
      else [(4, 1 / 4), (6, 1 / 4), (10, 1 / 4), (20, 1 / 4)].flatMap fun y : ℝ × ℝ =>
        ((faces ⌊y.1⌋₊).flatMap fun x => [(x.1, (1 : ℝ))].map fun e => (e.1, x.2 * e.2)).map fun e =>
          (e.1, y.2 * e.2)) fun v w hv => .ite _ ?_, ?_⟩
  · simp only [List.mem_cons, List.not_mem_nil, or_false, Prod.mk.injEq] at hv
    rcases hv with ⟨rfl, -⟩ | ⟨rfl, -⟩
    · have h := OutcomesAre.items (T := S) (vs := [.int 4, .int 6, .int 10, .int 20]) (rs := [4, 6, 10, 20])
        (lc := none) (rc := none) (lo := none) (hi := none) (by simp)
        (by simp [IsReal]) trivial trivial
      rw [if_neg (by decide), if_neg (by decide)]
      refine .draw (Γ := Unit × String) (u := [(4, 1 / 4), (6, 1 / 4), (10, 1 / 4), (20, 1 / 4)])
        (t := fun v => (faces ⌊v⌋₊).flatMap fun x => [(x.1, (1 : ℝ))].map fun e => (e.1, x.2 * e.2)) ?_
        fun y w hy => ?_
      · simpa [clamp] using h
      · simp only [List.mem_cons, List.not_mem_nil, or_false, Prod.mk.injEq] at hy
        refine .drawFrom (Γ := (Unit × String) × ℝ) _ (u := faces ⌊y⌋₊) (t := fun v => [(v, 1)]) (faces_outcomes ?_) fun v _ _ => .ret _
        rcases hy with ⟨rfl, -⟩ | ⟨rfl, -⟩ | ⟨rfl, -⟩ | ⟨rfl, -⟩ <;> simp
    · exact .draw (faces_outcomes (by norm_num)) (t := fun v => [(v, 1)]) fun v _ _ => .ret _
  · simp [branchChance, branchSum, faces, List.range_succ]
    norm_num

/-- The chance of a six is 0.122916…; the README has 0.12292. -/
example : ∃ S : IdealSource (Prim ℝ → ℝ), Documented S ∧ ∃ E, S.Drives E ∧
    ∀ B : BEnv (St (ℕ → Prim ℝ → ℝ) ℝ) ℝ, B.event 0 = (diceBags _).run E () → ∀ {n : ℕ}, 1 ≤ n →
    ∀ {δ : ℝ}, 0 < δ →
    (Measure.infinitePi fun _ : ℕ => S.law).real
      {ω | ¬ ∃ x s', bayesnet B {} (some 0) n
          (.findReduce (fun e => .ok (.bool (decide (e = 6)))) none : Query _ Unit ℝ) none
          (BSt.fresh ⟨ω, fun _ _ => none⟩) = (.ok (.mean x), s') ∧ |x - 59 / 480| < δ}
      ≤ 2 * Real.exp (-2 * n * δ ^ 2) := by
  obtain ⟨S, hS, E, hE⟩ := C110_generator
  refine ⟨S, hS, E, hE, fun B hB n hn δ hδ => ?_⟩
  obtain ⟨t, ht, e1, -⟩ := diceBags_leaves (St (ℕ → Prim ℝ → ℝ) ℝ)
  have h := C114_frequency S hS hE (ρ := Unit) ht hB (o := {}) rfl rfl rfl
    (BSt.fresh ⟨fun _ _ => 0, fun _ _ => none⟩) (Or.inr rfl) hn (find := fun e => decide (e = 6))
    (measurable_to_bool (by
      have : (fun e : ℝ => decide (e = 6)) ⁻¹' {true} = {6} := by ext e; simp
      rw [this]; exact measurableSet_singleton _)) hδ
  rw [e1] at h
  exact h

/-- The mean of the roll is 4.5. -/
example : ∃ S : IdealSource (Prim ℝ → ℝ), Documented S ∧ ∃ E, S.Drives E ∧
    ∀ B : BEnv (St (ℕ → Prim ℝ → ℝ) ℝ) ℝ, B.event 0 = (diceBags _).run E () → ∀ {δ : ℝ}, 0 < δ →
    Filter.Tendsto (fun n : ℕ => (Measure.infinitePi fun _ : ℕ => S.law)
      {ω | ¬ ∃ x s', bayesnet B {} (some 0) n
          (.findReduce (fun e => .ok (.flt e)) none : Query _ Unit ℝ) (some fun _ => .ok true)
          (BSt.fresh ⟨ω, fun _ _ => none⟩) = (.ok (.mean x), s') ∧ |x - 9 / 2| < δ}) Filter.atTop (nhds 0) := by
  obtain ⟨S, hS, E, hE⟩ := C110_generator
  refine ⟨S, hS, E, hE, fun B hB δ hδ => ?_⟩
  obtain ⟨t, ht, -, e2, e3⟩ := diceBags_leaves (St (ℕ → Prim ℝ → ℝ) ℝ)
  have h := C114_conditional_mean S hS hE (ρ := Unit) ht hB (o := {}) rfl rfl rfl
    (BSt.fresh ⟨fun _ _ => 0, fun _ _ => none⟩) (Or.inr rfl) (find := fun e => e) (given := fun _ => true)
    measurable_id measurable_const (by rw [e2]; norm_num) hδ
  rw [e3, e2, div_one] at h
  exact h

end Verif
