import Verif.Lemmas.EventLaw
import Verif.Model.FnObj

/-!
# Helper lemmas: sampling a user's function
-/

namespace Verif

open MeasureTheory Spec

section

variable {σ α : Type} [MeasurableSpace α]

/-- What `sample(dist)` does with one returned object. -/
noncomputable def sampleReturned (E : Env σ ℝ) (d : Obj (St σ ℝ) ℝ) : SM σ ℝ (Samples ℝ) :=
  if d.isLit then SM.pure (.scalar d.litVal) else withClips E d.clips (rawObj E d) 1 none none

/-- The calls, and the objects they return. -/
theorem obj_calls (E : Env σ ℝ) (f : EventFn (St σ ℝ) α Unit) (val : α → Obj (St σ ℝ) ℝ)
    (exn : St σ ℝ → Option PyErr) (ret : St σ ℝ → Obj (St σ ℝ) ℝ) (next : St σ ℝ → St σ ℝ)
    (h : f.obj E val = .call exn ret next) (n : ℕ) (s : St σ ℝ) :
    match SM.replicateL (f.run E ()) n s with
    | (.error e, s') => SM.replicateL (callOnce exn next) n s = (.error e, s')
    | (.ok as, s') => ∃ sts, SM.replicateL (callOnce exn next) n s = (.ok sts, s') ∧
        sts.map ret = as.map val := by
  unfold EventFn.obj at h
  injection h with h1 h2 h3
  subst h1 h2 h3
  induction n generalizing s with
  | zero => exact ⟨[], rfl, rfl⟩
  | succ n ih =>
    simp only [SM.replicateL, SM.bind, callOnce]
    cases hr : f.run E () s with
    | mk r s1 =>
      cases r with
      | error e => simp
      | ok a =>
        dsimp only
        have ih' := ih s1
        cases hr' : SM.replicateL (f.run E ()) n s1 with
        | mk r' s2 =>
          cases r' with
          | error e =>
            rw [hr'] at ih'
            dsimp only at ih' ⊢
            rw [ih']
          | ok as =>
            rw [hr'] at ih'
            dsimp only at ih' ⊢
            obtain ⟨sts, e1, e2⟩ := ih'
            rw [e1]
            refine ⟨s :: sts, rfl, ?_⟩
            rw [List.map_cons, List.map_cons, e2]
            simp [hr]

theorem mapL_map {A B C : Type} (g : A → B) (f : B → SM σ ℝ C) (l : List A) :
    SM.mapL (fun a => f (g a)) l = SM.mapL f (l.map g) := by
  induction l with
  | nil => rfl
  | cons a l ih => simp only [SM.mapL, List.map_cons, ih]

/-- `sample(f, n)`: all calls, then all samples. -/
theorem rawObj_obj (E : Env σ ℝ) (f : EventFn (St σ ℝ) α Unit) (val : α → Obj (St σ ℝ) ℝ) (n : ℕ)
    (s : St σ ℝ) :
    rawObj E (f.obj E val) n s = SM.bind (SM.replicateL (f.run E ()) n) (fun as =>
      SM.bind (SM.mapL (fun a => sampleReturned E (val a)) as) fun ss => SM.lift (gather E ss)) s := by
  obtain ⟨exn, ret, next, h⟩ : ∃ exn ret next, f.obj E val = .call exn ret next := ⟨_, _, _, rfl⟩
  have hc := obj_calls E f val exn ret next h n s
  rw [h]
  simp only [rawObj]
  conv_lhs => unfold SM.bind
  conv_rhs => unfold SM.bind
  cases hr : SM.replicateL (f.run E ()) n s with
  | mk r s' =>
    rw [hr] at hc
    cases r with
    | error e =>
      dsimp only at hc ⊢
      rw [hc]
    | ok as =>
      dsimp only at hc ⊢
      obtain ⟨sts, e1, e2⟩ := hc
      rw [e1]
      dsimp only
      have e3 : (fun s => if (ret s).isLit then SM.pure (Samples.scalar (ret s).litVal)
          else withClips E (ret s).clips (rawObj E (ret s)) 1 none none) = fun s => sampleReturned E (ret s) := rfl
      rw [e3, mapL_map ret (sampleReturned E), mapL_map val (sampleReturned E), e2]

end

section

variable {Ω : Type} [MeasurableSpace Ω] (S : IdealSource Ω)
  {left : ℕ → ℕ → Option (List (Scalar ℝ))} {E : Env (ℕ → Ω) ℝ}

/-- One returned object. -/
theorem sampleReturned_law (hE : S.Drives E) (hU : S.primLaw (.uniform 0 1) = some unitLaw)
    {d : Obj (St (ℕ → Ω) ℝ) ℝ} {μ : Measure ℝ} (hd : Denotes S.primLaw d μ) :
    DrawsLaw S.law left (sampleReturned E d) (fun s r => ∃ v, s = Samples.scalar v ∧ IsReal v r) μ := by
  obtain ⟨hp, ih⟩ := denotes_draws S (left := left) hE hU hd
  unfold sampleReturned
  by_cases hlit : d.isLit = true
  · rw [if_pos hlit]
    cases d <;> simp only [Obj.isLit, Bool.false_eq_true] at hlit
    cases hd with
    | lit h => exact DrawsLaw.pure ⟨_, rfl, h⟩
  · rw [if_neg hlit]
    have := (ih 1 le_rfl).map (R' := fun s r => ∃ v, s = Samples.scalar v ∧ IsReal v r)
      (fun x => x 0) (measurable_pi_apply 0) fun s x hx => reads_one hx
    rwa [pi_map_eval] at this

/-- A list of different programs. -/
theorem mapL_ofFn_law {ι A : Type} {g : ι → SM (ℕ → Ω) ℝ A} {R : A → ℝ → Prop} {ν : ι → Measure ℝ}
    [∀ i, IsProbabilityMeasure (ν i)] (hg : ∀ i, DrawsLaw S.law left (g i) R (ν i)) {n : ℕ} (x : Fin n → ι) :
    DrawsLaw S.law left (SM.mapL g (List.ofFn x)) (fun as y => List.Forall₂ R as (List.ofFn y))
      (Measure.pi fun j => ν (x j)) := by
  induction n with
  | zero =>
    have h : DrawsLaw S.law left (SM.pure ([] : List A))
        (fun as (x : Fin 0 → ℝ) => List.Forall₂ R as (List.ofFn x)) (Measure.dirac Fin.elim0) :=
      DrawsLaw.pure (by simp)
    rw [Measure.pi_of_empty _ Fin.elim0, List.ofFn_zero]
    exact h
  | succ n ih =>
    have := ((hg (x 0)).pair (ih fun j => x j.succ)).bind_lift (h := fun c : A × List A => .ok (c.1 :: c.2))
      (R' := fun as (y : Fin (n + 1) → ℝ) => List.Forall₂ R as (List.ofFn y))
      (fun p => (Fin.cons p.1 p.2 : Fin (n + 1) → ℝ)) (measurable_cons n)
      (Filter.Eventually.of_forall fun p c hc => ⟨_, rfl, by
        rw [List.ofFn_succ]; simpa using hc⟩)
    rw [map_cons_pi n fun j => ν (x j)] at this
    rw [List.ofFn_succ]
    refine this.congr fun ω => ?_
    simp only [SM.mapL, SM.bind, SM.pure, SM.lift]
    cases g (x 0) ⟨ω, left⟩ with
    | mk r s =>
      cases r with
      | error e => rfl
      | ok a =>
        dsimp only
        cases SM.mapL g (List.ofFn fun j => x j.succ) s with
        | mk r' s' => cases r' <;> rfl

/-- A mixture of laws is a law. -/
theorem mix_prob {k : ℕ} (κ : Measure (Fin k)) [IsProbabilityMeasure κ] (ν : Fin k → Measure ℝ)
    [∀ i, IsProbabilityMeasure (ν i)] : IsProbabilityMeasure (∑ i, κ {i} • ν i) := ⟨by
  simp only [Measure.coe_finsetSum, Finset.sum_apply, Measure.smul_apply, smul_eq_mul, measure_univ, mul_one]
  rw [← measure_univ (μ := κ), ← Finset.coe_univ, ← sum_measure_singleton]⟩

/-- Choosing independently, then drawing, is drawing independently from the mixture. -/
theorem sum_pi_mix {k n : ℕ} (κ : Measure (Fin k)) [IsProbabilityMeasure κ] (ν : Fin k → Measure ℝ)
    [∀ i, IsProbabilityMeasure (ν i)] :
    ∑ x : Fin n → Fin k, (Measure.pi fun _ : Fin n => κ) {x} • Measure.pi (fun j => ν (x j))
      = Measure.pi fun _ : Fin n => ∑ i, κ {i} • ν i := by
  have := mix_prob κ ν
  refine (Measure.pi_eq fun A hA => ?_).symm
  simp only [Measure.coe_finsetSum, Finset.sum_apply, Measure.smul_apply, smul_eq_mul, Measure.pi_pi,
    Measure.pi_singleton]
  rw [Finset.prod_univ_sum]
  simp only [Fintype.piFinset_univ]
  refine Finset.sum_congr rfl fun x _ => ?_
  rw [Finset.prod_mul_distrib]

/-- `sample(f, n)` for a function that returns numbers. -/
theorem fnObj_number_law (hE : S.Drives E) (hU : S.primLaw (.uniform 0 1) = some unitLaw)
    {f : EventFn (St (ℕ → Ω) ℝ) ℝ Unit} {κ : Unit → Measure ℝ} (hf : EventLaw S.primLaw f κ) {n : ℕ}
    (hn : 1 ≤ n) :
    IsProbabilityMeasure (κ ()) ∧
    DrawsLaw S.law left (sampleObj E (f.obj E fun x => .lit (.flt x)) n none none) (Reads n)
      (Measure.pi fun _ : Fin n => κ ()) := by
  have hd := eventLaw_draws S (left := left) hE hU hf
  have hp : IsProbabilityMeasure (κ ()) := hd.2.1 ()
  refine ⟨hp, withClips_law_none S hn ?_⟩
  have h := ((hd.at ()).replicateL n).bind_lift (h := fun as => gather E (as.map fun x => .scalar (.flt x)))
    (R' := Reads n) id measurable_id (Filter.Eventually.of_forall fun x as has => gather_real E (by
      have : as = List.ofFn x := by simpa using has
      subst this
      rw [id, List.forall₂_map_left_iff, List.forall₂_same]
      exact fun r _ => ⟨_, rfl, Or.inl rfl⟩))
  rw [Measure.map_id] at h
  refine h.congr fun ω => ?_
  rw [rawObj_obj]
  have e : ∀ as : List ℝ, SM.mapL (fun x : ℝ => sampleReturned E (.lit (.flt x))) as
      = (SM.pure (as.map fun x => .scalar (.flt x)) : SM (ℕ → Ω) ℝ _) := by
    intro as
    induction as with
    | nil => rfl
    | cons a as ih => simp only [SM.mapL, ih]; rfl
  simp only [e]
  rfl

/-- `sample(f, n)` for a function that returns one of finitely many distributions. -/
theorem fnObj_dist_law (hE : S.Drives E) (hU : S.primLaw (.uniform 0 1) = some unitLaw) {k : ℕ}
    {f : EventFn (St (ℕ → Ω) ℝ) (Fin k) Unit} {κ : Unit → Measure (Fin k)} (hf : EventLaw S.primLaw f κ)
    {ds : Fin k → Obj (St (ℕ → Ω) ℝ) ℝ} {ν : Fin k → Measure ℝ} (hds : ∀ i, Denotes S.primLaw (ds i) (ν i))
    {n : ℕ} (hn : 1 ≤ n) :
    IsProbabilityMeasure (∑ i, κ () {i} • ν i) ∧
    DrawsLaw S.law left (sampleObj E (f.obj E ds) n none none) (Reads n)
      (Measure.pi fun _ : Fin n => ∑ i, κ () {i} • ν i) := by
  have hd := eventLaw_draws S (left := left) hE hU hf
  have hp : IsProbabilityMeasure (κ ()) := hd.2.1 ()
  have hν : ∀ i, IsProbabilityMeasure (ν i) := fun i => (denotes_draws S (left := left) hE hU (hds i)).1
  have hsum := mix_prob (κ ()) ν
  refine ⟨hsum, withClips_law_none S hn ?_⟩
  have h1 := ((hd.at ()).replicateL n).choose (ι := Fin n → Fin k)
    (g := fun x => SM.mapL (fun a => sampleReturned E (ds a)) (List.ofFn x))
    (f := fun as => SM.mapL (fun a => sampleReturned E (ds a)) as)
    (fun x => mapL_ofFn_law S (fun i => sampleReturned_law S (left := left) hE hU (hds i)) x)
    (fun as x h ω => by
      have : as = List.ofFn x := by simpa using h
      rw [this])
  rw [sum_pi_mix (κ ()) ν] at h1
  have h2 := h1.bind_lift (h := gather E) (R' := Reads n) id measurable_id
    (Filter.Eventually.of_forall fun x ss hss => gather_real E hss)
  rw [Measure.map_id] at h2
  refine h2.congr fun ω => ?_
  rw [rawObj_obj]
  simp only [SM.bind]
  cases SM.replicateL (f.run E ()) n ⟨ω, left⟩ with
  | mk r s => cases r <;> rfl

end

end Verif
