import Verif.Lemmas.Denote
import Verif.Props.Mixture

/-!
# Helper lemmas: laws of the sampler's building blocks
-/

namespace Verif

open MeasureTheory Spec

section Combinators

variable {Ω : Type} [MeasurableSpace Ω] {A B X Y : Type} [MeasurableSpace X] [MeasurableSpace Y]
  {μ₀ : Measure Ω} [IsProbabilityMeasure μ₀] {left : ℕ → ℕ → Option (List (Scalar ℝ))}

theorem DrawsLaw.map {m : SM (ℕ → Ω) ℝ A} {R : A → X → Prop} {μ : Measure X} [SFinite μ]
    {R' : A → Y → Prop} (hm : DrawsLaw μ₀ left m R μ) (g : X → Y) (hg : Measurable g)
    (h : ∀ a x, R a x → R' a (g x)) : DrawsLaw μ₀ left m R' (μ.map g) := by
  have := hm.bind_lift (h := fun a => .ok a) (R' := R') g hg
    (Filter.Eventually.of_forall fun x a ha => ⟨a, rfl, h a x ha⟩)
  refine this.congr fun ω => ?_
  simp only [SM.bind, SM.lift]
  cases m ⟨ω, left⟩ with
  | mk r s => cases r <;> rfl

/-- Consequence of almost sure facts about the result. -/
theorem DrawsLaw.mono_ae {m : SM (ℕ → Ω) ℝ A} {R R₂ : A → X → Prop} {μ : Measure X} [SFinite μ]
    (hm : DrawsLaw μ₀ left m R μ) (h : ∀ᵐ x ∂μ, ∀ a, R a x → R₂ a x) : DrawsLaw μ₀ left m R₂ μ := by
  have := hm.bind_lift (h := fun a => .ok a) (R' := R₂) id measurable_id
    (h.mono fun x hx a ha => ⟨a, rfl, hx a ha⟩)
  rw [Measure.map_id] at this
  refine this.congr fun ω => ?_
  simp only [SM.bind, SM.lift]
  cases m ⟨ω, left⟩ with
  | mk r s => cases r <;> rfl

end Combinators

/-- A probability law on the values at one position. -/
theorem pi_map_eval {X : Type} [MeasurableSpace X] {n : ℕ} (μ : Measure X) [IsProbabilityMeasure μ]
    (i : Fin n) : (Measure.pi fun _ : Fin n => μ).map (fun x => x i) = μ := by
  simpa using (measurePreserving_eval (fun _ : Fin n => μ) i).map_eq

section Source

variable {Ω : Type} [MeasurableSpace Ω] (S : IdealSource Ω)

theorem IdealSource.gen_lawful : S.gen.Lawful := by
  intro p n ω xs ω' h
  simp only [IdealSource.gen] at h
  cases hq : S.answer p with
  | none => rw [hq] at h; simp at h
  | some q =>
    rw [hq] at h
    simp only [Prod.mk.injEq, Except.ok.injEq] at h
    obtain ⟨rfl, -⟩ := h
    refine ⟨by simp, fun v hv => ?_⟩
    obtain ⟨i, -, rfl⟩ := List.mem_map.1 hv
    exact S.support p q hq _

theorem support_real {p : Prim ℝ} {v : Scalar ℝ} (h : p.support v) : IsReal v (realVal v) := by
  cases p <;> simp only [Prim.support] at h
  all_goals first
    | (obtain ⟨x, rfl⟩ := h; exact Or.inl rfl)
    | (obtain ⟨x, rfl, -⟩ := h; exact Or.inl rfl)
    | (obtain ⟨x, rfl, -⟩ := h; exact Or.inr ⟨_, rfl, rfl⟩)

theorem primLaw_prob {p : Prim ℝ} {μ : Measure ℝ} (h : S.primLaw p = some μ) :
    IsProbabilityMeasure μ := by
  unfold IdealSource.primLaw at h
  cases hq : S.answer p with
  | none => rw [hq] at h; simp at h
  | some q =>
    rw [hq] at h
    simp only [Option.map_some, Option.some.injEq] at h
    rw [← h]
    exact Measure.isProbabilityMeasure_map (S.meas p q hq).aemeasurable

/-- One answer. -/
def oneAnswer (q : Ω → Scalar ℝ) : SM (ℕ → Ω) ℝ (Scalar ℝ) := fun s =>
  (.ok (q (s.rng 0)), ⟨fun i => s.rng (i + 1), s.left⟩)

theorem drawSM_eq_replicate {E : Env (ℕ → Ω) ℝ} (hE : E.gen = S.gen) {p : Prim ℝ} {q : Ω → Scalar ℝ}
    (hq : S.answer p = some q) (n : ℕ) (s : St (ℕ → Ω) ℝ) :
    drawSM E p n s = SM.replicateL (oneAnswer q) n s := by
  have key : ∀ n (s : St (ℕ → Ω) ℝ), SM.replicateL (oneAnswer q) n s
      = (.ok ((List.range n).map fun i => q (s.rng i)), ⟨fun i => s.rng (i + n), s.left⟩) := by
    intro n
    induction n with
    | zero => intro s; rfl
    | succ n ih =>
      intro s
      simp only [SM.replicateL, SM.bind, oneAnswer, SM.pure]
      rw [ih]
      simp only [List.range_succ_eq_map, List.map_cons, List.map_map]
      refine Prod.ext rfl ?_
      simp only [St.mk.injEq, and_true]
      funext i
      congr 1
  rw [key]
  unfold drawSM
  rw [hE]
  simp only [IdealSource.gen, hq]

variable {left : ℕ → ℕ → Option (List (Scalar ℝ))}

theorem oneAnswer_law {p : Prim ℝ} {q : Ω → Scalar ℝ} (hq : S.answer p = some q) {μ : Measure ℝ}
    (hμ : S.primLaw p = some μ) :
    DrawsLaw S.law left (oneAnswer q) (fun v x => p.support v ∧ IsReal v x) μ := by
  have e : μ = S.law.map fun x => realVal (q x) := by
    simpa [IdealSource.primLaw, hq] using hμ.symm
  have hmeas := S.meas p q hq
  refine ⟨fun ω => (realVal (q (ω 0)), fun i => ω (i + 1)), ?_, ?_,
    Filter.Eventually.of_forall fun ω => ⟨_, rfl, S.support p q hq _, support_real (S.support p q hq _)⟩⟩
  · exact (hmeas.comp (measurable_pi_apply 0)).prodMk (by fun_prop)
  have e2 : (fun ω : ℕ → Ω => (realVal (q (ω 0)), fun i => ω (i + 1)))
      = Prod.map (fun x => realVal (q x)) id ∘ headTail := rfl
  rw [e2, ← Measure.map_map (by fun_prop) measurable_headTail, map_headTail,
    ← Measure.map_prod_map _ _ hmeas measurable_id, Measure.map_id, ← e]

/-- The law of `n` numbers from the generator. -/
theorem drawSM_law {E : Env (ℕ → Ω) ℝ} (hE : E.gen = S.gen) {p : Prim ℝ} {μ : Measure ℝ}
    (hμ : S.primLaw p = some μ) (n : ℕ) :
    DrawsLaw S.law left (drawSM E p n)
      (fun xs x => List.Forall₂ (fun v r => p.support v ∧ IsReal v r) xs (List.ofFn x))
      (Measure.pi fun _ : Fin n => μ) := by
  have := primLaw_prob S hμ
  cases hq : S.answer p with
  | none => simp [IdealSource.primLaw, hq] at hμ
  | some q =>
    exact ((oneAnswer_law S hq hμ).replicateL n).congr fun ω => drawSM_eq_replicate S hE hq n _

theorem drawSimple_law {E : Env (ℕ → Ω) ℝ} (hE : E.gen = S.gen) {p : Prim ℝ} {μ : Measure ℝ}
    (hμ : S.primLaw p = some μ) (n : ℕ) :
    DrawsLaw S.law left (drawSimple E p n) (Reads n) (Measure.pi fun _ : Fin n => μ) := by
  have := primLaw_prob S hμ
  have h := (drawSM_law S (left := left) hE hμ n).bind_lift
    (h := fun xs => .ok (Samples.simplify (.arr xs))) (R' := Reads n) id measurable_id
    (Filter.Eventually.of_forall fun x xs hx => ⟨_, rfl, reads_simplify (hx.imp fun _ _ h => h.2)⟩)
  rwa [Measure.map_id] at h

theorem mapFlt_arr_ok (h : ℝ → ℝ) {n : ℕ} {xs : List (Scalar ℝ)} {x : Fin n → ℝ}
    (hx : List.Forall₂ IsReal xs (List.ofFn x)) :
    mapFlt h (.arr xs) = .ok (.arr (List.ofFn fun i => .flt (h (x i)))) := by
  obtain ⟨l1, h1⟩ := forall₂_ofFn.1 hx
  simp only [mapFlt]
  rw [(mapExcept_ok (bs := List.ofFn fun i => Scalar.flt (h (x i)))).2]
  · rfl
  · refine List.forall₂_iff_get.2 ⟨by simp [l1], fun i hi hi' => ?_⟩
    have hin : i < n := by simpa using hi'
    have := h1 ⟨i, hin⟩
    simp only [List.get_eq_getElem, List.getElem_ofFn]
    rcases this with e | ⟨z, e, e'⟩
    · rw [e]; rfl
    · rw [e, e']; rfl

theorem forall₂_flt {n : ℕ} (x : Fin n → ℝ) :
    List.Forall₂ IsReal (List.ofFn fun i => Scalar.flt (x i)) (List.ofFn x) :=
  forall₂_ofFn.2 ⟨by simp, fun i => by simp [IsReal]⟩

theorem mapFlt_law {E : Env (ℕ → Ω) ℝ} (hE : E.gen = S.gen) {p : Prim ℝ} {μ : Measure ℝ}
    (hμ : S.primLaw p = some μ) (f : ℝ → ℝ) (hf : Measurable f) (n : ℕ) :
    DrawsLaw S.law left
      (SM.bind (drawSM E p n) fun xs => SM.lift (do .ok (← mapFlt f (.arr xs)).simplify)) (Reads n)
      (Measure.pi fun _ : Fin n => μ.map f) := by
  have := primLaw_prob S hμ
  rw [← map_map_pi n μ f hf]
  refine (drawSM_law S hE hμ n).bind_lift _ (by fun_prop)
    (Filter.Eventually.of_forall fun x xs hx => ?_)
  refine ⟨_, ?_, reads_simplify (forall₂_flt fun i => f (x i))⟩
  rw [mapFlt_arr_ok f (hx.imp fun _ _ h => h.2)]
  rfl

/-- The law of a basic distribution. -/
theorem leafSample_law {E : Env (ℕ → Ω) ℝ} (hE : E.gen = S.gen) {l : Leaf ℝ} {μ : Measure ℝ}
    (hμ : leafLaw S.primLaw l = some μ) (n : ℕ) :
    IsProbabilityMeasure μ ∧
    DrawsLaw S.law left (leafSample E l n) (Reads n) (Measure.pi fun _ : Fin n => μ) := by
  cases l with
  | uniform | normal | lognormal | binomial | beta | poisson | chisquare | exponential | gamma
  | triangular | geometric =>
    exact ⟨primLaw_prob S hμ, drawSimple_law S hE hμ n⟩
  | const | categorical | tdist | logtdist | coin => simp [leafLaw] at hμ
  | die d =>
    obtain ⟨sides, ex⟩ := d
    cases ex with
    | some l => simp [leafLaw] at hμ
    | none =>
      have hp := primLaw_prob S (p := .integers 1 (sides + 1)) (μ := μ) hμ
      refine ⟨hp, ?_⟩
      have h1 := ((drawSM_law S (left := left) hE (p := .integers 1 (sides + 1)) (μ := μ) hμ 1).map
        (R' := fun xs (r : ℝ) => ∃ z : ℤ, xs = [.int z] ∧ r = (z : ℝ)) (fun x => x 0) (measurable_pi_apply 0) (by
          intro us x h
          simp only [List.ofFn_succ, List.ofFn_zero, List.forall₂_cons_right_iff,
            List.forall₂_nil_right_iff] at h
          obtain ⟨v, l, ⟨⟨z, rfl, -⟩, hu⟩, rfl, rfl⟩ := h
          refine ⟨z, rfl, ?_⟩
          rcases hu with e | ⟨z, e, e'⟩
          · cases e
          · cases e; exact e'))
      rw [pi_map_eval] at h1
      have h2 := h1.bind_lift (h := fun xs => match xs with
          | [.int z] => .ok z
          | _ => .error .unmodelled) (R' := fun (z : ℤ) (r : ℝ) => r = z) id measurable_id
        (Filter.Eventually.of_forall fun r xs hx => by
          obtain ⟨z, rfl, rfl⟩ := hx
          exact ⟨z, rfl, rfl⟩)
      rw [Measure.map_id] at h2
      have h3 : DrawsLaw S.law left (rollDie E ⟨sides, none⟩)
          (fun (z : ℤ) (r : ℝ) => r = z) μ := by
        refine h2.congr fun ω => ?_
        simp only [rollDie, singleRoll, drawInt, SM.bind]
        cases drawSM E (.integers 1 (sides + 1)) 1 ⟨ω, left⟩ with
        | mk r s =>
          cases r with
          | error e => rfl
          | ok xs =>
            rcases xs with _ | ⟨v, _ | ⟨_, _⟩⟩
            · rfl
            · cases v <;> rfl
            · cases v <;> rfl
      have h4 := (h3.replicateL n).bind_lift
        (h := fun rs => .ok (Samples.simplify (.arr (rs.map .int)))) (R' := Reads n) id measurable_id
        (Filter.Eventually.of_forall fun x rs hx => ⟨_, rfl, reads_simplify (by
          rw [List.forall₂_map_left_iff]
          exact hx.imp fun z r h => Or.inr ⟨z, rfl, h⟩)⟩)
      rw [Measure.map_id] at h4
      exact h4
  | invlognormal m s =>
    simp only [leafLaw, Option.map_eq_some_iff] at hμ
    obtain ⟨ν, hν, rfl⟩ := hμ
    have := primLaw_prob S hν
    have hm : Measurable fun x : ℝ => 1 / x := by fun_prop
    exact ⟨Measure.isProbabilityMeasure_map hm.aemeasurable, mapFlt_law S hE hν _ hm n⟩
  | pareto sh =>
    simp only [leafLaw, Option.map_eq_some_iff] at hμ
    obtain ⟨ν, hν, rfl⟩ := hμ
    have := primLaw_prob S hν
    have hm : Measurable fun x : ℝ => x + 1 := by fun_prop
    exact ⟨Measure.isProbabilityMeasure_map hm.aemeasurable, mapFlt_law S hE hν _ hm n⟩
  | bernoulli p =>
    simp only [leafLaw, Option.map_eq_some_iff] at hμ
    obtain ⟨ν, hν, rfl⟩ := hμ
    have := primLaw_prob S hν
    have hm : Measurable fun u : ℝ => if u < p then (1 : ℝ) else 0 :=
      Measurable.ite measurableSet_Iio measurable_const measurable_const
    refine ⟨Measure.isProbabilityMeasure_map hm.aemeasurable, ?_⟩
    rw [← map_map_pi n ν _ hm]
    refine (drawSM_law S hE hν n).bind_lift _
      (measurable_pi_lambda _ fun i => hm.comp (measurable_pi_apply i))
      (Filter.Eventually.of_forall fun x xs hx => ?_)
    refine ⟨Samples.simplify (.arr (List.ofFn fun i : Fin n => .int (if x i < p then 1 else 0))), ?_,
      reads_simplify (forall₂_ofFn.2 ⟨by simp, fun i => Or.inr ⟨_, by simp; rfl, by
        by_cases h : x i < p <;> simp [h]⟩⟩)⟩
    have hl : xs.length = n := by rw [hx.length_eq, List.length_ofFn]
    rw [(mapExcept_ok (bs := List.ofFn fun i : Fin n => Scalar.int (if x i < p then 1 else 0))).2]
    · rfl
    · refine List.forall₂_iff_get.2 ⟨by simp [hl], fun i hi hi' => ?_⟩
      have hin : i < n := by simpa using hi'
      have := hx.get hi (by simpa using hin)
      obtain ⟨⟨u, hu, -⟩, hr⟩ := this
      simp only [List.get_eq_getElem, List.getElem_ofFn] at hu hr ⊢
      rw [hu] at hr ⊢
      rcases hr with e | ⟨z, e, -⟩
      · cases e; rfl
      · cases e
  | pert a m r lam =>
    simp only [leafLaw, Option.map_eq_some_iff] at hμ
    obtain ⟨ν, hν, rfl⟩ := hμ
    have := primLaw_prob S hν
    have hm : Measurable fun x : ℝ => a + (r - a) * x := by fun_prop
    refine ⟨Measure.isProbabilityMeasure_map hm.aemeasurable, ?_⟩
    have e1 : 1 + lam * ((m - a) / (r - a)) = 1 + lam * (m - a) / (r - a) := by ring
    have e2 : 1 + lam * ((m - r) / (a - r)) = 1 + lam * (r - m) / (r - a) := by
      rw [← neg_sub r m, ← neg_sub r a, neg_div_neg_eq, mul_div_assoc]
    rw [e1, e2] at hν
    rw [← map_map_pi n ν _ hm]
    refine (drawSimple_law S hE hν n).bind_lift _ (by fun_prop)
      (Filter.Eventually.of_forall fun x z hz => ?_)
    by_cases hn : n = 1
    · subst hn
      obtain ⟨v, rfl, hv⟩ := reads_one hz
      refine ⟨.scalar (.flt (a + x 0 * (r - a))), ?_, reads_scalar.2 (Or.inl (by ring_nf))⟩
      rcases hv with rfl | ⟨z, rfl, hz'⟩
      · rfl
      · rw [hz']; rfl
    · obtain ⟨vs, rfl, hv⟩ := reads_many hn hz
      refine ⟨_, mapFlt_arr_ok _ hv, reads_arr hn ?_⟩
      have := forall₂_flt fun i : Fin n => a + x i * (r - a)
      convert this using 3
      ring

end Source

end Verif
