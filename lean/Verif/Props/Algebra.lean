import Verif.Spec.SameSamples
import Verif.Props.Estimates
import Verif.Props.MixtureRemainder
import Verif.Lemmas.UniformLaw

/-!
# C105: expressions that mean the same can be exchanged
-/

namespace Verif

open MeasureTheory ProbabilityTheory Spec

/-! ### Laws -/

theorem map_prod_comm {μ ν : Measure ℝ} [SFinite μ] [SFinite ν] {g : ℝ → ℝ → ℝ}
    (hg : Measurable fun p : ℝ × ℝ => g p.1 p.2) (hc : ∀ x y, g x y = g y x) :
    (μ.prod ν).map (fun p => g p.1 p.2) = (ν.prod μ).map fun p => g p.1 p.2 := by
  rw [← Measure.prod_swap, Measure.map_map hg measurable_swap]
  congr 1
  funext p
  exact hc _ _

theorem map_prod_assoc {μ ν ρ : Measure ℝ} [SFinite μ] [SFinite ν] [SFinite ρ] {g : ℝ → ℝ → ℝ}
    (hg : Measurable fun p : ℝ × ℝ => g p.1 p.2) (hc : ∀ x y z, g (g x y) z = g x (g y z)) :
    ((((μ.prod ν).map fun p => g p.1 p.2).prod ρ).map fun p => g p.1 p.2)
      = (μ.prod ((ν.prod ρ).map fun p => g p.1 p.2)).map fun p => g p.1 p.2 := by
  have h1 : ((μ.prod ν).map fun p => g p.1 p.2).prod ρ
      = ((μ.prod ν).prod ρ).map (Prod.map (fun p : ℝ × ℝ => g p.1 p.2) id) := by
    conv_lhs => rw [← Measure.map_id (μ := ρ)]
    exact Measure.map_prod_map _ _ hg measurable_id
  have h2 : μ.prod ((ν.prod ρ).map fun p => g p.1 p.2)
      = (μ.prod (ν.prod ρ)).map (Prod.map id fun p : ℝ × ℝ => g p.1 p.2) := by
    conv_lhs => rw [← Measure.map_id (μ := μ)]
    exact Measure.map_prod_map _ _ measurable_id hg
  rw [h1, h2, Measure.map_map hg (by fun_prop), Measure.map_map hg (by fun_prop),
    ← Measure.prodAssoc_prod, Measure.map_map (by fun_prop) (MeasurableEquiv.measurable _)]
  congr 1
  funext p
  exact hc _ _ _

theorem map_prod_dirac {μ : Measure ℝ} [SFinite μ] {g : ℝ → ℝ → ℝ} (hg : Measurable fun p : ℝ × ℝ => g p.1 p.2)
    (c : ℝ) : ((μ.prod (Measure.dirac c)).map fun p => g p.1 p.2) = μ.map fun x => g x c := by
  rw [Measure.prod_dirac, Measure.map_map hg (by fun_prop)]
  rfl

theorem map_dirac_prod {μ : Measure ℝ} [SFinite μ] {g : ℝ → ℝ → ℝ} (hg : Measurable fun p : ℝ × ℝ => g p.1 p.2)
    (c : ℝ) : (((Measure.dirac c).prod μ).map fun p => g p.1 p.2) = μ.map fun x => g c x := by
  rw [Measure.dirac_prod, Measure.map_map hg (by fun_prop)]
  rfl

theorem denotes_num {T : Type} (L : Prim ℝ → Option (Measure ℝ)) (c : ℝ) :
    Denotes L (.lit (.flt c) : Obj T ℝ) (Measure.dirac c) := .lit (Or.inl rfl)

/-- `c + s X` for normal `X`. -/
theorem normalLaw_affine (m s c k : ℝ) :
    (normalLaw m s).map (fun x => k * x + c) = normalLaw (k * m + c) (k * s) := by
  have : (fun x => k * x + c) = (· + c) ∘ (k * ·) := rfl
  rw [this, ← Measure.map_map (by fun_prop) (by fun_prop), normalLaw, gaussianReal_map_const_mul,
    gaussianReal_map_add_const, normalLaw]
  congr 1
  ext
  simp [mul_pow]

theorem normalLaw_neg_sd (m s : ℝ) : normalLaw m (-s) = normalLaw m s := by
  unfold normalLaw
  congr 1
  ext
  simp

theorem normalLaw_abs_sd (m s : ℝ) : normalLaw m |s| = normalLaw m s := by
  rcases abs_choice s with h | h <;> rw [h]
  exact normalLaw_neg_sd m s

theorem normalLaw_add (a b s t : ℝ) :
    (((normalLaw a s).prod (normalLaw b t)).map fun p : ℝ × ℝ => p.1 + p.2)
      = normalLaw (a + b) (Real.sqrt (s ^ 2 + t ^ 2)) := by
  have := gaussianReal_conv_gaussianReal (m₁ := a) (m₂ := b) (v₁ := .mk (s ^ 2) (sq_nonneg s))
    (v₂ := .mk (t ^ 2) (sq_nonneg t))
  rw [Measure.conv] at this
  rw [normalLaw, normalLaw, this, normalLaw]
  congr 1
  ext
  simp [Real.sq_sqrt (by positivity : (0 : ℝ) ≤ s ^ 2 + t ^ 2)]

theorem normalLaw_sub (a b s t : ℝ) :
    (((normalLaw a s).prod (normalLaw b t)).map fun p : ℝ × ℝ => p.1 - p.2)
      = normalLaw (a - b) (Real.sqrt (s ^ 2 + t ^ 2)) := by
  have h3 : (fun p : ℝ × ℝ => p.1 - p.2) = (fun p : ℝ × ℝ => p.1 + p.2) ∘ Prod.map id fun y => -1 * y + 0 := by
    ext p; simp [sub_eq_add_neg]
  rw [h3, ← Measure.map_map (by fun_prop) (by fun_prop),
    ← Measure.map_prod_map _ _ measurable_id (by fun_prop), Measure.map_id, normalLaw_affine, normalLaw_add]
  congr 1
  · ring
  · simp

/-- Lognormal laws: a function that is `G` on the logarithms. -/
theorem lognormalLaw_map₂ {g G : ℝ → ℝ → ℝ} (hg : Measurable fun p : ℝ × ℝ => g p.1 p.2)
    (hG : Measurable fun p : ℝ × ℝ => G p.1 p.2)
    (h : ∀ x y, g (Real.exp x) (Real.exp y) = Real.exp (G x y)) (a b s t : ℝ) :
    (((lognormalLaw a s).prod (lognormalLaw b t)).map fun p : ℝ × ℝ => g p.1 p.2)
      = (((normalLaw a s).prod (normalLaw b t)).map fun p : ℝ × ℝ => G p.1 p.2).map Real.exp := by
  rw [lognormalLaw, lognormalLaw, Measure.map_prod_map _ _ Real.measurable_exp Real.measurable_exp,
    Measure.map_map hg (by fun_prop), Measure.map_map Real.measurable_exp hG]
  congr 1
  funext p
  exact h _ _

theorem lognormalLaw_map {g G : ℝ → ℝ} (hg : Measurable g) (hG : Measurable G)
    (h : ∀ x, g (Real.exp x) = Real.exp (G x)) (a s : ℝ) :
    (lognormalLaw a s).map g = ((normalLaw a s).map G).map Real.exp := by
  rw [lognormalLaw, Measure.map_map hg Real.measurable_exp, Measure.map_map Real.measurable_exp hG]
  congr 1
  funext p
  exact h _

instance (m s : ℝ) : IsProbabilityMeasure (lognormalLaw m s) :=
  Measure.isProbabilityMeasure_map Real.measurable_exp.aemeasurable

theorem lognormalLaw_pos (m s : ℝ) : ∀ᵐ x ∂(lognormalLaw m s), 0 < x := by
  rw [lognormalLaw, ae_map_iff Real.measurable_exp.aemeasurable (p := fun x => 0 < x) measurableSet_Ioi]
  exact .of_forall fun x => Real.exp_pos x

section

variable {Ω : Type} [MeasurableSpace Ω] (S : IdealSource Ω) {E : Env (ℕ → Ω) ℝ} (hE : S.Drives E)
  (hU : S.primLaw (.uniform 0 1) = some (volume.restrict (Set.Ico 0 1)))

include hE hU

/-- **C105**: distributions that stand for the same law cannot be told apart by sampling them. -/
theorem C105_same_law {a b : Obj (St (ℕ → Ω) ℝ) ℝ} {μ ν : Measure ℝ} (ha : Denotes S.primLaw a μ)
    (hb : Denotes S.primLaw b ν) (h : μ = ν) : SameSamples S E a b := by
  subst h
  intro n hn left
  obtain ⟨hp, hA⟩ := denotes_draws S (left := left) hE hU ha
  obtain ⟨-, hB⟩ := denotes_draws S (left := left) hE hU hb
  obtain ⟨F, hF, hmF, haF⟩ := hA n hn
  obtain ⟨G, hG, hmG, haG⟩ := hB n hn
  have key : ∀ F : (ℕ → Ω) → (Fin n → ℝ) × (ℕ → Ω), Measurable F →
      (streamLaw S.law).map F = (Measure.pi fun _ : Fin n => μ).prod (streamLaw S.law) →
      (streamLaw S.law).map (fun ω => (F ω).1) = Measure.pi fun _ : Fin n => μ := by
    intro F hF hmF
    have : (fun ω => (F ω).1) = Prod.fst ∘ F := rfl
    rw [this, ← Measure.map_map measurable_fst hF, hmF, Measure.map_fst_prod]
    simp
  refine ⟨fun ω => (F ω).1, fun ω => (G ω).1, by fun_prop, by fun_prop, ?_, ?_,
    (key F hF hmF).trans (key G hG hmG).symm⟩
  · filter_upwards [haF] with ω hω
    obtain ⟨z, hz, hr⟩ := hω
    exact ⟨z, _, hz, hr⟩
  · filter_upwards [haG] with ω hω
    obtain ⟨z, hz, hr⟩ := hω
    exact ⟨z, _, hz, hr⟩

/-- **C105**: and only those. -/
theorem C105_same_law_iff {a b : Obj (St (ℕ → Ω) ℝ) ℝ} {μ ν : Measure ℝ} (ha : Denotes S.primLaw a μ)
    (hb : Denotes S.primLaw b ν) : SameSamples S E a b ↔ μ = ν := by
  refine ⟨fun h => ?_, C105_same_law S hE hU ha hb⟩
  obtain ⟨X, Y, hX, hY, hae, hbe, hXY⟩ := h 1 le_rfl fun _ _ => none
  have key : ∀ {d : Obj (St (ℕ → Ω) ℝ) ℝ} {ρ : Measure ℝ}, Denotes S.primLaw d ρ →
      ∀ {Z : (ℕ → Ω) → Fin 1 → ℝ}, Measurable Z → (∀ᵐ ω ∂(Measure.infinitePi fun _ : ℕ => S.law), ∃ z s',
        sampleObj E d 1 none none ⟨ω, fun _ _ => none⟩ = (.ok z, s') ∧ Reads 1 z (Z ω)) →
      ρ = ((Measure.infinitePi fun _ : ℕ => S.law).map Z).map fun x => x 0 := by
    intro d ρ hd Z hZ hz
    obtain ⟨-, W, hW, hw, hlaw, -⟩ := C86_independent_samples S hE hU hd le_rfl fun _ _ => none
    rw [Measure.map_map (measurable_pi_apply 0) hZ, ← hlaw 0]
    refine Measure.map_congr ?_
    filter_upwards [hz, hw] with ω h1 h2
    obtain ⟨z, s, h1, hr1⟩ := h1
    obtain ⟨z', s', h2, hr2⟩ := h2
    rw [h1] at h2
    cases h2
    have := reads_unique hr1.2 hr2.2
    simp only [List.ofFn_succ, List.ofFn_zero, List.cons.injEq, and_true] at this
    exact this.symm
  rw [key ha hX hae, key hb hY hbe, hXY]

/-- **C105**: replacing operands by ones with the same samples. The last hypothesis says that the operation is
defined for almost all samples of `a` and `b`: no division by zero, and powers only of positive numbers. -/
theorem C105_replace_operands {o : BinOp} {g : ℝ → ℝ → ℝ} (ho : opMeaning o = some g)
    {a a' b b' : Obj (St (ℕ → Ω) ℝ) ℝ} {μ μ' ν ν' : Measure ℝ} (ha : Denotes S.primLaw a μ)
    (ha' : Denotes S.primLaw a' μ') (hb : Denotes S.primLaw b ν) (hb' : Denotes S.primLaw b' ν')
    (hdef : ∀ᵐ p ∂(μ.prod ν), opDefined o p.1 p.2) (haa : SameSamples S E a a') (hbb : SameSamples S E b b') :
    SameSamples S E (.bin (.op o) a b) (.bin (.op o) a' b') := by
  obtain rfl := (C105_same_law_iff S hE hU ha ha').1 haa
  obtain rfl := (C105_same_law_iff S hE hU hb hb').1 hbb
  exact C105_same_law S hE hU (.bin ho ha hb hdef) (.bin ho ha' hb' hdef) rfl

/-- **C105**: replacing the components of a mixture by ones with the same samples. -/
theorem C105_replace_components {k : ℕ} {ds ds' : Fin k → Obj (St (ℕ → Ω) ℝ) ℝ} {ν ν' : Fin k → Measure ℝ}
    {ws : List ℝ} (hk : ws.length = k) (hd : ∀ i, Denotes S.primLaw (ds i) (ν i))
    (hd' : ∀ i, Denotes S.primLaw (ds' i) (ν' i)) (hpos : ∀ w ∈ ws, 0 < w) (hsum : ws.sum = 1)
    (h : ∀ i, SameSamples S E (ds i) (ds' i)) :
    SameSamples S E (.mix k ds ws none none) (.mix k ds' ws none none) := by
  obtain rfl : ν = ν' := funext fun i => (C105_same_law_iff S hE hU (hd i) (hd' i)).1 (h i)
  exact C105_same_law S hE hU (.mix hk hd hpos hsum (lo := none) (hi := none) trivial trivial)
    (.mix hk hd' hpos hsum (lo := none) (hi := none) trivial trivial) rfl

/-- **C105**: `a + b` and `b + a`, likewise `*`, `dist_max` and `dist_min`. -/
theorem C105_commute {o : BinOp} (ho : o = .add ∨ o = .mul ∨ o = .max ∨ o = .min)
    {a b : Obj (St (ℕ → Ω) ℝ) ℝ} {μ ν : Measure ℝ} (ha : Denotes S.primLaw a μ) (hb : Denotes S.primLaw b ν) :
    SameSamples S E (.bin (.op o) a b) (.bin (.op o) b a) := by
  have hp := (denotes_draws S (left := fun _ _ => none) hE hU ha).1
  have hq := (denotes_draws S (left := fun _ _ => none) hE hU hb).1
  have key : ∀ g, opMeaning o = some g → (∀ x y, opDefined o x y) → (∀ x y, g x y = g y x) →
      SameSamples S E (.bin (.op o) a b) (.bin (.op o) b a) := fun g hg hdef hc =>
    C105_same_law S hE hU (.bin hg ha hb (.of_forall fun _ => hdef _ _)) (.bin hg hb ha (.of_forall fun _ => hdef _ _))
      (map_prod_comm (measurable_opMeaning hg) hc)
  rcases ho with rfl | rfl | rfl | rfl
  · exact key _ rfl (fun _ _ => trivial) add_comm
  · exact key _ rfl (fun _ _ => trivial) mul_comm
  · exact key _ rfl (fun _ _ => trivial) max_comm
  · exact key _ rfl (fun _ _ => trivial) min_comm

/-- **C105**: `(a + b) + c` and `a + (b + c)`, likewise for the other three. -/
theorem C105_associate {o : BinOp} (ho : o = .add ∨ o = .mul ∨ o = .max ∨ o = .min)
    {a b c : Obj (St (ℕ → Ω) ℝ) ℝ} {μ ν ρ : Measure ℝ} (ha : Denotes S.primLaw a μ) (hb : Denotes S.primLaw b ν)
    (hc : Denotes S.primLaw c ρ) :
    SameSamples S E (.bin (.op o) (.bin (.op o) a b) c) (.bin (.op o) a (.bin (.op o) b c)) := by
  have hp := (denotes_draws S (left := fun _ _ => none) hE hU ha).1
  have hq := (denotes_draws S (left := fun _ _ => none) hE hU hb).1
  have hr := (denotes_draws S (left := fun _ _ => none) hE hU hc).1
  have key : ∀ g, opMeaning o = some g → (∀ x y, opDefined o x y) → (∀ x y z, g (g x y) z = g x (g y z)) →
      SameSamples S E (.bin (.op o) (.bin (.op o) a b) c) (.bin (.op o) a (.bin (.op o) b c)) :=
    fun g hg hdef h => C105_same_law S hE hU
      (.bin hg (.bin hg ha hb (.of_forall fun _ => hdef _ _)) hc (.of_forall fun _ => hdef _ _))
      (.bin hg ha (.bin hg hb hc (.of_forall fun _ => hdef _ _)) (.of_forall fun _ => hdef _ _))
      (map_prod_assoc (measurable_opMeaning hg) h)
  rcases ho with rfl | rfl | rfl | rfl
  · exact key _ rfl (fun _ _ => trivial) add_assoc
  · exact key _ rfl (fun _ _ => trivial) mul_assoc
  · exact key _ rfl (fun _ _ => trivial) max_assoc
  · exact key _ rfl (fun _ _ => trivial) min_assoc

/-- **C105**: `a - b` and `a + -b`. -/
theorem C105_subtract {a b : Obj (St (ℕ → Ω) ℝ) ℝ} {μ ν : Measure ℝ} (ha : Denotes S.primLaw a μ)
    (hb : Denotes S.primLaw b ν) :
    SameSamples S E (.bin (.op .sub) a b) (.bin (.op .add) a (.un .neg b)) := by
  have hp := (denotes_draws S (left := fun _ _ => none) hE hU ha).1
  have hq := (denotes_draws S (left := fun _ _ => none) hE hU hb).1
  refine C105_same_law S hE hU (.bin rfl ha hb (.of_forall fun _ => trivial))
    (.bin rfl ha (.un rfl hb) (.of_forall fun _ => trivial)) ?_
  have h2 : μ.prod (ν.map fun x => -x) = (μ.prod ν).map (Prod.map id fun x => -x) := by
    conv_lhs => rw [← Measure.map_id (μ := μ)]
    exact Measure.map_prod_map _ _ measurable_id measurable_neg
  rw [h2, Measure.map_map (by fun_prop) (by fun_prop)]
  rfl

/-- **C105**: arithmetic on a mixture and the mixture of the results, `mixture([a1, …, ak], ws) + b` and
`mixture([a1 + b, …, ak + b], ws)`. -/
theorem C105_mixture_distributes {o : BinOp} (ho : o = .add ∨ o = .sub ∨ o = .mul ∨ o = .max ∨ o = .min)
    {k : ℕ} {ds : Fin k → Obj (St (ℕ → Ω) ℝ) ℝ} {ν : Fin k → Measure ℝ} {ws : List ℝ} (hk : ws.length = k)
    (hd : ∀ i, Denotes S.primLaw (ds i) (ν i)) (hpos : ∀ w ∈ ws, 0 < w) (hsum : ws.sum = 1)
    {b : Obj (St (ℕ → Ω) ℝ) ℝ} {μ : Measure ℝ} (hb : Denotes S.primLaw b μ) :
    SameSamples S E (.bin (.op o) (.mix k ds ws none none) b)
      (.mix k (fun i => .bin (.op o) (ds i) b) ws none none) := by
  have hp : ∀ i, IsProbabilityMeasure (ν i) := fun i =>
    (denotes_draws S (left := fun _ _ => none) hE hU (hd i)).1
  have hq := (denotes_draws S (left := fun _ _ => none) hE hU hb).1
  have e : clamp none none = id := rfl
  have key : ∀ g, opMeaning o = some g → (∀ x y, opDefined o x y) →
      SameSamples S E (.bin (.op o) (.mix k ds ws none none) b)
        (.mix k (fun i => .bin (.op o) (ds i) b) ws none none) := by
    intro g hg hdef
    refine C105_same_law S hE hU (.bin hg (.mix hk hd hpos hsum (lo := none) (hi := none) trivial trivial) hb
      (.of_forall fun _ => hdef _ _))
      (.mix hk (fun i => .bin hg (hd i) hb (.of_forall fun _ => hdef _ _)) hpos hsum (lo := none) (hi := none)
        trivial trivial) ?_
    have hm := measurable_opMeaning hg
    have hmp : IsProbabilityMeasure (∑ i : Fin k, ENNReal.ofReal (ws[i.1]'(hk ▸ i.2)) • ν i) :=
      mixLaw_prob hk hpos hsum ν
    rw [e, Measure.map_id, Measure.map_id]
    ext B hB
    rw [Measure.map_apply hm hB, Measure.prod_apply_symm (hm hB)]
    simp only [Measure.coe_finsetSum, Finset.sum_apply, Measure.smul_apply, smul_eq_mul]
    rw [lintegral_finsetSum _ fun i _ => (measurable_measure_prodMk_right (hm hB)).const_mul _]
    refine Finset.sum_congr rfl fun i _ => ?_
    rw [lintegral_const_mul _ (measurable_measure_prodMk_right (hm hB)), Measure.map_apply hm hB,
      Measure.prod_apply_symm (hm hB)]
  rcases ho with rfl | rfl | rfl | rfl | rfl <;> exact key _ rfl (fun _ _ => trivial)

/-- **C105**: a mixture inside a mixture, `mixture([mixture([d1, …, dk], ws), b], [w, 1 - w])`, and the flat one,
`mixture([d1, …, dk, b], [w * w1, …, w * wk, 1 - w])`. -/
theorem C105_mixture_flattens {k : ℕ} {ds : Fin k → Obj (St (ℕ → Ω) ℝ) ℝ} {ν : Fin k → Measure ℝ} {ws : List ℝ}
    (hk : ws.length = k) (hd : ∀ i, Denotes S.primLaw (ds i) (ν i)) (hpos : ∀ w ∈ ws, 0 < w) (hsum : ws.sum = 1)
    {b : Obj (St (ℕ → Ω) ℝ) ℝ} {μ : Measure ℝ} (hb : Denotes S.primLaw b μ) {w : ℝ} (h0 : 0 < w) (h1 : w < 1) :
    SameSamples S E (.mix 2 ![.mix k ds ws none none, b] [w, 1 - w] none none)
      (.mix (k + 1) (Fin.snoc ds b) (ws.map (w * ·) ++ [1 - w]) none none) := by
  have e : clamp none none = id := rfl
  subst hk
  refine C105_same_law S hE hU
    (.mix (ν := ![(∑ i : Fin ws.length, ENNReal.ofReal ws[i.1] • ν i), μ]) rfl (fun i => ?_)
      (by simpa using ⟨h0, h1⟩) (by simp) (lo := none) (hi := none) trivial trivial)
    (.mix (ν := Fin.snoc ν μ) (by simp) (fun i => ?_) ?_ ?_ (lo := none) (hi := none) trivial trivial) ?_
  · have hmix := Denotes.mix rfl hd hpos hsum (lc := none) (rc := none) (lo := none) (hi := none) trivial trivial
    rw [e, Measure.map_id] at hmix
    fin_cases i
    · exact hmix
    · exact hb
  · refine Fin.lastCases ?_ (fun i => ?_) i
    · simpa using hb
    · simpa using hd i
  · intro v hv
    rcases List.mem_append.1 hv with h | h
    · obtain ⟨x, hx, rfl⟩ := List.mem_map.1 h
      exact mul_pos h0 (hpos x hx)
    · rw [List.mem_singleton.1 h]; linarith
  · rw [List.sum_append, List.sum_map_mul_left, List.map_id', hsum]; simp
  · rw [e, Measure.map_id, Measure.map_id, Fin.sum_univ_two, Fin.sum_univ_castSucc]
    simp only [Fin.snoc_castSucc, Fin.snoc_last, Matrix.cons_val_zero, Matrix.cons_val_one]
    congr 1
    · simp only [Finset.smul_sum]
      refine Finset.sum_congr rfl fun i _ => ?_
      rw [smul_smul]
      congr 1
      show ENNReal.ofReal w * _ = _
      rw [← ENNReal.ofReal_mul h0.le]
      simp
    · simp

/-- **C105**: `k * norm(mean=m, sd=s) + c` and `norm(mean=k*m+c, sd=|k|*s)`. -/
theorem C105_norm_affine (hN : ∀ m s, 0 < s → S.primLaw (.normal m s) = some (normalLaw m s)) {m s : ℝ} (hs : 0 < s)
    {k : ℝ} (hk : k ≠ 0) (c : ℝ) :
    SameSamples S E
      (.bin (.op .add) (.bin (.op .mul) (.lit (.flt k)) (.leaf (.normal m s) none none)) (.lit (.flt c)))
      (.leaf (.normal (k * m + c) (|k| * s)) none none) := by
  have hpos : 0 < |k| * s := mul_pos (abs_pos.2 hk) hs
  refine C105_same_law S hE hU (.bin rfl (.bin rfl (denotes_num _ k) (denotes_normal (hN m s hs))
    (.of_forall fun _ => trivial)) (denotes_num _ c) (.of_forall fun _ => trivial))
    (denotes_normal (hN _ _ hpos)) ?_
  have hp : IsProbabilityMeasure ((normalLaw m s).map fun x => k * x) :=
    Measure.isProbabilityMeasure_map (by fun_prop)
  rw [map_dirac_prod (g := (· * ·)) (by fun_prop), map_prod_dirac (g := (· + ·)) (by fun_prop),
    Measure.map_map (by fun_prop) (by fun_prop)]
  have h : |k| * s = |k * s| := by rw [abs_mul, abs_of_pos hs]
  rw [h, normalLaw_abs_sd, ← normalLaw_affine]
  rfl

/-- **C105**: scaling and shifting a uniform distribution. -/
theorem C105_uniform_affine (hN : ∀ x y, x < y → S.primLaw (.uniform x y) = some (uniformLaw x y)) {x y : ℝ}
    (hxy : x < y) {k : ℝ} (hk : k ≠ 0) (c : ℝ) :
    SameSamples S E
      (.bin (.op .add) (.bin (.op .mul) (.lit (.flt k)) (.leaf (.uniform x y) none none)) (.lit (.flt c)))
      (.leaf (if 0 < k then .uniform (k * x + c) (k * y + c) else .uniform (k * y + c) (k * x + c)) none none) := by
  have leaf : ∀ {a b : ℝ}, a < b → Denotes S.primLaw (.leaf (.uniform a b) none none : Obj (St (ℕ → Ω) ℝ) ℝ)
      (uniformLaw a b) := fun {a b} h => by
    have := Denotes.leaf (S := St (ℕ → Ω) ℝ) (L := S.primLaw) (l := .uniform a b) (lc := none) (rc := none)
      (lo := none) (hi := none) (hN a b h) trivial trivial
    rwa [show clamp none none = id from rfl, Measure.map_id] at this
  have hf : Fact (x < y) := ⟨hxy⟩
  have hb : Denotes S.primLaw (.leaf (if 0 < k then .uniform (k * x + c) (k * y + c)
      else .uniform (k * y + c) (k * x + c)) none none : Obj (St (ℕ → Ω) ℝ) ℝ)
      (if 0 < k then uniformLaw (k * x + c) (k * y + c) else uniformLaw (k * y + c) (k * x + c)) := by
    split_ifs with h
    · exact leaf (by nlinarith)
    · have : k < 0 := lt_of_le_of_ne (not_lt.1 h) hk
      exact leaf (by nlinarith)
  refine C105_same_law S hE hU (.bin rfl (.bin rfl (denotes_num _ k) (leaf hxy)
    (.of_forall fun _ => trivial)) (denotes_num _ c) (.of_forall fun _ => trivial)) hb ?_
  have hp : IsProbabilityMeasure ((uniformLaw x y).map fun x => k * x) :=
    Measure.isProbabilityMeasure_map (by fun_prop)
  rw [map_dirac_prod (g := (· * ·)) (by fun_prop), map_prod_dirac (g := (· + ·)) (by fun_prop),
    Measure.map_map (by fun_prop) (by fun_prop), ← uniformLaw_affine hxy hk]
  rfl

/-- **C105**: sums and differences of normal distributions. -/
theorem C105_norm_sum (hN : ∀ m s, 0 < s → S.primLaw (.normal m s) = some (normalLaw m s)) {a b s t : ℝ}
    (hs : 0 < s) (ht : 0 < t) :
    SameSamples S E (.bin (.op .add) (.leaf (.normal a s) none none) (.leaf (.normal b t) none none))
      (.leaf (.normal (a + b) (Real.sqrt (s ^ 2 + t ^ 2))) none none) ∧
    SameSamples S E (.bin (.op .sub) (.leaf (.normal a s) none none) (.leaf (.normal b t) none none))
      (.leaf (.normal (a - b) (Real.sqrt (s ^ 2 + t ^ 2))) none none) := by
  have hpos : 0 < Real.sqrt (s ^ 2 + t ^ 2) := Real.sqrt_pos.2 (by positivity)
  exact ⟨C105_same_law S hE hU (.bin rfl (denotes_normal (hN _ _ hs)) (denotes_normal (hN _ _ ht))
      (.of_forall fun _ => trivial)) (denotes_normal (hN _ _ hpos)) (normalLaw_add a b s t),
    C105_same_law S hE hU (.bin rfl (denotes_normal (hN _ _ hs)) (denotes_normal (hN _ _ ht))
      (.of_forall fun _ => trivial)) (denotes_normal (hN _ _ hpos)) (normalLaw_sub a b s t)⟩

/-- **C105**: products and quotients of lognormal distributions are lognormal. -/
theorem C105_lognorm_product (hN : ∀ m s, 0 < s → S.primLaw (.lognormal m s) = some (lognormalLaw m s))
    {a b s t : ℝ} (hs : 0 < s) (ht : 0 < t) :
    SameSamples S E (.bin (.op .mul) (.leaf (.lognormal a s) none none) (.leaf (.lognormal b t) none none))
      (.leaf (.lognormal (a + b) (Real.sqrt (s ^ 2 + t ^ 2))) none none) ∧
    SameSamples S E (.bin (.op .truediv) (.leaf (.lognormal a s) none none) (.leaf (.lognormal b t) none none))
      (.leaf (.lognormal (a - b) (Real.sqrt (s ^ 2 + t ^ 2))) none none) := by
  have hpos : 0 < Real.sqrt (s ^ 2 + t ^ 2) := Real.sqrt_pos.2 (by positivity)
  constructor
  · refine C105_same_law S hE hU (.bin rfl (denotes_lognormal (hN _ _ hs)) (denotes_lognormal (hN _ _ ht))
      (.of_forall fun _ => trivial)) (denotes_lognormal (hN _ _ hpos)) ?_
    rw [lognormalLaw_map₂ (g := (· * ·)) (G := (· + ·)) (by fun_prop) (by fun_prop)
      (fun x y => (Real.exp_add x y).symm), normalLaw_add]
    rfl
  · refine C105_same_law S hE hU (.bin rfl (denotes_lognormal (hN _ _ hs)) (denotes_lognormal (hN _ _ ht))
      ?_) (denotes_lognormal (hN _ _ hpos)) ?_
    · exact (Measure.quasiMeasurePreserving_snd.ae (lognormalLaw_pos b t)).mono fun p hp => hp.ne'
    · rw [lognormalLaw_map₂ (g := (· / ·)) (G := (· - ·)) (by fun_prop) (by fun_prop)
        (fun x y => (Real.exp_sub x y).symm), normalLaw_sub]
      rfl

/-- **C105**: multiples and powers of a lognormal distribution are lognormal. -/
theorem C105_lognorm_scale (hN : ∀ m s, 0 < s → S.primLaw (.lognormal m s) = some (lognormalLaw m s))
    {m s c : ℝ} (hs : 0 < s) (hc : 0 < c) :
    SameSamples S E (.bin (.op .mul) (.lit (.flt c)) (.leaf (.lognormal m s) none none))
      (.leaf (.lognormal (m + Real.log c) s) none none) ∧
    SameSamples S E (.bin (.op .pow) (.leaf (.lognormal m s) none none) (.lit (.flt c)))
      (.leaf (.lognormal (c * m) (c * s)) none none) := by
  constructor
  · refine C105_same_law S hE hU (.bin rfl (denotes_num _ c) (denotes_lognormal (hN _ _ hs))
      (.of_forall fun _ => trivial)) (denotes_lognormal (hN _ _ hs)) ?_
    rw [map_dirac_prod (g := (· * ·)) (by fun_prop),
      lognormalLaw_map (G := fun x => 1 * x + Real.log c) (by fun_prop) (by fun_prop) (fun x => by
        rw [Real.exp_add, Real.exp_log hc, one_mul, mul_comm]), normalLaw_affine, one_mul, one_mul]
    rfl
  · refine C105_same_law S hE hU (.bin rfl (denotes_lognormal (hN _ _ hs)) (denotes_num _ c)
      ?_) (denotes_lognormal (hN _ _ (mul_pos hc hs))) ?_
    · rw [Measure.prod_dirac, ae_map_iff (by fun_prop)]
      · exact (lognormalLaw_pos m s).mono fun x hx => Or.inr ⟨hx, hc.le⟩
      · have hset : {p : ℝ × ℝ | opDefined .pow p.1 p.2}
            = Prod.snd ⁻¹' (Set.range fun k : ℕ => (k : ℝ)) ∪ ({p | 0 < p.1} ∩ {p | 0 ≤ p.2}) := by
          ext p
          simp [opDefined, eq_comm]
        rw [hset]
        exact (measurable_snd (Set.countable_range _).measurableSet).union
          ((measurableSet_lt measurable_const measurable_fst).inter
            (measurableSet_le measurable_const measurable_snd))
    · rw [map_prod_dirac (g := (· ^ ·)) (by fun_prop),
        lognormalLaw_map (G := fun x => c * x + 0) (by fun_prop) (by fun_prop) (fun x => by
          rw [← Real.exp_mul, mul_comm, add_zero]), normalLaw_affine, add_zero]
      rfl

/-- **C105**: `invlognorm` is the reciprocal of `lognorm`. -/
theorem C105_reciprocal (hN : ∀ m s, 0 < s → S.primLaw (.lognormal m s) = some (lognormalLaw m s))
    {m s : ℝ} (hs : 0 < s) :
    SameSamples S E (.leaf (.invlognormal m s) none none)
      (.bin (.op .truediv) (.lit (.flt 1)) (.leaf (.lognormal m s) none none)) ∧
    SameSamples S E (.leaf (.invlognormal m s) none none) (.leaf (.lognormal (-m) s) none none) := by
  have e : clamp none none = id := rfl
  have hinv : Denotes S.primLaw (.leaf (.invlognormal m s) none none : Obj (St (ℕ → Ω) ℝ) ℝ)
      ((lognormalLaw m s).map fun x => 1 / x) := by
    have := Denotes.leaf (S := St (ℕ → Ω) ℝ) (L := S.primLaw) (l := .invlognormal m s)
      (μ := (lognormalLaw m s).map fun x => 1 / x) (lc := none) (rc := none) (lo := none) (hi := none)
      (by simp [leafLaw, hN m s hs]) trivial trivial
    rwa [e, Measure.map_id] at this
  constructor
  · refine C105_same_law S hE hU hinv (.bin rfl (denotes_num _ 1) (denotes_lognormal (hN _ _ hs)) ?_) ?_
    · exact (Measure.quasiMeasurePreserving_snd.ae (lognormalLaw_pos m s)).mono fun p hp => hp.ne'
    · rw [map_dirac_prod (g := (· / ·)) (by fun_prop)]
  · refine C105_same_law S hE hU hinv (denotes_lognormal (hN _ _ hs)) ?_
    rw [lognormalLaw_map (G := fun x => -1 * x + 0) (by fun_prop) (by fun_prop) (fun x => by
      rw [one_div, ← Real.exp_neg]; congr 1; ring), normalLaw_affine, add_zero, neg_one_mul, neg_one_mul,
      normalLaw_neg_sd]
    rfl

/-- **C105**: but not `x + x` and `2 * x`: both occurrences of `x` are sampled. -/
theorem C105_not_double (hN : ∀ m s, 0 < s → S.primLaw (.normal m s) = some (normalLaw m s)) {m s : ℝ}
    (hs : 0 < s) :
    ¬ SameSamples S E (.bin (.op .add) (.leaf (.normal m s) none none) (.leaf (.normal m s) none none))
      (.bin (.op .mul) (.lit (.flt 2)) (.leaf (.normal m s) none none)) := by
  have h1 := Denotes.bin (S := St (ℕ → Ω) ℝ) (o := .add) rfl (denotes_normal (hN m s hs)) (denotes_normal (hN m s hs))
    (.of_forall fun _ => trivial)
  have h2 := Denotes.bin (S := St (ℕ → Ω) ℝ) (o := .mul) rfl (denotes_num _ 2) (denotes_normal (hN m s hs))
    (.of_forall fun _ => trivial)
  rw [C105_same_law_iff S hE hU h1 h2, normalLaw_add, map_dirac_prod (g := (· * ·)) (by fun_prop)]
  have e : (fun x : ℝ => 2 * x) = fun x => 2 * x + 0 := by simp
  rw [e, normalLaw_affine, normalLaw, normalLaw, gaussianReal_ext_iff]
  rintro ⟨-, h⟩
  have h' := congrArg NNReal.toReal h
  simp only [NNReal.coe_mk] at h'
  rw [Real.sq_sqrt (by positivity)] at h'
  nlinarith [sq_pos_of_pos hs]

/-- **C105**: `bernoulli(p)` and `mixture([1, 0], [p, 1 - p])`. -/
theorem C105_bernoulli {p : ℝ} (h0 : 0 < p) (h1 : p < 1) :
    SameSamples S E (.leaf (.bernoulli p) none none)
      (.mix 2 ![.lit (.int 1), .lit (.int 0)] [p, 1 - p] none none) := by
  have e : clamp none none = id := rfl
  refine C105_same_law S hE hU
    (.leaf (l := .bernoulli p) (lo := none) (hi := none) (by simp only [leafLaw, hU]; rfl) trivial trivial)
    (.mix (ν := ![Measure.dirac 1, Measure.dirac 0]) rfl (fun i => ?_) (by simpa using ⟨h0, h1⟩) (by simp)
      (lo := none) (hi := none) trivial trivial) ?_
  · fin_cases i
    · exact .lit (Or.inr ⟨1, rfl, by simp⟩)
    · exact .lit (Or.inr ⟨0, rfl, by simp⟩)
  · rw [e, Measure.map_id, Measure.map_id, Fin.sum_univ_two]
    have hm : Measurable fun u : ℝ => if u < p then (1 : ℝ) else 0 :=
      Measurable.ite measurableSet_Iio measurable_const measurable_const
    ext B hB
    rw [Measure.map_apply hm hB]
    have hpre : (fun u : ℝ => if u < p then (1 : ℝ) else 0) ⁻¹' B
        = {u | u < p ∧ (1 : ℝ) ∈ B} ∪ {u | p ≤ u ∧ (0 : ℝ) ∈ B} := by
      ext u
      by_cases h : u < p
      · simp [h, not_le.2 h]
      · simp [h, not_lt.1 h]
    have hmeas : ∀ (q : Prop) (A : Set ℝ), MeasurableSet A → MeasurableSet {u | u ∈ A ∧ q} := fun q A hA =>
      hA.inter (MeasurableSet.const q)
    have hdis : Disjoint {u : ℝ | u < p ∧ (1 : ℝ) ∈ B} {u | p ≤ u ∧ (0 : ℝ) ∈ B} :=
      Set.disjoint_left.2 fun u hu hu' => absurd hu.1 (not_lt.2 hu'.1)
    rw [hpre, measure_union hdis (hmeas _ _ measurableSet_Ici)]
    have ha : (volume.restrict (Set.Ico (0 : ℝ) 1)) {u : ℝ | u < p ∧ (1 : ℝ) ∈ B}
        = ENNReal.ofReal p * B.indicator 1 1 := by
      by_cases h : (1 : ℝ) ∈ B
      · have : {u : ℝ | u < p ∧ (1 : ℝ) ∈ B} ∩ Set.Ico 0 1 = Set.Ico 0 p := by
          ext u
          simp only [h, and_true, Set.mem_inter_iff, Set.mem_ofPred_eq, Set.mem_Ico]
          constructor
          · rintro ⟨a, b, c⟩; exact ⟨b, a⟩
          · rintro ⟨a, b⟩; exact ⟨b, a, by linarith⟩
        rw [Measure.restrict_apply (show MeasurableSet {u : ℝ | u < p ∧ (1 : ℝ) ∈ B} from
          hmeas _ _ measurableSet_Iio), this, Real.volume_Ico, sub_zero]
        simp [h]
      · simp [h]
    have hb : (volume.restrict (Set.Ico (0 : ℝ) 1)) {u : ℝ | p ≤ u ∧ (0 : ℝ) ∈ B}
        = ENNReal.ofReal (1 - p) * B.indicator 1 0 := by
      by_cases h : (0 : ℝ) ∈ B
      · have : {u : ℝ | p ≤ u ∧ (0 : ℝ) ∈ B} ∩ Set.Ico 0 1 = Set.Ico p 1 := by
          ext u
          simp only [h, and_true, Set.mem_inter_iff, Set.mem_ofPred_eq, Set.mem_Ico]
          constructor
          · rintro ⟨a, b, c⟩; exact ⟨a, c⟩
          · rintro ⟨a, b⟩; exact ⟨a, by linarith, b⟩
        rw [Measure.restrict_apply (show MeasurableSet {u : ℝ | p ≤ u ∧ (0 : ℝ) ∈ B} from
          hmeas _ _ measurableSet_Ici), this, Real.volume_Ico]
        simp [h]
      · simp [h]
    rw [ha, hb]
    simp [Measure.dirac_apply' _ hB]

/-- **C105**: `discrete({v1: w1, …})` and `mixture([v1, …], [w1, …])`. -/
theorem C105_discrete {vs : List (Scalar ℝ)} {rs ws : List ℝ} (hvs : List.Forall₂ IsReal vs rs)
    (hlen : ws.length = vs.length) (hpos : ∀ w ∈ ws, 0 < w) (hsum : ws.sum = 1) :
    SameSamples S E (.leaf (.categorical (.dict ((vs.zip ws).map fun p => (p.1, some p.2)))) none none)
      (.mix vs.length (fun i => .lit vs[i]) ws none none) := by
  have e : clamp none none = id := rfl
  have hr := hvs.length_eq
  refine C105_same_law S hE hU
    (.table (Or.inl rfl) hlen hvs hpos hsum (lo := none) (hi := none) trivial trivial)
    (.mix (ν := fun i => Measure.dirac (rs[i.1]'(by omega))) hlen (fun i => .lit ?_) hpos hsum
      (lo := none) (hi := none) trivial trivial) ?_
  · exact hvs.get i.2 (by omega)
  · rw [e, Measure.map_id, Measure.map_id]
    have hz : ((ws.zip rs).map fun p => ENNReal.ofReal p.1 • Measure.dirac p.2)
        = List.ofFn fun i : Fin vs.length =>
          ENNReal.ofReal (ws[i.1]'(by omega)) • Measure.dirac (rs[i.1]'(by omega)) := by
      refine List.ext_getElem (by simp [hlen, hr]) fun i h1 h2 => ?_
      simp
    rw [hz, List.sum_ofFn]

/-- **C105**: `zero_inflated(p, zero_inflated(q, d))` and `zero_inflated(p + (1 - p) * q, d)`. -/
theorem C105_zero_inflated_twice {d : Obj (St (ℕ → Ω) ℝ) ℝ} {μ : Measure ℝ} (hd : Denotes S.primLaw d μ) {p q : ℝ}
    (hp0 : 0 ≤ p) (hp1 : p ≤ 1) (hq0 : 0 ≤ q) (hq1 : q ≤ 1) :
    ∃ a b c, zeroInflatedObj (.num q) d = .ok a ∧ zeroInflatedObj (.num p) a = .ok b ∧
      zeroInflatedObj (.num (p + (1 - p) * q)) d = .ok c ∧ SameSamples S E b c := by
  obtain ⟨a, α, ha, hα, hA⟩ := denotes_zeroInflated S hd hq0 hq1
  obtain ⟨b, β, hb, hβ, hB⟩ := denotes_zeroInflated S hα hp0 hp1
  have h0 : 0 ≤ p + (1 - p) * q := by nlinarith
  have h1 : p + (1 - p) * q ≤ 1 := by nlinarith
  obtain ⟨c, γ, hc, hγ, hC⟩ := denotes_zeroInflated S hd h0 h1
  refine ⟨a, b, c, ha, hb, hc, C105_same_law S hE hU hβ hγ ?_⟩
  ext s hs
  rw [hB s hs, hA s hs, hC s hs, mul_add, ← mul_assoc, ← mul_assoc, ← ENNReal.ofReal_mul (by linarith),
    ← ENNReal.ofReal_mul (by linarith), ← add_assoc, ← add_mul, ← ENNReal.ofReal_add hp0 (by nlinarith)]
  congr 3
  ring

end

/-- `norm(mean=1, sd=2) * 3 + 4`, and `norm(mean=7, sd=6)`. -/
example : SameSamples demoSource idealEnv
    (.bin (.op .add) (.bin (.op .mul) (.lit (.flt 3)) (.leaf (.normal 1 2) none none)) (.lit (.flt 4)))
    (.leaf (.normal 7 6) none none) := by
  have h := C105_norm_affine demoSource idealEnv_driven demoSource_uniform
    (fun m s hs => demoSource_normal m hs.le) (m := 1) (s := 2) (by norm_num) (k := 3) (by norm_num) 4
  norm_num at h
  exact h

example : SameSamples demoSource idealEnv
    (.bin (.op .mul) (.leaf (.lognormal 1 3) none none) (.leaf (.lognormal 2 4) none none))
    (.leaf (.lognormal 3 5) none none) := by
  have h := (C105_lognorm_product demoSource idealEnv_driven demoSource_uniform
    (fun m s hs => demoSource_lognormal m hs.le) (a := 1) (b := 2) (s := 3) (t := 4) (by norm_num) (by norm_num)).1
  have e : Real.sqrt (3 ^ 2 + 4 ^ 2) = 5 := by
    rw [show (3 : ℝ) ^ 2 + 4 ^ 2 = 5 ^ 2 by norm_num, Real.sqrt_sq (by norm_num)]
  rw [e] at h
  norm_num at h
  exact h

/-- `-2 * uniform(1, 3) + 10`, and `uniform(4, 8)`. -/
example : SameSamples demoSource idealEnv
    (.bin (.op .add) (.bin (.op .mul) (.lit (.flt (-2))) (.leaf (.uniform 1 3) none none)) (.lit (.flt 10)))
    (.leaf (.uniform 4 8) none none) := by
  have h := C105_uniform_affine demoSource idealEnv_driven demoSource_uniform
    (fun _ _ => demoSource_uniform_between) (x := 1) (y := 3) (by norm_num) (k := -2) (by norm_num) 10
  norm_num at h
  exact h

/-- `norm(0, 1) + norm(0, 1)` with the same object twice, and `2 * norm(0, 1)`. -/
example : ¬ SameSamples demoSource idealEnv
    (.bin (.op .add) (.leaf (.normal 0 1) none none) (.leaf (.normal 0 1) none none))
    (.bin (.op .mul) (.lit (.flt 2)) (.leaf (.normal 0 1) none none)) :=
  C105_not_double demoSource idealEnv_driven demoSource_uniform (fun m s hs => demoSource_normal m hs.le) one_pos

/-- `discrete({1: 0.5, 10: 0.5})`, and `mixture([1, 10], [0.5, 0.5])`. -/
example : SameSamples demoSource idealEnv
    (.leaf (.categorical (.dict [(.int 1, some (1 / 2)), (.flt 10, some (1 / 2))])) none none)
    (.mix 2 (fun i => .lit [Scalar.int 1, .flt 10][i]) [1 / 2, 1 / 2] none none) :=
  C105_discrete demoSource idealEnv_driven demoSource_uniform (vs := [.int 1, .flt 10]) (rs := [1, 10])
    (ws := [1 / 2, 1 / 2]) (.cons (Or.inr ⟨1, rfl, by simp⟩) (.cons (Or.inl rfl) .nil)) rfl
    (by simp) (by norm_num)

/-- `(norm(1, 2) + uniform(0, 1)) + 3`, regrouped; `zero_inflated` twice around it. -/
example : SameSamples demoSource idealEnv
    (.bin (.op .add) (.bin (.op .add) (.leaf (.normal 1 2) none none) (.leaf (.lognormal 0 1) none none))
      (.lit (.flt 3)))
    (.bin (.op .add) (.leaf (.normal 1 2) none none)
      (.bin (.op .add) (.leaf (.lognormal 0 1) none none) (.lit (.flt 3)))) :=
  C105_associate demoSource idealEnv_driven demoSource_uniform (Or.inl rfl)
    (denotes_normal (demoSource_normal 1 (by norm_num))) (denotes_lognormal (demoSource_lognormal 0 (by norm_num)))
    (denotes_num _ 3)

example : ∃ a b c, zeroInflatedObj (.num (1 / 2)) (.leaf (.normal 1 2) none none) = .ok a ∧
    zeroInflatedObj (.num (1 / 2)) a = .ok b ∧
    zeroInflatedObj (.num (1 / 2 + (1 - 1 / 2) * (1 / 2))) (.leaf (.normal 1 2) none none) = .ok c ∧
    SameSamples demoSource idealEnv b c :=
  C105_zero_inflated_twice demoSource idealEnv_driven demoSource_uniform
    (denotes_normal (demoSource_normal 1 (by norm_num))) (by norm_num) (by norm_num) (by norm_num) (by norm_num)

/-- `mixture([norm(0, 1), 5], [0.3, 0.7]) + lognorm(0, 1)`, and the mixture of the two sums. -/
example := C105_mixture_distributes demoSource idealEnv_driven demoSource_uniform (o := .add) (Or.inl rfl)
    (k := 2) (ds := ![.leaf (.normal 0 1) none none, .lit (.flt 5)])
    (ν := ![normalLaw 0 1, Measure.dirac 5]) (ws := [3 / 10, 7 / 10]) rfl
    (fun i => by
      fin_cases i
      · exact denotes_normal (demoSource_normal 0 (by norm_num))
      · exact denotes_num _ 5)
    (by simp) (by norm_num) (denotes_lognormal (demoSource_lognormal 0 (s := 1) one_pos.le))

end Verif
