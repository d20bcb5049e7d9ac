import Verif.Model.SpecialSample
import Verif.Props.Special
import Verif.Props.ClipFn

/-!
# C133: the sampler with infinities and `nan`

How `Model/SpecialSample.lean` relates to the main model of `sample`, and to the theorems of `Props/Special.lean`.
-/

namespace Verif

open Spec

variable {σ K : Type} [Field K] [LinearOrder K] [FloorRing K] [IsStrictOrderedRing K]

/-- The same numbers. -/
def SameValues (z : Samples K) (xs : List (XVal K)) : Prop :=
  List.Forall₂ (fun v x => ∃ y, v = .flt y ∧ x.val? = some y) z.toList xs

omit [IsStrictOrderedRing K] in
theorem floats_of_allFlt {z : Samples K} (h : AllFlt z) :
    ∃ ys, floats z = .ok ys ∧ z.toList = ys.map .flt := by
  unfold floats AllFlt at *
  generalize z.toList = l at *
  induction l with
  | nil => exact ⟨[], rfl, rfl⟩
  | cons v l ih =>
    obtain ⟨x, rfl⟩ := h v (by simp)
    obtain ⟨ys, h1, h2⟩ := ih fun w hw => h w (by simp [hw])
    refine ⟨x :: ys, ?_, by simp [h2]⟩
    simp only [mapExcept, h1]
    rfl

omit [IsStrictOrderedRing K] in
theorem floats_ok {z : Samples K} {ys : List K} (h : floats z = .ok ys) : z.toList = ys.map .flt := by
  unfold floats at h
  have := mapExcept_ok.1 h
  clear h
  generalize z.toList = l at *
  induction this with
  | nil => rfl
  | @cons a b l ys h1 _ ih =>
    rw [ih, List.map_cons]
    cases a <;> cases h1
    rfl

theorem pyBin_flt {powf : K → K → Option K} {o : XOp} {p q : K} {v : Scalar K} {a b : XVal K}
    (ha : a.val? = some p) (hb : b.val? = some q)
    (h : pyBin powf (XOp.toBinOp o) (.flt p) (.flt q) = .ok v) :
    ∃ y, v = .flt y ∧ (XVal.op o a b).val? = some y := by
  cases o with
  | add => cases h; exact ⟨_, rfl, XVal.val_add ha hb⟩
  | sub => cases h; exact ⟨_, rfl, XVal.val_sub ha hb⟩
  | mul => cases h; exact ⟨_, rfl, XVal.val_mul ha hb⟩
  | max => cases h; exact ⟨_, rfl, XVal.val_max ha hb⟩
  | min => cases h; exact ⟨_, rfl, XVal.val_min ha hb⟩
  | div =>
    have h' : (if q = 0 then .error PyErr.zeroDivisionError else .ok (.flt (p / q))) = Except.ok v := h
    by_cases h0 : q = 0
    · rw [if_pos h0] at h'; cases h'
    · rw [if_neg h0] at h'; cases h'
      exact ⟨_, rfl, XVal.val_div ha hb h0⟩

theorem npBin_flt {powf : K → K → Option K} {o : XOp} {p q : K} {v : Scalar K} {a b : XVal K}
    (ha : a.val? = some p) (hb : b.val? = some q)
    (h : npBin powf (XOp.toBinOp o) (.flt p) (.flt q) = .ok v) :
    ∃ y, v = .flt y ∧ (XVal.op o a b).val? = some y := by
  cases o with
  | add => exact pyBin_flt (powf := powf) ha hb h
  | sub => exact pyBin_flt (powf := powf) ha hb h
  | mul => exact pyBin_flt (powf := powf) ha hb h
  | max => exact pyBin_flt (powf := powf) ha hb h
  | min => exact pyBin_flt (powf := powf) ha hb h
  | div =>
    have h' : (if q = 0 then .error PyErr.unmodelled else pyBin powf (XOp.toBinOp .div) (.flt p) (.flt q)) =
      Except.ok v := h
    by_cases h0 : q = 0
    · rw [if_pos h0] at h'; cases h'
    · rw [if_neg h0] at h'
      exact pyBin_flt ha hb h'

theorem binSamples_same {powf : K → K → Option K} {o : XOp} {n : ℕ} {x y z : Samples K}
    {xs ys : List (XVal K)} (hx : Shape n x) (hy : Shape n y)
    (h : binSamples powf (XOp.toBinOp o) x y = .ok z) (h1 : SameValues x xs) (h2 : SameValues y ys) :
    SameValues z (List.zipWith (XVal.op o) xs ys) := by
  unfold SameValues at *
  match x, y, hx, hy with
  | .scalar a, .scalar b, hx, _ =>
    simp only [binSamples, Except.bind_ok_iff] at h
    obtain ⟨c, h3, h⟩ := h
    cases h
    cases h1 with
    | cons m1 t1 =>
      cases t1
      cases h2 with
      | cons m2 t2 =>
        cases t2
        obtain ⟨p, rfl, hp⟩ := m1
        obtain ⟨q, rfl, hq⟩ := m2
        exact .cons (pyBin_flt hp hq h3) .nil
  | .scalar a, .arr b, hx, hy => exact absurd hx hy.1
  | .arr a, .scalar b, hx, hy => exact absurd hy hx.1
  | .arr a, .arr b, hx, hy =>
    simp only [binSamples, Samples.toList, Except.bind_ok_iff] at h
    obtain ⟨ps, h3, rs, h4, h⟩ := h
    cases h
    rw [broadcast_eq (hx.2.trans hy.2.symm)] at h3
    cases h3
    have h5 := mapExcept_ok.1 h4
    simp only [Samples.toList] at h1 h2 ⊢
    clear hx hy h4
    induction h1 generalizing b ys rs with
    | nil => cases h5; exact .nil
    | cons m1 t1 ih =>
      cases h2 with
      | nil => cases h5; exact .nil
      | cons m2 t2 =>
        cases h5 with
        | cons m3 t3 =>
          obtain ⟨p, rfl, hp⟩ := m1
          obtain ⟨q, rfl, hq⟩ := m2
          exact .cons (npBin_flt hp hq m3) (ih _ t2 _ t3)

omit [IsStrictOrderedRing K] in
theorem unNeg_same {E : Env σ K} {x z : Samples K} {xs : List (XVal K)}
    (h : unSamples E .neg x = .ok z) (h1 : SameValues x xs) : SameValues z (xs.map XVal.neg) := by
  unfold SameValues at *
  simp only [unSamples] at h
  cases x with
  | scalar v =>
    simp only [Except.bind_ok_iff] at h
    obtain ⟨c, h3, h⟩ := h
    cases h
    cases h1 with
    | cons m1 t1 =>
      cases t1
      obtain ⟨p, rfl, hp⟩ := m1
      cases h3
      exact .cons ⟨_, rfl, XVal.val_neg hp⟩ .nil
  | arr vs =>
    simp only [Except.bind_ok_iff] at h
    obtain ⟨c, h3, h⟩ := h
    cases h
    have h5 := mapExcept_ok.1 h3
    simp only [Samples.toList] at h1 ⊢
    clear h3
    induction h1 generalizing c with
    | nil => cases h5; exact .nil
    | cons m1 t1 ih =>
      cases h5 with
      | cons m3 t3 =>
        obtain ⟨p, rfl, hp⟩ := m1
        cases m3
        exact .cons ⟨_, rfl, XVal.val_neg hp⟩ (ih _ t3)

omit [LinearOrder K] [FloorRing K] [IsStrictOrderedRing K] in
theorem sameValues_allFlt {z : Samples K} {xs : List (XVal K)} (h : SameValues z xs) : AllFlt z := by
  intro v hv
  unfold SameValues at h
  generalize z.toList = l at *
  induction h with
  | nil => cases hv
  | cons m _ ih =>
    rcases List.mem_cons.1 hv with rfl | hv
    · obtain ⟨y, rfl, -⟩ := m; exact ⟨y, rfl⟩
    · exact ih hv

omit [LinearOrder K] [FloorRing K] [IsStrictOrderedRing K] in
theorem clip_same {x z : Samples K} {xs : List (XVal K)} {c : K} {g : K → K → K} {G : XVal K → K → XVal K}
    (hG : ∀ (a : XVal K) (p : K), a.val? = some p → (G a c).val? = some (g p c))
    (h1 : SameValues x xs) (hz : AllFlt z)
    (h : List.Forall₂ (fun a v => ∃ p y, a.val? = some p ∧ (Scalar.flt c).val? = some y ∧
      v.val? = some (g p y)) x.toList z.toList) : SameValues z (xs.map (G · c)) := by
  unfold SameValues AllFlt at *
  generalize z.toList = l at *
  generalize x.toList = k at *
  induction h1 generalizing l with
  | nil => cases h; exact .nil
  | cons m1 t1 ih =>
    cases h with
    | cons m2 t2 =>
      refine .cons ?_ (ih _ (fun v hv => hz v (by simp [hv])) t2)
      obtain ⟨p, rfl, hp⟩ := m1
      obtain ⟨p', y, e1, e2, e3⟩ := m2
      cases e1
      cases e2
      obtain ⟨w, rfl⟩ := hz _ List.mem_cons_self
      cases e3
      exact ⟨_, rfl, hG _ _ hp⟩

/-- **C133.** Where the main model of `sample` returns samples – there it leaves divisions by zero out – this
one returns the same numbers and leaves the same state.  (The distributions return floats.) -/
theorem C133_extends (E : Env σ K) (hE : E.gen.Lawful) (ds : ℕ → Obj (St σ K) K) (hd : ∀ k, (ds k).Regular)
    (n : ℕ) (hf : ∀ k s s' z, sampleObj E (ds k) n none none s = (.ok z, s') → AllFlt z)
    (e : XExpr K) (s s' : St σ K) (z : Samples K)
    (h : sampleObj E (toObj ds e) n none none s = (.ok z, s')) :
    ∃ xs, sampleX E ds n e s = (.ok xs, s') ∧ SameValues z xs := by
  have hreg : ∀ e : XExpr K, (toObj ds e).Regular := by
    intro e
    induction e with
    | src k => exact hd k
    | num x => trivial
    | neg e ih => exact ih
    | bin o a b iha ihb => exact ⟨iha, ihb⟩
    | lclip e c ih => exact ⟨ih, trivial⟩
    | rclip e c ih => exact ⟨ih, trivial⟩
  induction e generalizing s s' z with
  | src k =>
    have h' : sampleObj E (ds k) n none none s = (.ok z, s') := h
    obtain ⟨ys, h1, h2⟩ := floats_of_allFlt (hf k s s' z h')
    refine ⟨ys.map .fin, ?_, ?_⟩
    · simp only [sampleX, SM.bind_ok, SM.lift_ok, Except.bind_ok_iff]
      exact ⟨z, s', h', ⟨ys, h1, rfl⟩, rfl⟩
    · unfold SameValues
      rw [h2]
      clear h1 h2
      induction ys with
      | nil => exact .nil
      | cons y ys ih => exact .cons ⟨y, rfl, rfl⟩ ih
  | num x =>
    obtain ⟨-, l', r', w, h1, h2, h3, h4⟩ := withClips_ok.1 h
    cases h1
    cases h2
    cases h4
    obtain ⟨rfl, rfl⟩ := SM.pure_ok.1 h3
    refine ⟨_, rfl, ?_⟩
    unfold SameValues
    have : (constSamples (.flt x) n : Samples K).toList = List.replicate n (.flt x) := by
      unfold constSamples
      match n with
      | 0 => rfl
      | 1 => rfl
      | n + 2 => simp [Samples.simplify, Samples.toList, List.replicate_succ]
    rw [this]
    generalize n = m
    induction m with
    | zero => exact .nil
    | succ m ih => exact .cons ⟨x, rfl, rfl⟩ ih
  | neg e ih =>
    replace h : sampleObj E (.un .neg (toObj ds e)) n none none s = (.ok z, s') := h
    obtain ⟨hn, l', r', w, h1, h2, h3, h4⟩ := withClips_ok.1 h
    cases h1
    cases h2
    simp only [rawObj, SM.bind_ok, SM.lift_ok] at h3
    obtain ⟨x, s1, h5, h7, rfl⟩ := h3
    cases h4
    obtain ⟨xs, k1, k2⟩ := ih _ _ _ h5
    refine ⟨xs.map XVal.neg, ?_, unNeg_same h7 k2⟩
    exact SM.bind_ok.2 ⟨xs, _, k1, rfl⟩
  | bin o a b iha ihb =>
    replace h : sampleObj E (.bin (.op (XOp.toBinOp o)) (toObj ds a) (toObj ds b)) n none none s = (.ok z, s') := h
    obtain ⟨hn, l', r', w, h1, h2, h3, h4⟩ := withClips_ok.1 h
    cases h1
    cases h2
    simp only [rawObj, SM.bind_ok, SM.lift_ok] at h3
    obtain ⟨x, s1, h5, y, s2, h6, h7, rfl⟩ := h3
    cases h4
    obtain ⟨xs, k1, k2⟩ := iha _ _ _ h5
    obtain ⟨ys, k3, k4⟩ := ihb _ _ _ h6
    refine ⟨List.zipWith (XVal.op o) xs ys, ?_, binSamples_same
      (C11_count_partial E hE _ (hreg a) _ _ _ _ _ _ h5).2 (C11_count_partial E hE _ (hreg b) _ _ _ _ _ _ h6).2
      h7 k2 k4⟩
    exact SM.bind_ok.2 ⟨xs, _, k1, SM.bind_ok.2 ⟨ys, _, k3, rfl⟩⟩
  | lclip e c ih =>
    obtain ⟨hn, x, h1, h2⟩ := clipFn_sample (Or.inl rfl) h
    obtain ⟨xs, k1, k2⟩ := ih _ _ _ h1
    have ha := sameValues_allFlt k2
    obtain ⟨v1, f1, -⟩ := clipFn_values lclipElem_spec (C11_count_partial E hE _ (hreg e) _ _ _ _ _ _ h1).2 hn
      (Or.inr (Or.inl ⟨ha, c, rfl⟩)) h2
    refine ⟨xs.map (XVal.lclip · c), ?_, clip_same (fun a p hp => XVal.val_lclip hp c) k2
      (f1 ⟨ha, c, rfl⟩) v1⟩
    exact SM.bind_ok.2 ⟨xs, _, k1, rfl⟩
  | rclip e c ih =>
    obtain ⟨hn, x, h1, h2⟩ := clipFn_sample (Or.inr rfl) h
    have h2' : vectorize2 rclipElem x (constSamples (.flt c) n) = .ok z := h2
    obtain ⟨xs, k1, k2⟩ := ih _ _ _ h1
    have ha := sameValues_allFlt k2
    obtain ⟨v1, f1, -⟩ := clipFn_values rclipElem_spec (C11_count_partial E hE _ (hreg e) _ _ _ _ _ _ h1).2 hn
      (Or.inr (Or.inl ⟨ha, c, rfl⟩)) h2'
    refine ⟨xs.map (XVal.rclip · c), ?_, clip_same (fun a p hp => XVal.val_rclip hp c) k2
      (f1 ⟨ha, c, rfl⟩) v1⟩
    exact SM.bind_ok.2 ⟨xs, _, k1, rfl⟩

omit [IsStrictOrderedRing K] in
theorem evalMany_congr {n : ℕ} {f f' : ℕ → List K} {e : XExpr K} (h : ∀ k ∈ sources e, f k = f' k) :
    evalMany n f e = evalMany n f' e := by
  induction e with
  | src k => simp [evalMany, h k (by simp [sources])]
  | num x => rfl
  | neg e ih => simp only [evalMany, ih h]
  | lclip e c ih => simp only [evalMany, ih h]
  | rclip e c ih => simp only [evalMany, ih h]
  | bin o a b iha ihb =>
    simp only [sources, List.mem_append] at h
    simp only [evalMany, iha fun k hk => h k (.inl hk), ihb fun k hk => h k (.inr hk)]

omit [IsStrictOrderedRing K] in
/-- **C133.** A run of the sampler, with every place of the expression at which a distribution stands numbered
differently: the samples are those of `evalMany` on draws that were sampled from those distributions. -/
theorem C133_draws (E : Env σ K) (ds : ℕ → Obj (St σ K) K) (n : ℕ) (e : XExpr K) (he : (sources e).Nodup)
    (s s' : St σ K) (xs : List (XVal K)) (h : sampleX E ds n e s = (.ok xs, s')) :
    ∃ f : ℕ → List K, xs = evalMany n f e ∧
      ∀ k ∈ sources e, ∃ t t' z, sampleObj E (ds k) n none none t = (.ok z, t') ∧ z.toList = (f k).map .flt := by
  induction e generalizing s s' xs with
  | src k =>
    obtain ⟨z, s1, h1, h2⟩ := SM.bind_ok.1 h
    simp only [SM.lift_ok, Except.bind_ok_iff] at h2
    obtain ⟨⟨ys, h3, h4⟩, rfl⟩ := h2
    cases h4
    refine ⟨fun _ => ys, rfl, ?_⟩
    intro j hj
    cases List.mem_singleton.1 hj
    exact ⟨s, s1, z, h1, floats_ok h3⟩
  | num x => cases h; exact ⟨fun _ => [], rfl, by simp [sources]⟩
  | neg e ih =>
    obtain ⟨ys, s1, h1, h2⟩ := SM.bind_ok.1 h
    obtain ⟨f, rfl, hf⟩ := ih he _ _ _ h1
    cases h2
    exact ⟨f, rfl, hf⟩
  | lclip e c ih =>
    obtain ⟨ys, s1, h1, h2⟩ := SM.bind_ok.1 h
    obtain ⟨f, rfl, hf⟩ := ih he _ _ _ h1
    cases h2
    exact ⟨f, rfl, hf⟩
  | rclip e c ih =>
    obtain ⟨ys, s1, h1, h2⟩ := SM.bind_ok.1 h
    obtain ⟨f, rfl, hf⟩ := ih he _ _ _ h1
    cases h2
    exact ⟨f, rfl, hf⟩
  | bin o a b iha ihb =>
    obtain ⟨ys, s1, h1, h2⟩ := SM.bind_ok.1 h
    obtain ⟨zs, s2, h3, h4⟩ := SM.bind_ok.1 h2
    cases h4
    have he' := List.nodup_append.1 he
    obtain ⟨f, rfl, hf⟩ := iha he'.1 _ _ _ h1
    obtain ⟨f', rfl, hf'⟩ := ihb he'.2.1 _ _ _ h3
    have hda : ∀ k ∈ sources a, (if k ∈ sources a then f k else f' k) = f k := fun k hk => if_pos hk
    have hdb : ∀ k ∈ sources b, (if k ∈ sources a then f k else f' k) = f' k :=
      fun k hk => if_neg fun hk' => he'.2.2 k hk' k hk rfl
    refine ⟨fun k => if k ∈ sources a then f k else f' k, ?_, ?_⟩
    · simp only [evalMany]
      rw [evalMany_congr hda, evalMany_congr hdb]
    · intro k hk
      rcases List.mem_append.1 hk with hk | hk
      · obtain ⟨t, t', z, m1, m2⟩ := hf k hk
        exact ⟨t, t', z, m1, by rw [m2]; exact congrArg _ (hda k hk).symm⟩
      · obtain ⟨t, t', z, m1, m2⟩ := hf' k hk
        exact ⟨t, t', z, m1, by rw [m2]; exact congrArg _ (hdb k hk).symm⟩

/-! ### The hypotheses are met -/

/-- `1 / uniform(-1, 4)` and `uniform(-1, 4) / uniform(-1, 4)`: the run has a value in both models. -/
example :
    (sampleObj demoEnv (toObj (fun _ => .leaf (.uniform (-1) 4) none none)
      (.bin .div (.num 1) (.src 0))) 3 none none (demoSt 0)).1 = .ok (.arr [.flt (-1), .flt 2, .flt (1 / 2)]) ∧
    (sampleX demoEnv (fun _ => .leaf (.uniform (-1) 4) none none) 3
      (.bin .div (.num 1) (.src 0)) (demoSt 0)).1 = .ok [.fin (-1), .fin 2, .fin (1 / 2)] := by
  constructor <;> decide +kernel

/-- A draw of zero: only the extended model has samples. -/
example :
    (sampleObj demoEnv (toObj (fun _ => .leaf (.const (.flt 0)) none none)
      (.bin .div (.num 1) (.src 0))) 2 none none (demoSt 0)).1 = .error .unmodelled ∧
    (sampleX demoEnv (fun _ => .leaf (.const (.flt 0)) none none) 2
      (.bin .div (.num 1) (.src 0)) (demoSt 0)).1 = .ok [.pinf, .pinf] := by
  constructor <;> decide +kernel

end Verif
