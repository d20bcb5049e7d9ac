import Verif.Props.Arith

/-! # C16: `lclip(d, v)`, `rclip(d, v)`, `clip(d, l, r)` -/

namespace Verif

variable {σ K : Type} [Field K] [LinearOrder K] [FloorRing K] [IsStrictOrderedRing K]

/-- All values are floats. -/
def AllFlt (s : Samples K) : Prop := ∀ v ∈ s.toList, ∃ x, v = .flt x

/-- All values are integers. -/
def AllInt (s : Samples K) : Prop := ∀ v ∈ s.toList, ∃ z, v = .int z

/-- Integer or float bound. -/
def Scalar.IsFlt (v : Scalar K) : Prop := ∃ x, v = .flt x
/-- Integer bound. -/
def Scalar.IsInt (v : Scalar K) : Prop := ∃ z, v = .int z

theorem lclipElem_ok {a b c : Scalar K} (hb : b ≠ .none) (h : lclipElem a b = .ok c) :
    ∃ x y, a.val? = some x ∧ b.val? = some y ∧ c = (if x < y then b else a) := by
  unfold lclipElem at h
  split at h
  · exact absurd rfl hb
  · simp only [Except.bind_ok_iff] at h
    obtain ⟨t, h1, h2⟩ := h
    obtain ⟨x, y, hx, hy, rfl⟩ := Scalar.lt_ok.1 h1
    cases h2
    exact ⟨x, y, hx, hy, by simp⟩

theorem rclipElem_ok {a b c : Scalar K} (hb : b ≠ .none) (h : rclipElem a b = .ok c) :
    ∃ x y, a.val? = some x ∧ b.val? = some y ∧ c = (if y < x then b else a) := by
  unfold rclipElem at h
  split at h
  · exact absurd rfl hb
  · simp only [Except.bind_ok_iff] at h
    obtain ⟨t, h1, h2⟩ := h
    obtain ⟨x, y, hx, hy, rfl⟩ := Scalar.lt_ok.1 h1
    cases h2
    exact ⟨y, x, hy, hx, by simp⟩

theorem constSamples_toList (v : Scalar K) (n : ℕ) :
    (constSamples v n).toList = List.replicate n v := toList_simplify _

theorem zip_replicate_right {α β : Type} (xs : List α) (b : β) (n : ℕ) (h : xs.length = n) :
    xs.zip (List.replicate n b) = xs.map fun a => (a, b) := by
  induction xs generalizing n with
  | nil => simp
  | cons a xs ih =>
    cases n with
    | zero => simp at h
    | succ n => simp only [List.replicate_succ, List.zip_cons_cons, List.map_cons]
                rw [ih n (by simpa using h)]

/-- What a vectorised two-argument function with a constant second argument returns. -/
theorem vectorize2_const {f : Scalar K → Scalar K → Except PyErr (Scalar K)} {n : ℕ}
    {x z : Samples K} {b : Scalar K} (hx : Shape n x) (hn : n ≠ 0)
    (h : vectorize2 f x (constSamples b n) = .ok z) :
    ∃ rs, List.Forall₂ (fun a r => f a b = .ok r) x.toList rs ∧
      ((n = 1 ∧ z.toList = rs) ∨
       (n ≠ 1 ∧ ∃ r0, rs[0]? = some r0 ∧ List.Forall₂ (fun r v => vecCast r0.dt r = .ok v) rs z.toList)) := by
  have hy := constSamples_shape b n
  have hyl := constSamples_toList b n
  cases x with
  | scalar a =>
    have hx1 : n = 1 := hx
    subst hx1
    have : constSamples b 1 = .scalar b := rfl
    rw [this] at h
    simp only [vectorize2, Except.bind_ok_iff] at h
    obtain ⟨c, h1, h⟩ := h
    cases h
    exact ⟨[c], .cons h1 .nil, Or.inl ⟨rfl, rfl⟩⟩
  | arr xs =>
    cases hc : constSamples b n with
    | scalar w => rw [hc] at hy; exact absurd hy hx.1
    | arr ys =>
      rw [hc] at h hyl
      simp only [Samples.toList] at hyl
      subst hyl
      simp only [vectorize2, Samples.toList, Except.bind_ok_iff] at h
      obtain ⟨ps, h1, rs, h2, h⟩ := h
      rw [broadcast_eq (by simp [hx.2]), zip_replicate_right _ _ _ hx.2] at h1
      cases h1
      rw [mapExcept_ok, List.forall₂_map_left_iff] at h2
      refine ⟨rs, h2, Or.inr ⟨hx.1, ?_⟩⟩
      cases rs with
      | nil => cases h
      | cons r rs =>
        simp only [Except.bind_ok_iff] at h
        obtain ⟨out, h3, h⟩ := h
        cases h
        exact ⟨r, rfl, mapExcept_ok.1 h3⟩

theorem vecCast_flt {r v : Scalar K} (h : vecCast .flt r = .ok v) :
    v.IsFlt ∧ v.val? = r.val? := by
  unfold vecCast at h
  simp only at h
  split at h
  · rename_i x hx
    cases h
    exact ⟨⟨_, rfl⟩, (val?_of_num? hx).symm⟩
  · cases h

theorem vecCast_int {r v : Scalar K} (hr : r.IsInt) (h : vecCast .int r = .ok v) : v = r := by
  obtain ⟨z, rfl⟩ := hr
  cases h; rfl

/-- The samples of `lclip(d, v)` / `rclip(d, v)` in terms of the samples of `d`. -/
theorem clipFn_sample {E : Env σ K} {f : BinFn} (hf : f = .lclip ∨ f = .rclip)
    {d : Obj (St σ K) K} {b : Scalar K} {n : ℕ} {s s' : St σ K} {z : Samples K}
    (h : sampleObj E (.bin f d (.lit b)) n none none s = (.ok z, s')) :
    n ≠ 0 ∧ ∃ x, sampleObj E d n none none s = (.ok x, s') ∧
      vectorize2 (if f = .lclip then lclipElem else rclipElem) x (constSamples b n) = .ok z := by
  obtain ⟨hn, l', r', w, h1, h2, h3, h4⟩ := withClips_ok.1 h
  cases h1
  cases h2
  simp only [rawObj, SM.bind_ok, SM.lift_ok] at h3
  obtain ⟨x, s1, h5, y, s2, h6, h7, rfl⟩ := h3
  cases h4
  obtain ⟨-, l', r', w, h1, h2, h3, h4⟩ := withClips_ok.1 h6
  cases h1
  cases h2
  cases h4
  obtain ⟨rfl, rfl⟩ := SM.pure_ok.1 h3
  refine ⟨hn, x, h5, ?_⟩
  rcases hf with rfl | rfl
  · exact h7
  · exact h7

/-- Elementwise result in the cases where no conversion is lost. -/
theorem clipFn_values {f : Scalar K → Scalar K → Except PyErr (Scalar K)} {g : K → K → K}
    (hf : ∀ a c b : Scalar K, b ≠ .none → f a b = .ok c →
      ∃ x y, a.val? = some x ∧ b.val? = some y ∧ (c = a ∨ c = b) ∧ c.val? = some (g x y))
    {n : ℕ} {x z : Samples K} {b : Scalar K} (hx : Shape n x) (hn : n ≠ 0)
    (hty : n = 1 ∧ b ≠ .none ∨ (AllFlt x ∧ b.IsFlt) ∨ (AllInt x ∧ b.IsInt))
    (h : vectorize2 f x (constSamples b n) = .ok z) :
    (List.Forall₂ (fun a v => ∃ p y, a.val? = some p ∧ b.val? = some y ∧ v.val? = some (g p y))
      x.toList z.toList) ∧ (AllFlt x ∧ b.IsFlt → AllFlt z) ∧ (AllInt x ∧ b.IsInt → AllInt z) := by
  have hb : b ≠ .none := by
    rcases hty with ⟨-, h⟩ | ⟨-, x, rfl⟩ | ⟨-, x, rfl⟩
    · exact h
    · simp
    · simp
  obtain ⟨rs, h1, h2⟩ := vectorize2_const hx hn h
  have hrs : List.Forall₂ (fun a r => ∃ p y, a.val? = some p ∧ b.val? = some y ∧
      (r = a ∨ r = b) ∧ r.val? = some (g p y)) x.toList rs := h1.imp fun a r har => hf a r b hb har
  have hmem : ∀ r ∈ rs, ∃ a ∈ x.toList, r = a ∨ r = b := by
    intro r hr
    obtain ⟨i, hi, rfl⟩ := List.mem_iff_getElem.1 hr
    have := hrs.get (i := i) (by rw [hrs.length_eq]; exact hi) hi
    simp only [List.get_eq_getElem] at this
    obtain ⟨p, y, -, -, ho, -⟩ := this
    exact ⟨_, List.getElem_mem _, ho⟩
  have hfl : AllFlt x ∧ b.IsFlt → ∀ r ∈ rs, r.IsFlt := by
    rintro ⟨h1, h2⟩ r hr
    obtain ⟨a, ha, rfl | rfl⟩ := hmem r hr
    · exact h1 _ ha
    · exact h2
  have hin : AllInt x ∧ b.IsInt → ∀ r ∈ rs, r.IsInt := by
    rintro ⟨h1, h2⟩ r hr
    obtain ⟨a, ha, rfl | rfl⟩ := hmem r hr
    · exact h1 _ ha
    · exact h2
  rcases h2 with ⟨h2, h3⟩ | ⟨h2, r0, h3, h4⟩
  · rw [h3]
    refine ⟨hrs.imp ?_, ?_, ?_⟩
    · rintro a r ⟨p, y, hp, hy, -, hr⟩; exact ⟨p, y, hp, hy, hr⟩
    · intro hh v hv; rw [h3] at hv; exact hfl hh v hv
    · intro hh v hv; rw [h3] at hv; exact hin hh v hv
  · have hr0 : r0 ∈ rs := List.mem_of_getElem? h3
    have hcast : List.Forall₂ (fun r v => v.val? = r.val?) rs z.toList ∧
        (AllFlt x ∧ b.IsFlt → AllFlt z) ∧ (AllInt x ∧ b.IsInt → AllInt z) := by
      rcases hty with ⟨hn1, -⟩ | hh | hh
      · exact absurd hn1 h2
      · obtain ⟨w, rfl⟩ := hfl hh r0 hr0
        have h5 : List.Forall₂ (fun r v => v.IsFlt ∧ v.val? = r.val?) rs z.toList :=
          h4.imp fun r v hrv => vecCast_flt hrv
        refine ⟨h5.imp fun _ _ h => h.2, fun _ v hv => ?_, fun hi => ?_⟩
        · obtain ⟨i, hi, rfl⟩ := List.mem_iff_getElem.1 hv
          have := h5.get (i := i) (by rw [h5.length_eq]; exact hi) hi
          exact this.1
        · obtain ⟨b', hb'⟩ := hh.2; obtain ⟨c', hc'⟩ := hi.2
          rw [hb'] at hc'; cases hc'
      · obtain ⟨w, rfl⟩ := hin hh r0 hr0
        have hz : z.toList = rs := by
          have h5 : List.Forall₂ (fun r v => v = r) rs z.toList := by
            rw [List.forall₂_iff_get] at h4 ⊢
            refine ⟨h4.1, fun i hi1 hi2 => ?_⟩
            exact vecCast_int (hin hh _ (List.getElem_mem _)) (h4.2 i hi1 hi2)
          have : List.Forall₂ Eq rs z.toList := h5.imp fun _ _ h => h.symm
          exact (List.forall₂_eq_eq_eq ▸ this : rs = z.toList).symm
        refine ⟨by rw [hz]; exact List.forall₂_same.2 fun _ _ => rfl, fun hfl' => ?_, fun hi v hv => ?_⟩
        · obtain ⟨b', hb'⟩ := hh.2; obtain ⟨c', hc'⟩ := hfl'.2
          rw [hb'] at hc'; cases hc'
        · rw [hz] at hv; exact hin hi v hv
    refine ⟨?_, hcast.2⟩
    rw [List.forall₂_iff_get] at hrs ⊢
    have hc := hcast.1
    rw [List.forall₂_iff_get] at hc
    refine ⟨hrs.1.trans hc.1, fun i hi1 hi2 => ?_⟩
    have hi3 : i < rs.length := by rw [← hrs.1]; exact hi1
    obtain ⟨p, y, hp, hy, -, hr⟩ := hrs.2 i hi1 hi3
    exact ⟨p, y, hp, hy, by rw [hc.2 i hi3 hi2]; exact hr⟩

theorem lclipElem_spec (a c b : Scalar K) (hb : b ≠ .none) (h : lclipElem a b = .ok c) :
    ∃ x y, a.val? = some x ∧ b.val? = some y ∧ (c = a ∨ c = b) ∧ c.val? = some (max x y) := by
  obtain ⟨x, y, hx, hy, rfl⟩ := lclipElem_ok hb h
  refine ⟨x, y, hx, hy, ?_⟩
  split_ifs with hlt
  · exact ⟨Or.inr rfl, by rw [hy, max_eq_right hlt.le]⟩
  · exact ⟨Or.inl rfl, by rw [hx, max_eq_left (not_lt.1 hlt)]⟩

theorem rclipElem_spec (a c b : Scalar K) (hb : b ≠ .none) (h : rclipElem a b = .ok c) :
    ∃ x y, a.val? = some x ∧ b.val? = some y ∧ (c = a ∨ c = b) ∧ c.val? = some (min x y) := by
  obtain ⟨x, y, hx, hy, rfl⟩ := rclipElem_ok hb h
  refine ⟨x, y, hx, hy, ?_⟩
  split_ifs with hlt
  · exact ⟨Or.inr rfl, by rw [hy, min_eq_right hlt.le]⟩
  · exact ⟨Or.inl rfl, by rw [hx, min_eq_left (not_lt.1 hlt)]⟩

/-- **C16.** `lclip(d, b)` returns the elementwise maximum of the samples of `d` and `b` when one
sample is drawn, or when samples and bound are all floats, or all integers.  (Missing: mixed integers
and floats, where it is false, see `C16_..._fails`.) -/
theorem C16_lclip_partial (E : Env σ K) (hE : E.gen.Lawful) (d : Obj (St σ K) K) (hd : d.Regular)
    (b : Scalar K) (n : ℕ) (s s' : St σ K) (z : Samples K)
    (h : sampleObj E (.bin .lclip d (.lit b)) n none none s = (.ok z, s')) :
    ∃ x, sampleObj E d n none none s = (.ok x, s') ∧
      (n = 1 ∧ b ≠ .none ∨ (AllFlt x ∧ b.IsFlt) ∨ (AllInt x ∧ b.IsInt) →
        List.Forall₂ (fun a v => ∃ p y, a.val? = some p ∧ b.val? = some y ∧
          v.val? = some (max p y)) x.toList z.toList) := by
  obtain ⟨hn, x, h1, h2⟩ := clipFn_sample (Or.inl rfl) h
  refine ⟨x, h1, fun hty => ?_⟩
  exact (clipFn_values lclipElem_spec (C11_count_partial E hE d hd _ _ _ _ _ _ h1).2 hn hty h2).1

/-- **C16.** `rclip(d, b)` is the elementwise minimum, under the same conditions. -/
theorem C16_rclip_partial (E : Env σ K) (hE : E.gen.Lawful) (d : Obj (St σ K) K) (hd : d.Regular)
    (b : Scalar K) (n : ℕ) (s s' : St σ K) (z : Samples K)
    (h : sampleObj E (.bin .rclip d (.lit b)) n none none s = (.ok z, s')) :
    ∃ x, sampleObj E d n none none s = (.ok x, s') ∧
      (n = 1 ∧ b ≠ .none ∨ (AllFlt x ∧ b.IsFlt) ∨ (AllInt x ∧ b.IsInt) →
        List.Forall₂ (fun a v => ∃ p y, a.val? = some p ∧ b.val? = some y ∧
          v.val? = some (min p y)) x.toList z.toList) := by
  obtain ⟨hn, x, h1, h2⟩ := clipFn_sample (Or.inr rfl) h
  refine ⟨x, h1, fun hty => ?_⟩
  have h2' : vectorize2 rclipElem x (constSamples b n) = .ok z := h2
  exact (clipFn_values rclipElem_spec (C11_count_partial E hE d hd _ _ _ _ _ _ h1).2 hn hty h2').1

/-- **C16.** `clip(d, l, r)` (that is `rclip(lclip(d, l), r)`, see `C15_clip`) of float samples with
float bounds is the elementwise clamp `min(max(x, l), r)`. -/
theorem C16_clip_partial (E : Env σ K) (hE : E.gen.Lawful) (d : Obj (St σ K) K) (hd : d.Regular)
    (l r : K) (n : ℕ) (s s' : St σ K) (z : Samples K)
    (h : sampleObj E (.bin .rclip (.bin .lclip d (.lit (.flt l))) (.lit (.flt r))) n none none s
      = (.ok z, s')) :
    ∃ x, sampleObj E d n none none s = (.ok x, s') ∧
      (AllFlt x → List.Forall₂ (fun a v => ∃ p, a.val? = some p ∧
          v.val? = some (min (max p l) r)) x.toList z.toList) := by
  obtain ⟨hn, y, h1, h2⟩ := clipFn_sample (Or.inr rfl) h
  have h2' : vectorize2 rclipElem y (constSamples (.flt r) n) = .ok z := h2
  obtain ⟨-, x, h3, h4⟩ := clipFn_sample (Or.inl rfl) h1
  refine ⟨x, h3, fun hfl => ?_⟩
  obtain ⟨v1, f1, -⟩ := clipFn_values lclipElem_spec (C11_count_partial E hE d hd _ _ _ _ _ _ h3).2 hn
    (Or.inr (Or.inl ⟨hfl, l, rfl⟩)) h4
  obtain ⟨v2, -, -⟩ := clipFn_values rclipElem_spec
    (C11_count_partial E hE _ (show (Obj.bin .lclip d (.lit (.flt l))).Regular from ⟨hd, trivial⟩)
      _ _ _ _ _ _ h1).2 hn (Or.inr (Or.inl ⟨f1 ⟨hfl, l, rfl⟩, r, rfl⟩)) h2'
  rw [List.forall₂_iff_get] at v1 v2 ⊢
  refine ⟨v1.1.trans v2.1, fun i hi1 hi2 => ?_⟩
  have hi3 : i < y.toList.length := by rw [← v1.1]; exact hi1
  obtain ⟨p, q, hp, hq, hv⟩ := v1.2 i hi1 hi3
  obtain ⟨p', q', hp', hq', hv'⟩ := v2.2 i hi3 hi2
  rw [hv] at hp'
  cases hp'; cases hq; cases hq'
  exact ⟨p, hp, hv'⟩

/-- **C16 fails**, in general form: if the first of several float samples lies below an integer
bound, *every* returned sample is truncated to an integer. -/
theorem C16_int_bound_truncates_fails (E : Env σ K) (hE : E.gen.Lawful) (d : Obj (St σ K) K)
    (hd : d.Regular) (b : ℤ) (n : ℕ) (hn : 1 < n) (s s' : St σ K) (z x : Samples K)
    (h : sampleObj E (.bin .lclip d (.lit (.int b))) n none none s = (.ok z, s'))
    (hx : sampleObj E d n none none s = (.ok x, s'))
    (hfl : AllFlt x) (x0 : K) (h0 : x.at? 0 = some (.flt x0)) (hlt : x0 < b) :
    List.Forall₂ (fun a v => ∃ p : K, a = .flt p ∧
      v = .int (if p < b then b else truncZ p)) x.toList z.toList := by
  obtain ⟨hn0, x', h1, h2⟩ := clipFn_sample (Or.inl rfl) h
  rw [hx] at h1
  cases h1
  have h2' : vectorize2 lclipElem x (constSamples (.int b) n) = .ok z := h2
  obtain ⟨rs, h3, h4⟩ := vectorize2_const (C11_count_partial E hE d hd _ _ _ _ _ _ hx).2 hn0 h2'
  rcases h4 with ⟨h4, -⟩ | ⟨-, r0, h4, h5⟩
  · omega
  rw [List.forall₂_iff_get] at h3 h5 ⊢
  have hl0 : 0 < x.toList.length := by
    rw [shape_length (C11_count_partial E hE d hd _ _ _ _ _ _ hx).2]; omega
  have hr0 : r0 = .int b := by
    have := h3.2 0 hl0 (by rw [← h3.1]; exact hl0)
    obtain ⟨p, q, hp, hq, hc⟩ := lclipElem_ok (by simp) this
    simp only [Samples.at?] at h0
    rw [List.getElem?_eq_getElem hl0] at h0
    simp only [List.get_eq_getElem, Option.some.inj h0] at hp hc
    rw [List.getElem?_eq_getElem (by rw [← h3.1]; exact hl0)] at h4
    rw [Option.some.inj h4] at hc
    cases hp; cases hq
    rw [hc, if_pos (by simpa [Num.val] using hlt)]
  subst hr0
  refine ⟨h3.1.trans h5.1, fun i hi1 hi2 => ?_⟩
  have hi3 : i < rs.length := by rw [← h3.1]; exact hi1
  have e1 := h3.2 i hi1 hi3
  have e2 := h5.2 i hi3 hi2
  obtain ⟨p, hp⟩ := hfl (x.toList.get ⟨i, hi1⟩) (List.getElem_mem _)
  obtain ⟨p', q, hp', hq, hc⟩ := lclipElem_ok (by simp) e1
  rw [hp] at hp' hc
  cases hp'
  cases hq
  refine ⟨p, hp, ?_⟩
  rw [hc] at e2
  by_cases hb : p < b
  · rw [if_pos (by simpa [Num.val] using hb)] at e2
    rw [if_pos hb]; exact (Except.ok.inj e2).symm
  · rw [if_neg (by simpa [Num.val] using hb)] at e2
    rw [if_neg hb]; exact (Except.ok.inj e2).symm

/-- **C16 fails**, concretely: `lclip(uniform(-1, 4), 0)` sampled three times, where the unclipped
samples are -1, 0.5 and 2, returns 0, 0, 2 – the sample 0.5 inside the bounds is changed. -/
theorem C16_value_inside_changed_fails :
    (sampleObj demoEnv (.leaf (.uniform (-1) 4) none none) 3 none none (demoSt 0)).1
      = .ok (.arr [.flt (-1), .flt (1 / 2), .flt 2]) ∧
    (sampleObj demoEnv (.bin .lclip (.leaf (.uniform (-1) 4) none none) (.lit (.int 0))) 3 none none
        (demoSt 0)).1 = .ok (.arr [.int 0, .int 0, .int 2]) := by
  constructor <;> decide +kernel

/-- **C16 fails** even for the bound itself: `lclip(die(6), 2.5)` for the rolls 5, 6, 1 returns
5, 6, 2 – the last value violates the bound 2.5. -/
theorem C16_bound_violated_fails :
    (sampleObj demoEnv (.leaf (.die ⟨6, none⟩) none none) 3 none none (demoSt 4)).1
      = .ok (.arr [.int 5, .int 6, .int 1]) ∧
    (sampleObj demoEnv (.bin .lclip (.leaf (.die ⟨6, none⟩) none none) (.lit (.flt (5 / 2)))) 3
        none none (demoSt 4)).1 = .ok (.arr [.int 5, .int 6, .int 2]) := by
  constructor <;> decide +kernel

/-- The hypotheses of the partial theorems are met: float samples, float bounds. -/
example : (sampleObj demoEnv (.bin .rclip (.bin .lclip (.leaf (.uniform (-1) 4) none none)
      (.lit (.flt 0))) (.lit (.flt 1))) 3 none none (demoSt 0)).1
    = .ok (.arr [.flt 0, .flt (1 / 2), .flt 1]) := by decide +kernel

end Verif
