import Verif.Model.WideSample
import Verif.Props.MachineSample

/-!
# Models with numbers too wide for 64 bits, and the named numbers (C142)
-/

namespace Verif

open Spec

section run

variable {σ K : Type} [Field K] [LinearOrder K] [IsStrictOrderedRing K] [FloorRing K]

theorem map_toI64_fits {xs : List ℤ} (h : ∀ x ∈ xs, Fits x) : xs.map toI64 = xs := by
  conv_rhs => rw [← List.map_id xs]
  exact List.map_congr_left fun x hx => toI64_fits (h x hx)

omit [IsStrictOrderedRing K] in
theorem ints_fits {xs : List ℤ} (h : ∀ x ∈ xs, Fits x) : ints (intArr xs : Samples K) = .ok xs := by
  rw [ints_intArr h, map_toI64_fits h]

theorem opI64_fits (o : IOp) {a b : ℤ} (ha : Fits a) (hb : Fits b) (h : Fits (o.eval a b)) :
    opI64 o a b = o.eval a b := by
  have := opI64_left o (a := a) (b := b) fun _ => ⟨ha, hb⟩
  rwa [toI64_fits ha, toI64_fits hb, toI64_fits h] at this

theorem zipWith_fits (o : IOp) {xs ys : List ℤ} (hx : ∀ x ∈ xs, Fits x) (hy : ∀ y ∈ ys, Fits y)
    (h : ∀ z ∈ List.zipWith o.eval xs ys, Fits z) : List.zipWith (opI64 o) xs ys = List.zipWith o.eval xs ys := by
  induction xs generalizing ys with
  | nil => rfl
  | cons x xs ih =>
    cases ys with
    | nil => rfl
    | cons y ys =>
      simp only [List.zipWith_cons_cons, List.mem_cons, forall_eq_or_imp] at h hx hy ⊢
      rw [opI64_fits o hx.1 hy.1 h.1, ih hx.2 hy.2 h.2]

/-- Both samplers, run by run. -/
theorem sampleWide_run (E : Env σ K) (hE : E.gen.Lawful) (ds : ℕ → Leaf K) (hd : ∀ k, (ds k).Regular) {n : ℕ}
    (hn : 1 < n) (B : ℕ → ℕ) (hw : WholeDraws E ds n B) (hB : ∀ k, B k < 2 ^ 63) (e : IExpr)
    (he : e.Kept B) (s : St σ K) :
    ∃ (r : Except PyErr (List ℤ)) (s' : St σ K),
      sampleObj E (toObjI ds e) n none none s = (r.map intArr, s') ∧
      sampleWide E ds n e s = (r.map fun zs => ⟨e.HasWide, zs⟩, s') ∧
      ∀ zs, r = .ok zs → zs.length = n ∧ (∀ z ∈ zs, z.natAbs ≤ e.size B) ∧ (e.HasWide = false → ∀ z ∈ zs, Fits z) := by
  have hn0 : n ≠ 0 := by omega
  induction e generalizing s with
  | src k =>
    rcases hs : sampleObj E (.leaf (ds k) none none) n none none s with ⟨e | z, s'⟩
    · exact ⟨.error e, s', hs, by simp only [sampleWide, SM.bind, hs]; rfl, by simp⟩
    · have hsh := (C11_count_partial E hE (.leaf (ds k) none none) (hd k) _ _ _ _ _ _ hs).2
      obtain ⟨xs, e1, e2⟩ := intArr_of_list (hw k s s' z hs)
      have hz : z = intArr xs ∧ xs.length = n := by
        cases z with
        | scalar v => exact absurd hsh (by simp only [Shape]; omega)
        | arr vs =>
          simp only [Samples.toList] at e1
          subst e1
          exact ⟨rfl, by simpa using hsh.2⟩
      obtain ⟨rfl, hl⟩ := hz
      have hf : ∀ x ∈ xs, Fits x := fun x hx => fits_of_natAbs (e2 x hx) (hB k)
      refine ⟨.ok xs, s', hs, ?_, ?_⟩
      · simp only [sampleWide, SM.bind, hs, SM.lift]
        rw [ints_fits hf]
        rfl
      · rintro zs ⟨⟩
        exact ⟨hl, e2, fun _ => hf⟩
  | num z =>
    refine ⟨.ok (List.replicate n z), s, ?_, ?_, ?_⟩
    · rw [toObjI, sampleObj_lit E _ hn0, constSamples_arr _ hn]
      simp [intArr, Except.map]
    · simp only [sampleWide, SM.lift, wideNum, IExpr.HasWide]
      rcases he with he | he
      · have h2 : ¬ TooWide z := by
          rintro (h | h) <;> obtain ⟨h1, h2⟩ := he <;> norm_num at h h1 h2 <;> omega
        rw [if_pos he]
        simp [Except.map, h2]
      · have h2 : ¬ Fits z := by
          rintro ⟨h1, h2⟩
          rcases he with h | h <;> norm_num at h h1 h2 <;> omega
        rw [if_neg h2, if_pos he]
        simp [Except.map, he]
    · rintro zs ⟨⟩
      refine ⟨by simp, fun x hx => ?_, fun h x hx => ?_⟩
      · rw [(List.mem_replicate.1 hx).2]
        exact le_rfl
      · rw [(List.mem_replicate.1 hx).2]
        simp only [IExpr.HasWide, decide_eq_false_iff_not] at h
        exact he.resolve_right h
  | neg e ih =>
    obtain ⟨r, s', h1, h2, h3⟩ := ih he.1 s
    rcases r with er | zs
    · refine ⟨.error er, s', ?_, ?_, by simp⟩
      · rw [toObjI, sampleObj_un E _ _ hn0]
        simp only [SM.bind, h1]; rfl
      · simp only [sampleWide, SM.bind, h2]; rfl
    · obtain ⟨hl, hb, hf⟩ := h3 zs rfl
      have hfit : e.HasWide = false → ∀ z ∈ zs, Fits (-z) := fun h z hz => by
        refine fits_of_natAbs (m := e.size B) ?_ (he.2.resolve_left (by rw [h]; simp))
        rw [Int.natAbs_neg]
        exact hb z hz
      refine ⟨.ok (zs.map fun z => -z), s', ?_, ?_, ?_⟩
      · rw [toObjI, sampleObj_un E _ _ hn0]
        simp only [SM.bind, h1, Except.map, SM.lift, unSamples, intArr]
        have : mapExcept npNeg (zs.map (.int : ℤ → Scalar K)) = .ok ((zs.map fun z => -z).map .int) := by
          clear h1 h2 h3 hl hb hf hfit
          induction zs with
          | nil => rfl
          | cons z zs ih' =>
            simp only [List.map_cons, mapExcept]
            rw [ih']
            rfl
        rw [this]
        rfl
      · simp only [sampleWide, SM.bind, h2, Except.map, SM.pure, IExpr.HasWide]
        congr 3
        refine List.map_congr_left fun z hz => ?_
        by_cases h : e.HasWide = true
        · rw [if_pos h]
        · rw [if_neg h, toI64_fits (hfit (by simpa using h) z hz)]
      · rintro ws ⟨⟩
        refine ⟨by simpa using hl, fun w hw => ?_, fun h w hw => ?_⟩ <;> obtain ⟨z, hz, rfl⟩ := List.mem_map.1 hw
        · rw [Int.natAbs_neg]
          exact hb z hz
        · exact hfit h z hz
  | bin o a b iha ihb =>
    obtain ⟨ca, cb, hc⟩ := he
    obtain ⟨r, s1, h1, h2, h3⟩ := iha ca s
    rcases r with er | xs
    · refine ⟨.error er, s1, ?_, ?_, by simp⟩
      · rw [toObjI, sampleObj_bin E _ _ _ hn0]
        simp only [SM.bind, h1]; rfl
      · simp only [sampleWide, SM.bind, h2]; rfl
    · obtain ⟨r, s2, k1, k2, k3⟩ := ihb cb s1
      rcases r with er | ys
      · refine ⟨.error er, s2, ?_, ?_, by simp⟩
        · rw [toObjI, sampleObj_bin E _ _ _ hn0]
          simp only [SM.bind, h1, k1, Except.map]
        · simp only [sampleWide, SM.bind, h2, k2, Except.map]
      · obtain ⟨hl, hb, hf⟩ := h3 xs rfl
        obtain ⟨hl', hb', hf'⟩ := k3 ys rfl
        have hsz := zipWith_size o hb hb'
        have hfit : a.HasWide = false → b.HasWide = false → ∀ z ∈ List.zipWith o.eval xs ys, Fits z :=
          fun ha hb z hz => by
            rcases hc with h | h | h
            · rw [ha] at h; cases h
            · rw [hb] at h; cases h
            · exact fits_of_natAbs (hsz z hz) h
        refine ⟨.ok (List.zipWith o.eval xs ys), s2, ?_, ?_, ?_⟩
        · rw [toObjI, sampleObj_bin E _ _ _ hn0]
          simp only [SM.bind, h1, k1, Except.map, SM.lift, binFnSamples]
          rw [binSamples_int (hl.trans hl'.symm) fun a b _ => npBin_int _ o a b]
        · simp only [sampleWide, SM.bind, h2, k2, Except.map, SM.pure, IExpr.HasWide]
          congr 3
          by_cases h : (a.HasWide || b.HasWide) = true
          · rw [if_pos h]
          · rw [if_neg h]
            simp only [Bool.not_eq_true, Bool.or_eq_false_iff] at h
            exact zipWith_fits o (hf h.1) (hf' h.2) (hfit h.1 h.2)
        · rintro ws ⟨⟩
          refine ⟨by rw [List.length_zipWith, hl, hl', min_self], hsz, fun h => ?_⟩
          simp only [IExpr.HasWide, Bool.or_eq_false_iff] at h
          exact hfit h.1 h.2
  | pow e k ih =>
    obtain ⟨ce, hk, hc⟩ := he
    obtain ⟨r, s', h1, h2, h3⟩ := ih ce s
    rcases r with er | zs
    · refine ⟨.error er, s', ?_, ?_, by simp⟩
      · rw [toObjI, sampleObj_bin E _ _ _ hn0]
        simp only [SM.bind, h1]; rfl
      · simp only [sampleWide, SM.bind, h2]; rfl
    · obtain ⟨hl, hb, hf⟩ := h3 zs rfl
      have hsz : ∀ z ∈ zs, (z ^ k).natAbs ≤ e.size B ^ k := fun z hz => by
        rw [Int.natAbs_pow]
        exact Nat.pow_le_pow_left (hb z hz) k
      have hfit : e.HasWide = false → ∀ z ∈ zs, Fits (z ^ k) := fun h z hz =>
        fits_of_natAbs (hsz z hz) (hc.resolve_left (by rw [h]; simp))
      refine ⟨.ok (zs.map fun z => z ^ k), s', ?_, ?_, ?_⟩
      · rw [toObjI, sampleObj_bin E _ _ _ hn0]
        simp only [SM.bind, h1, Except.map, SM.lift, binFnSamples, sampleObj_lit E _ hn0, constSamples_arr _ hn]
        have e1 : (Samples.arr (List.replicate n (.int k)) : Samples K) = intArr (List.replicate n (k : ℤ)) := by
          simp [intArr]
        rw [e1, binSamples_int (g := fun a b => a ^ b.toNat) (by simpa using hl) fun a b hb => by
          rw [(List.mem_replicate.1 hb).2, npBin_pow_int]; simp, ← hl, zipWith_replicate]
        simp
      · simp only [sampleWide, SM.bind, h2, Except.map, SM.lift, IExpr.HasWide]
        rw [fitI64_ok (fits_of_natAbs (m := k) (by simp) hk)]
        simp only [bind, Except.bind]
        congr 3
        refine List.map_congr_left fun z hz => ?_
        by_cases h : e.HasWide = true
        · rw [if_pos h]
        · rw [if_neg h, toI64_fits (hfit (by simpa using h) z hz)]
      · rintro ws ⟨⟩
        refine ⟨by simpa using hl, fun w hw => ?_, fun h w hw => ?_⟩ <;> obtain ⟨z, hz, rfl⟩ := List.mem_map.1 hw
        · exact hsz z hz
        · exact hfit h z hz
  | lclip e c ih =>
    obtain ⟨ce, hs, hc⟩ := he
    obtain ⟨r, s', h1, h2, h3⟩ := ih ce s
    rcases r with er | zs
    · refine ⟨.error er, s', ?_, ?_, by simp⟩
      · rw [toObjI, sampleObj_bin E _ _ _ hn0]
        simp only [SM.bind, h1]; rfl
      · simp only [sampleWide, SM.bind, h2]; rfl
    · obtain ⟨hl, hb, hf⟩ := h3 zs rfl
      refine ⟨.ok (zs.map fun z => max z c), s', ?_, ?_, ?_⟩
      · rw [toObjI, sampleObj_bin E _ _ _ hn0]
        simp only [SM.bind, h1, Except.map, SM.lift, binFnSamples, sampleObj_lit E _ hn0, constSamples_arr _ hn]
        have e1 : (Samples.arr (List.replicate n (.int c)) : Samples K) = intArr (List.replicate n c) := by
          simp [intArr]
        rw [e1, vectorize2_int (g := max) (by simpa using hl) (by rintro rfl; simp at hl; omega)
          fun a b _ => lclipElem_int a b, ← hl, zipWith_replicate]
      · simp only [sampleWide, SM.bind, h2, Except.map, SM.lift, hs]
        rw [fitI64_ok hc]
        simp only [bind, Except.bind, Bool.false_eq_true, if_false, IExpr.HasWide]
        congr 3
        refine List.map_congr_left fun z hz => ?_
        by_cases h : z < c
        · rw [if_pos h, max_eq_right h.le]
        · rw [if_neg h, max_eq_left (not_lt.1 h)]
      · rintro ws ⟨⟩
        refine ⟨by simpa using hl, fun w hw => ?_, fun _ w hw => ?_⟩ <;> obtain ⟨z, hz, rfl⟩ := List.mem_map.1 hw
        · exact (natAbs_max_le z c).trans (max_le_max (hb z hz) le_rfl)
        · rcases max_choice z c with e | e <;> rw [e]
          · exact hf hs z hz
          · exact hc
  | rclip e c ih =>
    obtain ⟨ce, hs, hc⟩ := he
    obtain ⟨r, s', h1, h2, h3⟩ := ih ce s
    rcases r with er | zs
    · refine ⟨.error er, s', ?_, ?_, by simp⟩
      · rw [toObjI, sampleObj_bin E _ _ _ hn0]
        simp only [SM.bind, h1]; rfl
      · simp only [sampleWide, SM.bind, h2]; rfl
    · obtain ⟨hl, hb, hf⟩ := h3 zs rfl
      refine ⟨.ok (zs.map fun z => min z c), s', ?_, ?_, ?_⟩
      · rw [toObjI, sampleObj_bin E _ _ _ hn0]
        simp only [SM.bind, h1, Except.map, SM.lift, binFnSamples, sampleObj_lit E _ hn0, constSamples_arr _ hn]
        have e1 : (Samples.arr (List.replicate n (.int c)) : Samples K) = intArr (List.replicate n c) := by
          simp [intArr]
        rw [e1, vectorize2_int (g := min) (by simpa using hl) (by rintro rfl; simp at hl; omega)
          fun a b _ => rclipElem_int a b, ← hl, zipWith_replicate]
      · simp only [sampleWide, SM.bind, h2, Except.map, SM.lift, hs]
        rw [fitI64_ok hc]
        simp only [bind, Except.bind, Bool.false_eq_true, if_false, IExpr.HasWide, gt_iff_lt]
        congr 3
        refine List.map_congr_left fun z hz => ?_
        by_cases h : c < z
        · rw [if_pos h, min_eq_right h.le]
        · rw [if_neg h, min_eq_left (not_lt.1 h)]
      · rintro ws ⟨⟩
        refine ⟨by simpa using hl, fun w hw => ?_, fun _ w hw => ?_⟩ <;> obtain ⟨z, hz, rfl⟩ := List.mem_map.1 hw
        · exact (natAbs_min_le z c).trans (max_le_max (hb z hz) le_rfl)
        · rcases min_choice z c with e | e <;> rw [e]
          · exact hf hs z hz
          · exact hc

theorem zipWith_comm_replicate {α β γ : Type} (f : α → β → γ) (a : α) (ys : List β) :
    List.zipWith f (List.replicate ys.length a) ys = ys.map fun y => f a y := by
  induction ys with
  | nil => rfl
  | cons y ys ih => simp only [List.length_cons, List.replicate_succ, List.zipWith_cons_cons, List.map_cons, ih]

/-- **C142**: if every result on the way fits into 64 bits or is computed with a number too wide for them, the samples
are exact, however large they get, and errors are the same. -/
theorem C142_exact (E : Env σ K) (hE : E.gen.Lawful) (ds : ℕ → Leaf K) (hd : ∀ k, (ds k).Regular) {n : ℕ}
    (hn : 1 < n) (B : ℕ → ℕ) (hw : WholeDraws E ds n B) (hB : ∀ k, B k < 2 ^ 63) (e : IExpr) (he : e.Kept B)
    (s : St σ K) :
    ∃ (r : Except PyErr (List ℤ)) (s' : St σ K),
      sampleObj E (toObjI ds e) n none none s = (r.map fun zs => .arr (zs.map .int), s') ∧
      ∃ obj, sampleWide E ds n e s = (r.map fun zs => ⟨obj, zs⟩, s') := by
  obtain ⟨r, s', h1, h2, -⟩ := sampleWide_run E hE ds hd hn B hw hB e he s
  exact ⟨r, s', h1, _, h2⟩

/-- **C142**, the named numbers: a named number times a whole-number distribution – in either order – is computed
exactly for every named number from `sextillion` on, and for the others as long as the largest product stays below
`2 ^ 63`. -/
theorem C142_named_partial (E : Env σ K) (hE : E.gen.Lawful) (ds : ℕ → Leaf K) (hd : ∀ k, (ds k).Regular) {n : ℕ}
    (hn : 1 < n) (B : ℕ → ℕ) (hw : WholeDraws E ds n B) (hB : ∀ k, B k < 2 ^ 63) (k : ℕ) {name : String} {z : ℤ}
    (hz : (name, z) ∈ namedNumbers) (hsz : 10 ^ 21 ≤ z ∨ z * B k < 2 ^ 63) (e : IExpr)
    (he : e = .bin .mul (.num z) (.src k) ∨ e = .bin .mul (.src k) (.num z)) (s : St σ K) :
    ∃ (r : Except PyErr (List ℤ)) (s' : St σ K),
      sampleObj E (.leaf (ds k) none none) n none none s = (r.map fun xs => .arr (xs.map .int), s') ∧
      ∃ obj, sampleWide E ds n e s = (r.map fun xs => ⟨obj, xs.map fun x => z * x⟩, s') := by
  have hpos : 0 < z := by
    simp only [namedNumbers, List.mem_cons, Prod.mk.injEq, List.not_mem_nil, or_false] at hz
    rcases hz with h | h | h | h | h | h | h | h | h | h | h | h | h | h | h <;> rw [h.2] <;> norm_num
  have hfw : Fits z ∨ TooWide z := by
    simp only [namedNumbers, List.mem_cons, Prod.mk.injEq, List.not_mem_nil, or_false] at hz
    rcases hz with h | h | h | h | h | h | h | h | h | h | h | h | h | h | h <;> rw [h.2] <;> decide
  have hside : TooWide z ∨ z.natAbs * B k < 2 ^ 63 := by
    rcases hsz with h | h
    · left; right; norm_num at h ⊢; omega
    · right
      have : ((z.natAbs * B k : ℕ) : ℤ) < 2 ^ 63 := by
        push_cast
        rwa [abs_of_pos hpos]
      exact_mod_cast this
  have hrun := sampleWide_run E hE ds hd hn B hw hB (.src k) trivial s
  obtain ⟨r, s', h1, h2, h3⟩ := hrun
  refine ⟨r, s', h1, (IExpr.bin .mul (.num z) (.src k)).HasWide, ?_⟩
  simp only [IExpr.HasWide, Bool.or_false]
  have hnum : ∀ s, sampleWide E ds n (.num z) s = (.ok ⟨decide (TooWide z), List.replicate n z⟩, s) := by
    intro s
    simp only [sampleWide, SM.lift, wideNum]
    by_cases hf : Fits z
    · have h2 : ¬ TooWide z := by
        rintro (h | h) <;> obtain ⟨h1, h2⟩ := hf <;> norm_num at h h1 h2 <;> omega
      rw [if_pos hf]
      simp [h2]
    · have h2 := hfw.resolve_left hf
      rw [if_neg hf, if_pos h2]
      simp [h2]
  have hval : ∀ x : ℤ, x.natAbs ≤ B k → (if decide (TooWide z) = true then IOp.eval .mul else opI64 .mul) z x = z * x ∧
      (if decide (TooWide z) = true then IOp.eval .mul else opI64 .mul) x z = z * x := by
    intro x hx
    by_cases hwd : TooWide z
    · rw [if_pos (by simpa using hwd)]
      exact ⟨rfl, mul_comm x z⟩
    · rw [if_neg (by simpa using hwd)]
      have hfit : Fits (z * x) := by
        refine fits_of_natAbs (m := z.natAbs * B k) ?_ (hside.resolve_left hwd)
        rw [Int.natAbs_mul]
        exact Nat.mul_le_mul_left _ hx
      simp only [opI64]
      rw [mul_comm x z, toI64_fits hfit]
      exact ⟨rfl, rfl⟩
  rcases r with er | xs
  · rcases he with rfl | rfl
    · rw [sampleWide]
      simp only [SM.bind, hnum, h2, Except.map]
    · rw [sampleWide]
      simp only [SM.bind, h2, Except.map]
  · obtain ⟨hl, hb, -⟩ := h3 xs rfl
    rcases he with rfl | rfl
    · rw [sampleWide]
      simp only [SM.bind, hnum, h2, Except.map, IExpr.HasWide, Bool.or_false, SM.pure]
      congr 3
      rw [← hl, zipWith_comm_replicate]
      exact List.map_congr_left fun x hx => (hval x (hb x hx)).1
    · rw [sampleWide]
      simp only [SM.bind, hnum, h2, Except.map, IExpr.HasWide, Bool.false_or, SM.pure]
      congr 3
      rw [← hl, zipWith_replicate]
      exact List.map_congr_left fun x hx => (hval x (hb x hx)).2

end run

/-- **C142**: every name stands for one number, the `k`-th name for `1000 ^ k`, and likewise the letters. -/
theorem C142_values (name : String) (z : ℤ) :
    (name, z) ∈ namedNumbers ↔
      ∃ k : ℕ, (shortScale[k]? = some name ∨ scaleLetters[k]? = some name) ∧ z = 1000 ^ (k + 1) := by
  constructor
  · intro h
    simp only [namedNumbers, List.mem_cons, Prod.mk.injEq, List.not_mem_nil, or_false] at h
    rcases h with h | h | h | h | h | h | h | h | h | h | h | h | h | h | h <;> obtain ⟨rfl, rfl⟩ := h
    · exact ⟨0, by decide, by norm_num⟩
    · exact ⟨0, by decide, by norm_num⟩
    · exact ⟨1, by decide, by norm_num⟩
    · exact ⟨1, by decide, by norm_num⟩
    · exact ⟨2, by decide, by norm_num⟩
    · exact ⟨2, by decide, by norm_num⟩
    · exact ⟨3, by decide, by norm_num⟩
    · exact ⟨3, by decide, by norm_num⟩
    · exact ⟨4, by decide, by norm_num⟩
    · exact ⟨5, by decide, by norm_num⟩
    · exact ⟨6, by decide, by norm_num⟩
    · exact ⟨7, by decide, by norm_num⟩
    · exact ⟨8, by decide, by norm_num⟩
    · exact ⟨9, by decide, by norm_num⟩
    · exact ⟨10, by decide, by norm_num⟩
  · rintro ⟨k, h, rfl⟩
    have hk : k < 11 := by
      by_contra hk
      rcases h with h | h
      · rw [List.getElem?_eq_none (by simp only [shortScale, List.length_cons, List.length_nil]; omega)] at h
        cases h
      · rw [List.getElem?_eq_none (by simp only [scaleLetters, List.length_cons, List.length_nil]; omega)] at h
        cases h
    interval_cases k <;>
      simp only [shortScale, scaleLetters, List.getElem?_cons_zero, List.getElem?_cons_succ, List.getElem?_nil,
        Option.some.injEq, reduceCtorEq, or_false] at h <;>
      (try rcases h with rfl | rfl) <;> (try subst h) <;> decide

/-- **C142** fails for `quintillion`: `quintillion * die(10)` is a positive multiple of `10 ^ 18`, but among several
samples a roll of 10 gives `10 ^ 19 - 2 ^ 64`, a negative number.  (`sextillion * die(10)` is right, and so is a single
sample.) -/
theorem C142_quintillion_fails :
    let ds : ℕ → Leaf ℚ := fun _ => .die ⟨10, none⟩
    (sampleObj demoEnv (.leaf (ds 0) none none) 2 none none (demoSt 8)).1 = .ok (.arr [.int 9, .int 10]) ∧
    (sampleWide demoEnv ds 2 (.bin .mul (.num (10 ^ 18)) (.src 0)) (demoSt 8)).1 =
      .ok ⟨false, [9 * 10 ^ 18, 10 * 10 ^ 18 - 2 ^ 64]⟩ ∧
    (sampleWide demoEnv ds 2 (.bin .mul (.num (10 ^ 21)) (.src 0)) (demoSt 8)).1 =
      .ok ⟨true, [9 * 10 ^ 21, 10 * 10 ^ 21]⟩ ∧
    (sampleOne demoEnv ds (.bin .mul (.num (10 ^ 18)) (.src 0)) (demoSt 9)).1 = .ok ⟨false, 10 * 10 ^ 18⟩ := by
  refine ⟨?_, ?_, ?_, ?_⟩ <;> decide +kernel

/-- **C142** fails where a wide number comes in too late: `die(6) ** 25 + sextillion` for rolls of 5 and 6. -/
theorem C142_late_fails :
    let ds : ℕ → Leaf ℚ := fun _ => .die ⟨6, none⟩
    let e : IExpr := .bin .add (.pow (.src 0) 25) (.num (10 ^ 21))
    (sampleObj demoEnv (toObjI ds e) 2 none none (demoSt 4)).1 =
      .ok (.arr [.int (5 ^ 25 + 10 ^ 21), .int (6 ^ 25 + 10 ^ 21)]) ∧
    (sampleWide demoEnv ds 2 e (demoSt 4)).1 = .ok ⟨true, [5 ^ 25 + 10 ^ 21, 6 ^ 25 - 2 * 2 ^ 64 + 10 ^ 21]⟩ := by
  refine ⟨?_, ?_⟩ <;> decide +kernel

/-! ### The hypotheses are met -/

/-- `(sextillion + die(6)) ** 3 * die(6)`: `10 ^ 63` and more, exact. -/
example : let e : IExpr := .bin .mul (.pow (.bin .add (.num (10 ^ 21)) (.src 0)) 3) (.src 0)
    let E : Env ℕ ℚ := { demoEnv with exp := fun _ => 1 }
    WholeDraws E (fun _ => .die ⟨6, none⟩) 2 (fun _ => 6) ∧ e.Kept (fun _ => 6) ∧
    (sampleWide E (fun _ => .die ⟨6, none⟩) 2 e (demoSt 0)).1 =
      .ok ⟨true, [3 * (10 ^ 21 + 1) ^ 3, 4 * (10 ^ 21 + 2) ^ 3]⟩ := by
  refine ⟨die_wholeDraws _ demoGen_lawful (fun _ => one_pos) 2, ?_, by decide +kernel⟩
  simp [IExpr.Kept, IExpr.HasWide, TooWide]

/-- `trillion * die(6)`: below `2 ^ 63`. -/
example : ("trillion", (10 ^ 12 : ℤ)) ∈ namedNumbers ∧ (10 ^ 12 : ℤ) * (6 : ℕ) < 2 ^ 63 := by
  refine ⟨by simp [namedNumbers], by norm_num⟩

end Verif
