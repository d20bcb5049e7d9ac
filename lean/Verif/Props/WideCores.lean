import Verif.Props.WideSample
import Verif.Props.Multicore
import Verif.Lemmas.FloatSum

/-!
# Whole numbers as floats: several cores and the named numbers (C142)
-/

namespace Verif

open Spec

section cores

variable {σ K : Type} [Field K] [LinearOrder K] [IsStrictOrderedRing K] [FloorRing K]

omit [LinearOrder K] [IsStrictOrderedRing K] [FloorRing K] in
theorem collectF_eq (fl : K → K) (bs : List (List ℤ)) : collectF fl bs = bs.flatten.map fun z : ℤ => fl (z : K) := by
  have : ∀ (bs : List (List ℤ)) (acc : List K),
      bs.foldl (fun acc b => acc ++ b.map fun z : ℤ => fl (z : K)) acc = acc ++ bs.flatten.map fun z : ℤ => fl (z : K) := by
    intro bs
    induction bs with
    | nil => simp
    | cons b bs ih => intro acc; simp [ih]
  simp [collectF, this]

/-- **C142**, several cores: every core computes its batch exactly (C142_exact); collecting them turns the whole numbers
into floats, each with a relative error of at most `2 ^ -53`, and exactly if the model cannot exceed `2 ^ 53`. -/
theorem C142_cores_partial (E : Env σ K) (hE : E.gen.Lawful) (ds : ℕ → Leaf K) (hd : ∀ k, (ds k).Regular)
    (B : ℕ → ℕ) (hw : ∀ n, WholeDraws E ds n B) (hB : ∀ k, B k < 2 ^ 63) (e : IExpr) (he : e.Kept B)
    (hnw : e.HasWide = false) {sched : Sched} {cores n : ℕ} (hc : 2 ≤ cores) (hv : sched.Valid cores)
    (hn : 2 * cores ≤ n) {m m' : MSt σ K} (hclean : ∀ i, i < cores → m.tmp i = none) {z : Samples K}
    (h : sampleCores E sched cores (toObjI ds e) n none none m = (.ok z, m')) {fl : K → K} (hfl : RoundsTo 53 fl) :
    ∃ (cuts : List ℕ) (bs : List (List ℤ)), coreCuts n cores = .ok cuts ∧
      List.Forall₂ (fun cut b => ∃ s s', sampleWide E ds cut e s = (.ok ⟨false, b⟩, s')) cuts bs ∧
      z = .arr ((collectF id bs).map .flt) ∧
      List.Forall₂ (fun x y => |y - x| ≤ ulp 53 * |x|) (collectF id bs) (collectF fl bs) ∧
      (e.size B ≤ 2 ^ 53 → collectF fl bs = collectF id bs) := by
  obtain ⟨cuts, bs, h1, h2, h3, -⟩ := C25_result_partial E sched cores hc hv _ n none none m m' hclean z h
  obtain ⟨hl, -, hq, hlast⟩ := coreCuts_getD h1
  have hq2 : 2 ≤ n / cores := (Nat.le_div_iff_mul_le (by omega)).2 hn
  have hcut : ∀ c ∈ cuts, 1 < c := by
    intro c hcm
    obtain ⟨i, hi, rfl⟩ := List.mem_iff_getElem.1 hcm
    have e1 : cuts.getD i 0 = cuts[i] := by
      rw [List.getD_eq_getElem?_getD, List.getElem?_eq_getElem hi]; rfl
    rw [← e1]
    by_cases hil : i + 1 < cores
    · rw [hq i hil]; omega
    · have : i = cores - 1 := by omega
      rw [this, hlast]; omega
  -- every batch
  have hbatch : ∀ {cuts : List ℕ} {bs : List (Samples K)}, (∀ c ∈ cuts, 1 < c) →
      List.Forall₂ (fun cut b => ∃ s s', sampleObj E (toObjI ds e) cut none none s = (.ok b, s')) cuts bs →
      ∃ zs : List (List ℤ), bs = zs.map intArr ∧
        List.Forall₂ (fun cut b => ∃ s s', sampleWide E ds cut e s = (.ok ⟨false, b⟩, s')) cuts zs ∧
        ∀ b ∈ zs, ∀ x ∈ b, x.natAbs ≤ e.size B := by
    intro cuts bs hcut hb
    induction hb with
    | nil => exact ⟨[], rfl, .nil, by simp⟩
    | cons hb _ ih =>
      obtain ⟨zs, rfl, h5, h6⟩ := ih fun c hc => hcut c (by simp [hc])
      obtain ⟨s, s', hb⟩ := hb
      obtain ⟨r, s1, k1, k2, k3⟩ := sampleWide_run E hE ds hd (hcut _ List.mem_cons_self) B (hw _) hB e he s
      rw [k1] at hb
      rcases r with er | xs
      · simp [Except.map] at hb
      · simp only [Except.map, Prod.mk.injEq, Except.ok.injEq] at hb
        obtain ⟨rfl, -⟩ := hb
        refine ⟨xs :: zs, rfl, .cons ⟨s, s1, ?_⟩ h5, ?_⟩
        · rw [k2, hnw]; rfl
        · intro b hb
          rcases List.mem_cons.1 hb with rfl | hb
          · exact (k3 b rfl).2.1
          · exact h6 b hb
  obtain ⟨zs, rfl, h5, h6⟩ := hbatch hcut h2
  have hflat : (zs.map (intArr (K := K))).flatMap Samples.toList = zs.flatten.map .int := by
    clear h2 h3 h5 h6
    induction zs with
    | nil => rfl
    | cons z zs ih => simp only [List.map_cons, List.flatMap_cons, ih, List.flatten_cons, List.map_append]; rfl
  have hz := h3 (Or.inl fun v hv => by
    rw [hflat] at hv
    obtain ⟨x, -, rfl⟩ := List.mem_map.1 hv
    exact Or.inl ⟨x, rfl⟩)
  rw [hflat] at hz
  refine ⟨cuts, zs, h1, h5, ?_, ?_, ?_⟩
  · have : applyClips E.powf none none (.arr ((zs.flatten.map .int).map asFloat)) =
        .ok (.arr ((zs.flatten.map (.int : ℤ → Scalar K)).map asFloat)) := rfl
    rw [this] at hz
    rw [← Except.ok.inj hz, collectF_eq]
    simp only [List.map_map]
    rfl
  · rw [collectF_eq, collectF_eq]
    rw [List.forall₂_map_left_iff, List.forall₂_map_right_iff, List.forall₂_same]
    intro x _
    exact hfl.err _
  · intro hsz
    rw [collectF_eq, collectF_eq]
    refine List.map_congr_left fun x hx => ?_
    obtain ⟨b, hb, hxb⟩ := List.mem_flatten.1 hx
    have hx' := (h6 b hb x hxb).trans hsz
    exact hfl.exact (isFloat_int (by rw [Int.abs_eq_natAbs]; exact_mod_cast hx'))

/-- Whole numbers of `m * 2 ^ j` with `m` odd and too large are no floats. -/
theorem not_isFloat_odd {p : ℕ} {m : ℤ} (hodd : ¬ (2 : ℤ) ∣ m) (hm : 2 ^ p < |m|) (j : ℕ) :
    ¬ IsFloat p (((m * 2 ^ j : ℤ)) : K) := by
  rintro ⟨a, e, ha, h⟩
  push_cast at h
  rw [← zpow_natCast, ← eq_mul_inv_iff_mul_eq₀ (by positivity), ← zpow_neg, mul_assoc, ← zpow_add₀ two_ne_zero] at h
  rcases le_or_gt 0 (e + -(j : ℤ)) with h0 | h0
  · obtain ⟨t, ht⟩ := Int.eq_ofNat_of_zero_le h0
    rw [ht, zpow_natCast] at h
    have h' : m = a * 2 ^ t := by exact_mod_cast h
    cases t with
    | zero =>
      rw [pow_zero, mul_one] at h'
      rw [h'] at hm
      omega
    | succ t => exact hodd ⟨a * 2 ^ t, by rw [h']; ring⟩
  · obtain ⟨t, ht⟩ := Int.eq_ofNat_of_zero_le (neg_nonneg.2 h0.le)
    have e1 : e + -(j : ℤ) = -(t : ℤ) := by omega
    rw [e1, zpow_neg, zpow_natCast, eq_mul_inv_iff_mul_eq₀ (by positivity)] at h
    have h' : m * 2 ^ t = a := by exact_mod_cast h
    rw [← h', abs_mul, abs_of_pos (a := (2 : ℤ) ^ t) (by positivity)] at ha
    have : |m| * 1 ≤ |m| * 2 ^ t := mul_le_mul_of_nonneg_left (one_le_pow₀ (by norm_num)) (abs_nonneg m)
    linarith

/-- **C142**: as floats, the named numbers up to `sextillion` are what they say; the larger ones are not – whatever the
rounding, `septillion` and beyond are off by a relative error of at most `2 ^ -53`. -/
theorem C142_named_float {fl : K → K} (hfl : RoundsTo 53 fl) :
    (∀ name z, (name, z) ∈ namedNumbers → (fl (z : K) = z ↔ z ≤ 10 ^ 21)) ∧
    ∀ z : ℤ, |fl (z : K) - z| ≤ ulp 53 * |(z : K)| := by
  refine ⟨fun name z hz => ?_, fun z => hfl.err _⟩
  have yes : ∀ (m : ℤ) (j : ℕ), |m| ≤ 2 ^ 53 → fl ((m * 2 ^ j : ℤ) : K) = ((m * 2 ^ j : ℤ) : K) := fun m j hm =>
    hfl.exact ⟨m, j, hm, by push_cast; rw [zpow_natCast]⟩
  have no : ∀ (m : ℤ) (j : ℕ), ¬ (2 : ℤ) ∣ m → 2 ^ 53 < |m| → fl ((m * 2 ^ j : ℤ) : K) ≠ ((m * 2 ^ j : ℤ) : K) :=
    fun m j h1 h2 h => not_isFloat_odd h1 h2 j (h ▸ hfl.float _)
  have spl : ∀ k : ℕ, (10 : ℤ) ^ k = 5 ^ k * 2 ^ k := fun k => by rw [← mul_pow]; norm_num
  have yes' : ∀ k : ℕ, k ≤ 21 → (fl (((10 : ℤ) ^ k : ℤ) : K) = ((10 : ℤ) ^ k : ℤ) ↔ (10 : ℤ) ^ k ≤ 10 ^ 21) := by
    intro k hk
    refine iff_of_true ?_ (pow_le_pow_right₀ (by norm_num) hk)
    rw [spl k]
    refine yes (5 ^ k) k ?_
    rw [abs_of_pos (by positivity)]
    exact (pow_le_pow_right₀ (by norm_num) hk).trans (by norm_num)
  have no' : ∀ k : ℕ, 24 ≤ k → (fl (((10 : ℤ) ^ k : ℤ) : K) = ((10 : ℤ) ^ k : ℤ) ↔ (10 : ℤ) ^ k ≤ 10 ^ 21) := by
    intro k hk
    have h21 : (10 : ℤ) ^ 21 < 10 ^ k := pow_lt_pow_right₀ (by norm_num) (by omega)
    refine iff_of_false ?_ (not_le.2 h21)
    rw [spl k]
    refine no (5 ^ k) k (fun h => ?_) ?_
    · exact (Int.not_even_iff_odd.2 (Odd.pow (by decide))) (even_iff_two_dvd.2 h)
    · rw [abs_of_pos (by positivity)]
      exact lt_of_lt_of_le (by norm_num) (pow_le_pow_right₀ (by norm_num : (1 : ℤ) ≤ 5) hk)
  simp only [namedNumbers, List.mem_cons, Prod.mk.injEq, List.not_mem_nil, or_false] at hz
  rcases hz with h | h | h | h | h | h | h | h | h | h | h | h | h | h | h <;> obtain ⟨-, rfl⟩ := h
  · exact yes' 3 (by norm_num)
  · exact yes' 3 (by norm_num)
  · exact yes' 6 (by norm_num)
  · exact yes' 6 (by norm_num)
  · exact yes' 9 (by norm_num)
  · exact yes' 9 (by norm_num)
  · exact yes' 12 (by norm_num)
  · exact yes' 12 (by norm_num)
  · exact yes' 15 (by norm_num)
  · exact yes' 18 (by norm_num)
  · exact yes' 21 (by norm_num)
  · exact no' 24 (by norm_num)
  · exact no' 27 (by norm_num)
  · exact no' 30 (by norm_num)
  · exact no' 33 (by norm_num)

end cores

/-- **C142** fails with several cores beyond `2 ^ 53`: the model `die(6) + 2 ** 53 - 1` gives `2 ** 53 + 1` for a roll of
2; with one core this is what is returned, while collecting from several cores returns another number, whatever the
rounding. -/
theorem C142_cores_fails {fl : ℚ → ℚ} (hfl : RoundsTo 53 fl) :
    let ds : ℕ → Leaf ℚ := fun _ => .die ⟨6, none⟩
    let e : IExpr := .bin .add (.src 0) (.num (2 ^ 53 - 1))
    (sampleWide demoEnv ds 2 e (demoSt 0)).1 = .ok ⟨false, [2 ^ 53, 2 ^ 53 + 1]⟩ ∧
    collectF fl [[2 ^ 53, 2 ^ 53 + 1]] ≠ collectF id [[2 ^ 53, 2 ^ 53 + 1]] := by
  refine ⟨by decide +kernel, fun h => ?_⟩
  simp only [collectF, List.foldl_cons, List.foldl_nil, List.nil_append, List.map_cons, List.map_nil, List.cons.injEq,
    and_true, id] at h
  refine not_isFloat_odd (K := ℚ) (p := 53) (m := 2 ^ 53 + 1) (by norm_num) (by norm_num) 0 ?_
  have := hfl.float (((2 ^ 53 + 1 : ℤ)) : ℚ)
  rw [h.2] at this
  simpa using this

/-- The hypotheses of `C142_cores_partial` are met: `million * die(6)` on two cores. -/
example : let e : IExpr := .bin .mul (.num (10 ^ 6)) (.src 0)
    let E : Env ℕ ℚ := { demoEnv with exp := fun _ => 1 }
    (∀ n, WholeDraws E (fun _ => .die ⟨6, none⟩) n fun _ => 6) ∧ e.Kept (fun _ => 6) ∧ e.HasWide = false ∧
    e.size (fun _ => 6) ≤ 2 ^ 53 ∧ Sched.Valid [(0, 0)] 2 ∧
    (sampleCores E [(0, 0)] 2 (toObjI (fun _ => .die ⟨6, none⟩) e) 5 none none ⟨demoSt 3, fun _ => none⟩).1 =
      .ok (.arr [.flt 4000000, .flt 5000000, .flt 4000000, .flt 5000000, .flt 6000000]) := by
  refine ⟨die_wholeDraws _ demoGen_lawful (fun _ => one_pos), ?_, by decide, by decide, ?_, by decide +kernel⟩
  · simp [IExpr.Kept, IExpr.HasWide, IExpr.size, Fits, TooWide]
  · simp [Sched.Valid]

end Verif
