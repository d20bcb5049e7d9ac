import Verif.Model.Quotient
import Verif.Props.MachineSample
import Mathlib.Data.List.GetD

/-!
# C168: `//` of whole numbers
-/

namespace Verif

open Spec

/-- Python's floor division rounds down. -/
theorem fdiv_isFloorOf {x y : ℤ} (hy : y ≠ 0) : IsFloorOf x y (x.fdiv y) := by
  refine ⟨x.fmod y, ?_, ?_, ?_⟩
  · have := Int.mul_fdiv_add_fmod x y
    linarith [mul_comm y (x.fdiv y)]
  · intro h
    exact ⟨Int.fmod_nonneg_of_pos x h, Int.fmod_lt_of_pos x h⟩
  · intro h
    have e : (-x).fmod (-y) = -(x.fmod y) := Int.neg_fmod_neg ..
    have h1 := Int.fmod_nonneg_of_pos (-x) (neg_pos.2 h)
    have h2 := Int.fmod_lt_of_pos (-x) (neg_pos.2 h)
    omega

/-- Only one number is the quotient rounded down. -/
theorem isFloorOf_unique {x y q q' : ℤ} (hy : y ≠ 0) (h : IsFloorOf x y q) (h' : IsFloorOf x y q') : q = q' := by
  obtain ⟨r, e, p1, p2⟩ := h
  obtain ⟨r', e', p1', p2'⟩ := h'
  have key : (q - q') * y = r' - r := by linarith
  rcases lt_or_gt_of_ne hy with hy | hy
  · have a := p2 hy
    have b := p2' hy
    by_contra hne
    rcases lt_or_gt_of_ne hne with hl | hl
    · have : (q - q') * y ≥ -y := by nlinarith
      omega
    · have : (q - q') * y ≤ y := by nlinarith
      omega
  · have a := p1 hy
    have b := p1' hy
    by_contra hne
    rcases lt_or_gt_of_ne hne with hl | hl
    · have : (q - q') * y ≤ -y := by nlinarith
      omega
    · have : (q - q') * y ≥ y := by nlinarith
      omega

theorem floor_natAbs {x y q : ℤ} (hy : y ≠ 0) (h : IsFloorOf x y q) : q.natAbs ≤ x.natAbs := by
  obtain ⟨r, e, p1, p2⟩ := h
  rcases lt_or_gt_of_ne hy with hy | hy
  · have a := p2 hy
    rcases lt_trichotomy q 0 with hq | hq | hq
    · have : q * y ≥ -q - y - 1 := by nlinarith
      omega
    · omega
    · have : q * y ≤ -q := by nlinarith
      omega
  · have a := p1 hy
    rcases lt_trichotomy q 0 with hq | hq | hq
    · have : q * y ≤ q - y + 1 := by nlinarith
      omega
    · omega
    · have : q * y ≥ q := by nlinarith
      omega

/-- What a sample of `a // b` is, for draws `x` and `y` of `a` and `b`: rounded down, or 0 for the divisor 0. -/
def SampleOfQuot (x y q : ℤ) : Prop := (y ≠ 0 → IsFloorOf x y q) ∧ (y = 0 → q = 0)

variable {σ K : Type} [Field K] [LinearOrder K] [IsStrictOrderedRing K] [FloorRing K]

theorem npBin_floordiv_int (powf : K → K → Option K) (a b : ℤ) :
    npBin powf .floordiv (.int a) (.int b) = .ok (.int (if b = 0 then 0 else a.fdiv b)) := by
  by_cases hb : b = 0
  · subst hb
    simp [npBin, Scalar.num?, Num.val]
  · have : ((b : ℤ) : K) ≠ 0 := by exact_mod_cast hb
    simp [npBin, pyBin, Scalar.num?, Num.val, hb]

theorem quot_natAbs (x y : ℤ) : (if y = 0 then 0 else x.fdiv y).natAbs ≤ x.natAbs := by
  split
  · simp
  · exact floor_natAbs ‹_› (fdiv_isFloorOf ‹_›)

theorem zipWith_mem {α β γ : Type} {f : α → β → γ} {xs : List α} {ys : List β} {z : γ} (h : z ∈ List.zipWith f xs ys) :
    ∃ x ∈ xs, ∃ y ∈ ys, z = f x y := by
  rw [← List.map_uncurry_zip_eq_zipWith] at h
  obtain ⟨⟨x, y⟩, hp, rfl⟩ := List.mem_map.1 h
  exact ⟨x, (List.of_mem_zip hp).1, y, (List.of_mem_zip hp).2, rfl⟩

theorem zipWith_congr_mem {α β γ : Type} {f g : α → β → γ} {xs : List α} {ys : List β}
    (h : ∀ x ∈ xs, ∀ y ∈ ys, f x y = g x y) : List.zipWith f xs ys = List.zipWith g xs ys := by
  induction xs generalizing ys with
  | nil => rfl
  | cons x xs ih =>
    cases ys with
    | nil => rfl
    | cons y ys =>
      rw [List.zipWith_cons_cons, List.zipWith_cons_cons, h x (by simp) y (by simp),
        ih fun a ha b hb => h a (by simp [ha]) b (by simp [hb])]

theorem eval_size_q (o : IOp) {a b : ℤ} {B : ℕ → ℕ} {e e' : QExpr} (ha : a.natAbs ≤ e.size B)
    (hb : b.natAbs ≤ e'.size B) : (o.eval a b).natAbs ≤ (QExpr.bin o e e').size B := by
  cases o with
  | add => exact (Int.natAbs_add_le a b).trans (add_le_add ha hb)
  | sub => exact (Int.natAbs_sub_le a b).trans (add_le_add ha hb)
  | mul => simp only [IOp.eval, Int.natAbs_mul, QExpr.size]; exact Nat.mul_le_mul ha hb
  | max => exact (natAbs_max_le a b).trans (max_le_max ha hb)
  | min => exact (natAbs_min_le a b).trans (max_le_max ha hb)

theorem small_size {B : ℕ → ℕ} {e : QExpr} (h : e.Small B) : e.size B < 2 ^ 63 := by
  induction e with
  | base e => exact h.2
  | bin o a b => exact h.2.2
  | quot a b iha _ => exact iha h.1

/-- Both samplers, run by run. -/
theorem sampleQ64_run (E : Env σ K) (hE : E.gen.Lawful) (ds : ℕ → Leaf K) (hd : ∀ k, (ds k).Regular) {n : ℕ}
    (hn : 1 < n) (B : ℕ → ℕ) (hw : WholeDraws E ds n B) (hB : ∀ k, B k < 2 ^ 63) (e : QExpr)
    (he : e.Small B) (s : St σ K) :
    ∃ (r : Except PyErr (List ℤ)) (s' : St σ K),
      sampleObj E (toObjQ ds e) n none none s = (r.map intArr, s') ∧
      sampleQ64 E ds n e s = (r, s') ∧
      ∀ zs, r = .ok zs → zs.length = n ∧ ∀ z ∈ zs, z.natAbs ≤ e.size B := by
  have hn0 : n ≠ 0 := by omega
  induction e generalizing s with
  | base e =>
    obtain ⟨r, s', h1, h2, h3⟩ := sampleI64_run E hE ds hd hn B hw hB e he.1 s
    refine ⟨r, s', h1, ?_, h3⟩
    rw [sampleQ64, h2]
    rcases r with er | zs
    · rfl
    · have : zs.map toI64 = zs := by
        conv_rhs => rw [← List.map_id zs]
        exact List.map_congr_left fun z hz => toI64_fits (fits_of_natAbs ((h3 zs rfl).2 z hz) he.2)
      simp only [Except.map, this]
  | bin o a b iha ihb =>
    obtain ⟨ha, hb, hs⟩ := he
    obtain ⟨r, s1, h1, h2, h3⟩ := iha ha s
    rcases r with er | xs
    · refine ⟨.error er, s1, ?_, ?_, by simp⟩
      · rw [toObjQ, sampleObj_bin E _ _ _ hn0]
        simp only [SM.bind, h1]; rfl
      · simp only [sampleQ64, SM.bind, h2]
    obtain ⟨r, s2, g1, g2, g3⟩ := ihb hb s1
    rcases r with er | ys
    · refine ⟨.error er, s2, ?_, ?_, by simp⟩
      · rw [toObjQ, sampleObj_bin E _ _ _ hn0]
        simp only [SM.bind, h1, Except.map, g1]
      · simp only [sampleQ64, SM.bind, h2, g2]
    obtain ⟨hl, hx⟩ := h3 xs rfl
    obtain ⟨hl', hy⟩ := g3 ys rfl
    have hsz : ∀ x ∈ xs, ∀ y ∈ ys, (o.eval x y).natAbs ≤ (QExpr.bin o a b).size B := fun x hx' y hy' =>
      eval_size_q o (hx x hx') (hy y hy')
    refine ⟨.ok (List.zipWith o.eval xs ys), s2, ?_, ?_, ?_⟩
    · rw [toObjQ, sampleObj_bin E _ _ _ hn0]
      simp only [SM.bind, h1, Except.map, g1, SM.lift, binFnSamples]
      rw [binSamples_int (hl.trans hl'.symm) fun a b _ => npBin_int E.powf o a b]
    · simp only [sampleQ64, SM.bind, h2, g2, SM.pure]
      congr 2
      refine zipWith_congr_mem fun x hx' y hy' => ?_
      have fx := fits_of_natAbs (hx x hx') (small_size ha)
      have fy := fits_of_natAbs (hy y hy') (small_size hb)
      have := opI64_left o (a := x) (b := y) fun _ => ⟨fx, fy⟩
      rwa [toI64_fits fx, toI64_fits fy, toI64_fits (fits_of_natAbs (hsz x hx' y hy') hs)] at this
    · rintro zs ⟨⟩
      refine ⟨by rw [List.length_zipWith, hl, hl', min_self], fun z hz => ?_⟩
      obtain ⟨x, hx', y, hy', rfl⟩ := zipWith_mem hz
      exact hsz x hx' y hy'
  | quot a b iha ihb =>
    obtain ⟨ha, hb⟩ := he
    obtain ⟨r, s1, h1, h2, h3⟩ := iha ha s
    rcases r with er | xs
    · refine ⟨.error er, s1, ?_, ?_, by simp⟩
      · rw [toObjQ, sampleObj_bin E _ _ _ hn0]
        simp only [SM.bind, h1]; rfl
      · simp only [sampleQ64, SM.bind, h2]
    obtain ⟨r, s2, g1, g2, g3⟩ := ihb hb s1
    rcases r with er | ys
    · refine ⟨.error er, s2, ?_, ?_, by simp⟩
      · rw [toObjQ, sampleObj_bin E _ _ _ hn0]
        simp only [SM.bind, h1, Except.map, g1]
      · simp only [sampleQ64, SM.bind, h2, g2]
    obtain ⟨hl, hx⟩ := h3 xs rfl
    obtain ⟨hl', hy⟩ := g3 ys rfl
    refine ⟨.ok (List.zipWith (fun x y => if y = 0 then 0 else x.fdiv y) xs ys), s2, ?_, ?_, ?_⟩
    · rw [toObjQ, sampleObj_bin E _ _ _ hn0]
      simp only [SM.bind, h1, Except.map, g1, SM.lift, binFnSamples]
      rw [binSamples_int (hl.trans hl'.symm) fun a b _ => npBin_floordiv_int E.powf a b]
    · simp only [sampleQ64, SM.bind, h2, g2, SM.pure]
      congr 2
      refine zipWith_congr_mem fun x hx' y hy' => ?_
      have := quot_natAbs x y
      unfold quotI64
      split
      · rfl
      · rename_i hy0
        rw [if_neg hy0] at this
        exact toI64_fits (fits_of_natAbs (this.trans (hx x hx')) (small_size ha))
    · rintro zs ⟨⟩
      refine ⟨by rw [List.length_zipWith, hl, hl', min_self], fun z hz => ?_⟩
      obtain ⟨x, hx', y, hy', rfl⟩ := zipWith_mem hz
      exact (quot_natAbs x y).trans (hx x hx')

/-- **C168.** As long as the numbers on the way are below `2 ^ 63`, samples of models with `//` are those computed with
whole numbers of any size. -/
theorem C168_exact (E : Env σ K) (hE : E.gen.Lawful) (ds : ℕ → Leaf K) (hd : ∀ k, (ds k).Regular) {n : ℕ}
    (hn : 1 < n) (B : ℕ → ℕ) (hw : WholeDraws E ds n B) (hB : ∀ k, B k < 2 ^ 63) (e : QExpr)
    (he : e.Small B) (s s' : St σ K) (z : Samples K) (h : sampleObj E (toObjQ ds e) n none none s = (.ok z, s')) :
    ∃ zs : List ℤ, sampleQ64 E ds n e s = (.ok zs, s') ∧ z = .arr (zs.map .int) ∧ zs.length = n ∧
      ∀ w ∈ zs, w.natAbs ≤ e.size B := by
  obtain ⟨r, s1, h1, h2, h3⟩ := sampleQ64_run E hE ds hd hn B hw hB e he s
  rw [h1] at h
  rcases r with er | zs
  · simp [Except.map] at h
  · simp only [Except.map, Prod.mk.injEq, Except.ok.injEq] at h
    obtain ⟨rfl, rfl⟩ := h
    exact ⟨zs, h2, rfl, h3 zs rfl⟩

/-- **C168.** Several samples of `a // b` are, one by one, the quotients of the samples of `a` and then `b`, rounded down;
0 where `b` is 0. -/
theorem C168_rounded_down (E : Env σ K) (hE : E.gen.Lawful) (ds : ℕ → Leaf K) (hd : ∀ k, (ds k).Regular) {n : ℕ}
    (hn : 1 < n) (B : ℕ → ℕ) (hw : WholeDraws E ds n B) (hB : ∀ k, B k < 2 ^ 63) (a b : QExpr)
    (ha : a.Small B) (hb : b.Small B) (s s1 s' : St σ K) (xs ys : List ℤ)
    (h1 : sampleQ64 E ds n a s = (.ok xs, s1)) (h2 : sampleQ64 E ds n b s1 = (.ok ys, s')) :
    ∃ zs : List ℤ, sampleQ64 E ds n (.quot a b) s = (.ok zs, s') ∧ zs.length = n ∧ xs.length = n ∧ ys.length = n ∧
      ∀ i < n, SampleOfQuot (xs.getD i 0) (ys.getD i 0) (zs.getD i 0) := by
  obtain ⟨r, t1, -, e2, e3⟩ := sampleQ64_run E hE ds hd hn B hw hB a ha s
  rw [h1] at e2
  obtain ⟨rfl, rfl⟩ := Prod.mk.inj e2
  obtain ⟨r, t2, -, f2, f3⟩ := sampleQ64_run E hE ds hd hn B hw hB b hb s1
  rw [h2] at f2
  obtain ⟨rfl, rfl⟩ := Prod.mk.inj f2
  obtain ⟨hl, hx⟩ := e3 xs rfl
  obtain ⟨hl', hy⟩ := f3 ys rfl
  refine ⟨List.zipWith quotI64 xs ys, by simp only [sampleQ64, SM.bind, h1, h2, SM.pure], by simp [hl, hl'], hl, hl', ?_⟩
  intro i hi
  have i1 : i < xs.length := by omega
  have i2 : i < ys.length := by omega
  rw [List.getD_eq_getElem _ _ (by simp [i1, i2] : i < (List.zipWith quotI64 xs ys).length),
    List.getD_eq_getElem _ _ i1, List.getD_eq_getElem _ _ i2, List.getElem_zipWith]
  have fx := hx _ (List.getElem_mem i1)
  generalize xs[i] = x at fx
  generalize ys[i] = y
  constructor
  · intro hy0
    unfold quotI64
    have := quot_natAbs x y
    rw [if_neg hy0] at this ⊢
    rw [toI64_fits (fits_of_natAbs (this.trans fx) (small_size ha))]
    exact fdiv_isFloorOf hy0
  · intro hy0
    simp [quotI64, hy0]

/-- **C168.** A single sample of `a // b`, without comparisons in `a` and `b`: rounded down, however large the numbers
are, and `ZeroDivisionError` exactly if the divisor is 0. -/
theorem C168_single (E : Env σ K) (hE : E.gen.Lawful) (ds : ℕ → Leaf K) (hd : ∀ k, (ds k).Regular) (B : ℕ → ℕ)
    (hw : WholeDraws E ds 1 B) (a b : IExpr) (ha : a.Polynomial) (hb : b.Polynomial) (s s1 s' : St σ K) (x y : ℤ)
    (h1 : sampleObj E (toObjI ds a) 1 none none s = (.ok (.scalar (.int x)), s1))
    (h2 : sampleObj E (toObjI ds b) 1 none none s1 = (.ok (.scalar (.int y)), s')) :
    (y = 0 → sampleQuotOne E ds a b s = (.error .zeroDivisionError, s')) ∧
    (y ≠ 0 → ∃ q, sampleQuotOne E ds a b s = (.ok ⟨false, q⟩, s') ∧ IsFloorOf x y q ∧
      sampleObj E (toObjQ ds (.quot (.base a) (.base b))) 1 none none s = (.ok (.scalar (.int q)), s')) := by
  obtain ⟨r, t, e1, e2⟩ := C141_single E hE ds hd B hw a ha s
  obtain ⟨r', t', f1, f2⟩ := C141_single E hE ds hd B hw b hb s1
  rw [h1] at e1
  rw [h2] at f1
  rcases r with er | x'
  · simp [Except.map] at e1
  rcases r' with er | y'
  · simp [Except.map] at f1
  simp only [Except.map, Prod.mk.injEq, Except.ok.injEq, Samples.scalar.injEq, Scalar.int.injEq] at e1 f1
  obtain ⟨rfl, rfl⟩ := e1
  obtain ⟨rfl, rfl⟩ := f1
  simp only [Except.map] at e2 f2
  constructor
  · rintro rfl
    simp only [sampleQuotOne, SM.bind, e2, f2, SM.lift, quotOne]
    simp
  · intro hy
    refine ⟨x.fdiv y, ?_, fdiv_isFloorOf hy, ?_⟩
    · simp only [sampleQuotOne, SM.bind, e2, f2, SM.lift, quotOne]
      simp [hy]
    · rw [toObjQ, sampleObj_bin E _ _ _ one_ne_zero]
      simp only [toObjQ, SM.bind, h1, h2, SM.lift, binFnSamples, binSamples]
      have : pyBin E.powf .floordiv (.int x) (.int y) = .ok (.int (x.fdiv y)) := by
        simp [pyBin, Scalar.num?, Num.val, hy]
      rw [this]
      rfl

/-- **C168.** A single sample of `a // b` after a comparison in `a` or `b` (a numpy number): as for several samples, with 0
for the divisor 0. -/
theorem C168_single_numpy (E : Env σ K) (hE : E.gen.Lawful) (ds : ℕ → Leaf K) (hd : ∀ k, (ds k).Regular) (B : ℕ → ℕ)
    (hw : WholeDraws E ds 1 B) (a b : IExpr) (ha : a.ComparesSmall B) (hb : b.ComparesSmall B) (sa : a.size B < 2 ^ 63)
    (sb : b.size B < 2 ^ 63) (s s1 s' : St σ K) (v w : PyWhole) (h1 : sampleOne E ds a s = (.ok v, s1))
    (h2 : sampleOne E ds b s1 = (.ok w, s')) (hnp : v.np = true ∨ w.np = true) :
    ∃ x y q : ℤ, sampleObj E (toObjI ds a) 1 none none s = (.ok (.scalar (.int x)), s1) ∧
      sampleObj E (toObjI ds b) 1 none none s1 = (.ok (.scalar (.int y)), s') ∧
      sampleQuotOne E ds a b s = (.ok ⟨true, q⟩, s') ∧ SampleOfQuot x y q := by
  obtain ⟨x, e1, e2, e3, -⟩ := sampleOne_run E hE ds hd B hw a ha s s1 v h1
  obtain ⟨y, f1, f2, f3, -⟩ := sampleOne_run E hE ds hd B hw b hb s1 s' w h2
  have hv := (C141_single_left_over E hE ds hd B hw a ha s s1 v h1)
  obtain ⟨x', g1, -, -, g2⟩ := hv
  rw [e1] at g1
  obtain rfl : x = x' := by simpa using g1
  obtain ⟨y', k1, -, -, k2⟩ := C141_single_left_over E hE ds hd B hw b hb s1 s' w h2
  rw [f1] at k1
  obtain rfl : y = y' := by simpa using k1
  have fx := fits_of_natAbs e2 sa
  have fy := fits_of_natAbs f2 sb
  refine ⟨x, y, quotI64 x y, e1, f1, ?_, ?_, ?_⟩
  · have hc : (v.np || w.np) = true := by simpa using hnp
    simp only [sampleQuotOne, SM.bind, h1, h2, SM.lift, quotOne, hc, if_true, g2 sa, k2 sb, fitI64_ok fx, fitI64_ok fy]
    rfl
  · intro hy0
    have := quot_natAbs x y
    unfold quotI64
    rw [if_neg hy0] at this ⊢
    rw [toI64_fits (fits_of_natAbs (this.trans e2) sa)]
    exact fdiv_isFloorOf hy0
  · intro hy0
    simp [quotI64, hy0]

/-- `7 // dist_min(die(6) - 1, 3)` for a roll of 1: no error here. -/
example : (sampleQuotOne demoEnv (fun _ => .die ⟨6, none⟩ : ℕ → Leaf ℚ) (.num 7)
    (.bin .min (.bin .sub (.src 0) (.num 1)) (.num 3)) (demoSt 0)).1 = .ok ⟨true, 0⟩ := by decide +kernel

/-- **C168 fails** (the same for one and several samples): `10 // (die(6) - 1)` with a roll of 1 raises an error for
one sample, and is 0 as one of two samples. -/
theorem C168_zero_fails :
    let ds : ℕ → Leaf ℚ := fun _ => .die ⟨6, none⟩
    let b : IExpr := .bin .sub (.src 0) (.num 1)
    (sampleQuotOne demoEnv ds (.num 10) b (demoSt 0)).1 = .error .zeroDivisionError ∧
    (sampleQ64 demoEnv ds 2 (.quot (.base (.num 10)) (.base b)) (demoSt 0)).1 = .ok [0, 10] := by
  refine ⟨?_, ?_⟩ <;> decide +kernel

/-- **C168 fails** at the edge: the quotient of `-2^63` by `-1` is negative for several samples. -/
theorem C168_edge_fails :
    let ds : ℕ → Leaf ℚ := fun _ => .die ⟨6, none⟩
    Fits (-2 ^ 63) ∧
    (sampleQ64 demoEnv ds 2 (.quot (.base (.num (-2 ^ 63))) (.base (.num (-1)))) (demoSt 0)).1 =
      .ok [-2 ^ 63, -2 ^ 63] ∧
    (sampleQuotOne demoEnv ds (.num (-2 ^ 63)) (.num (-1)) (demoSt 0)).1 = .ok ⟨false, 2 ^ 63⟩ := by
  refine ⟨by decide, ?_, ?_⟩ <;> decide +kernel

/-- Minus the sum of two dice, divided by a die, plus 1: quotients of negative numbers are rounded down. -/
example : let e : QExpr := .bin .add (.quot (.base (.neg (.bin .add (.src 0) (.src 0)))) (.base (.src 0))) (.base (.num 1))
    let E : Env ℕ ℚ := { demoEnv with exp := fun _ => 1 }
    WholeDraws E (fun _ => .die ⟨6, none⟩) 2 (fun _ => 6) ∧ e.Small (fun _ => 6) ∧
    (sampleQ64 E (fun _ => .die ⟨6, none⟩) 2 e (demoSt 0)).1 = .ok [0, 0] := by
  refine ⟨die_wholeDraws _ demoGen_lawful (fun _ => one_pos) 2, ?_, by decide +kernel⟩
  simp [QExpr.Small, QExpr.size, IExpr.ComparesSmall, IExpr.size, IOp.Compares, Fits]

end Verif
