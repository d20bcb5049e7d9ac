import Verif.Model.MachineSample
import Verif.Lemmas.Sample
import Verif.Lemmas.Shape
import Verif.Lemmas.DemoGen
import Verif.Props.Support
import Verif.Props.SampleCount

/-!
# Whole numbers beyond 64 bits (C141)

Draws from the `k`-th distribution are whole numbers of size at most `B k < 2 ^ 63`.
-/

namespace Verif

open Spec

/-! ### 64-bit arithmetic -/

/-- `toI64` keeps what is left of a number in 64 bits. -/
theorem toI64_leftOf (z : ℤ) : LeftOf z (toI64 z) := by
  unfold toI64
  refine ⟨⟨?_, ?_⟩, ?_⟩
  · have := Int.le_bmod (x := z) (m := 2 ^ 64) (by norm_num)
    norm_num at this ⊢
    omega
  · have := Int.bmod_lt (x := z) (m := 2 ^ 64) (by norm_num)
    norm_num at this ⊢
    omega
  · exact (Int.ModEq.symm (a := z) (b := z.bmod (2 ^ 64)) (n := 2 ^ 64)
      (by unfold Int.ModEq; exact_mod_cast (Int.bmod_emod (x := z) (m := 2 ^ 64)).symm)).dvd

theorem leftOf_unique {z w w' : ℤ} (h : LeftOf z w) (h' : LeftOf z w') : w = w' := by
  obtain ⟨⟨a1, a2⟩, k, hk⟩ := h
  obtain ⟨⟨b1, b2⟩, l, hl⟩ := h'
  norm_num at a1 a2 b1 b2 hk hl
  omega

theorem toI64_eq {z w : ℤ} (h : LeftOf z w) : toI64 z = w := leftOf_unique (toI64_leftOf z) h

theorem toI64_fits {z : ℤ} (h : Fits z) : toI64 z = z := toI64_eq ⟨h, by simp⟩

theorem toI64_eq_self_iff {z : ℤ} : toI64 z = z ↔ Fits z :=
  ⟨fun h => by rw [← h]; exact (toI64_leftOf z).1, toI64_fits⟩

theorem toI64_congr {z w : ℤ} (h : (2 ^ 64 : ℤ) ∣ z - w) : toI64 z = toI64 w := by
  apply toI64_eq
  obtain ⟨h1, h2⟩ := toI64_leftOf w
  exact ⟨h1, by have := dvd_add h h2; simpa using this⟩

theorem toI64_neg (z : ℤ) : toI64 (-toI64 z) = toI64 (-z) := by
  apply toI64_congr
  have := (toI64_leftOf z).2
  rwa [show -toI64 z - -z = z - toI64 z by ring]

theorem toI64_add (a b : ℤ) : toI64 (toI64 a + toI64 b) = toI64 (a + b) := by
  apply toI64_congr
  have := dvd_add (toI64_leftOf a).2 (toI64_leftOf b).2
  rw [show toI64 a + toI64 b - (a + b) = -(a - toI64 a + (b - toI64 b)) by ring]
  exact this.neg_right

theorem toI64_sub (a b : ℤ) : toI64 (toI64 a - toI64 b) = toI64 (a - b) := by
  apply toI64_congr
  have := dvd_sub (toI64_leftOf a).2 (toI64_leftOf b).2
  rw [show toI64 a - toI64 b - (a - b) = -(a - toI64 a - (b - toI64 b)) by ring]
  exact this.neg_right

theorem toI64_mul (a b : ℤ) : toI64 (toI64 a * toI64 b) = toI64 (a * b) := by
  apply toI64_congr
  have h1 := ((toI64_leftOf a).2).mul_right (toI64 b)
  have h2 := ((toI64_leftOf b).2).mul_left a
  rw [show toI64 a * toI64 b - a * b = -((a - toI64 a) * toI64 b + a * (b - toI64 b)) by ring]
  exact (dvd_add h1 h2).neg_right

theorem toI64_pow (a : ℤ) (k : ℕ) : toI64 (toI64 a ^ k) = toI64 (a ^ k) := by
  apply toI64_congr
  have h1 : toI64 a - a ∣ toI64 a ^ k - a ^ k := sub_dvd_pow_sub_pow _ _ _
  have h2 : (2 ^ 64 : ℤ) ∣ toI64 a - a := by
    rw [← neg_sub]
    exact ((toI64_leftOf a).2).neg_right
  exact h2.trans h1

theorem fits_of_natAbs {z : ℤ} {m : ℕ} (h : z.natAbs ≤ m) (hm : m < 2 ^ 63) : Fits z := by
  unfold Fits
  norm_num at hm ⊢
  omega

theorem fitI64_ok {z : ℤ} (h : Fits z) : fitI64 z = .ok z := if_pos h

/-! ### How the sampler runs -/

section run

variable {σ K : Type} [Field K] [LinearOrder K] [IsStrictOrderedRing K] [FloorRing K]

omit [IsStrictOrderedRing K] in
theorem sampleObj_un (E : Env σ K) (f : UnFn) (d : Obj (St σ K) K) {n : ℕ} (hn : n ≠ 0) :
    sampleObj E (.un f d) n none none = SM.bind (sampleObj E d n none none) fun x => SM.lift (unSamples E f x) := by
  funext s
  unfold sampleObj
  conv_lhs => unfold withClips
  rw [if_neg hn]
  simp only [SM.bind, SM.lift, Obj.clips, combineL, combineR, rawObj]
  rcases withClips E d.clips (rawObj E d) n none none s with ⟨e | z, s'⟩
  · rfl
  · simp only
    rcases unSamples E f z with e | w <;> rfl

omit [IsStrictOrderedRing K] in
theorem sampleObj_bin (E : Env σ K) (f : BinFn) (a b : Obj (St σ K) K) {n : ℕ} (hn : n ≠ 0) :
    sampleObj E (.bin f a b) n none none = SM.bind (sampleObj E a n none none) fun x =>
      SM.bind (sampleObj E b n none none) fun y => SM.lift (binFnSamples E f x y) := by
  funext s
  unfold sampleObj
  conv_lhs => unfold withClips
  rw [if_neg hn]
  simp only [SM.bind, SM.lift, Obj.clips, combineL, combineR, rawObj]
  rcases withClips E a.clips (rawObj E a) n none none s with ⟨e | z, s'⟩
  · rfl
  · simp only
    rcases withClips E b.clips (rawObj E b) n none none s' with ⟨e | z', s''⟩
    · rfl
    · simp only
      rcases binFnSamples E f z z' with e | w <;> rfl

omit [IsStrictOrderedRing K] in
theorem sampleObj_lit (E : Env σ K) (v : Scalar K) {n : ℕ} (hn : n ≠ 0) (s : St σ K) :
    sampleObj E (.lit v) n none none s = (.ok (constSamples v n), s) := by
  unfold sampleObj withClips
  rw [if_neg hn]
  rfl

omit [Field K] [LinearOrder K] [IsStrictOrderedRing K] [FloorRing K] in
theorem constSamples_arr (v : Scalar K) {n : ℕ} (hn : 1 < n) : constSamples v n = .arr (List.replicate n v) := by
  unfold constSamples
  match n, hn with
  | n + 2, _ => simp [Samples.simplify, List.replicate_succ]

/-! ### Operations on arrays of whole numbers -/

/-- An array of whole numbers. -/
def intArr (zs : List ℤ) : Samples K := .arr (zs.map .int)

theorem broadcast_zip {α : Type} {xs ys : List α} (h : xs.length = ys.length) : broadcast xs ys = .ok (xs.zip ys) :=
  if_pos h

omit [Field K] [LinearOrder K] [IsStrictOrderedRing K] [FloorRing K] in
theorem mapExcept_int {f : Scalar K × Scalar K → Except PyErr (Scalar K)} {g : ℤ → ℤ → ℤ} {xs ys : List ℤ}
    (h : ∀ a, ∀ b ∈ ys, f (.int a, .int b) = .ok (.int (g a b))) :
    mapExcept f ((xs.map .int).zip (ys.map .int)) = .ok ((List.zipWith g xs ys).map .int) := by
  induction xs generalizing ys with
  | nil => rfl
  | cons x xs ih =>
    cases ys with
    | nil => rfl
    | cons y ys =>
      simp only [List.map_cons, List.zip_cons_cons, mapExcept, List.zipWith_cons_cons]
      rw [h x y (by simp), ih fun a b hb => h a b (by simp [hb])]
      rfl

omit [IsStrictOrderedRing K] in
theorem binSamples_int {powf : K → K → Option K} {op : BinOp} {g : ℤ → ℤ → ℤ} {xs ys : List ℤ}
    (hl : xs.length = ys.length)
    (h : ∀ a, ∀ b ∈ ys, npBin powf op (.int a) (.int b) = .ok (.int (g a b))) :
    binSamples powf op (intArr xs) (intArr ys) = .ok (intArr (List.zipWith g xs ys)) := by
  unfold intArr binSamples
  have hb : broadcast (xs.map (.int : ℤ → Scalar K)) (ys.map .int) = .ok ((xs.map .int).zip (ys.map .int)) :=
    broadcast_zip (by simpa using hl)
  simp only [Samples.toList]
  rw [hb]
  have := mapExcept_int (f := fun p => npBin powf op p.1 p.2) (xs := xs) h
  simp only [bind, Except.bind]
  rw [this]

omit [IsStrictOrderedRing K] in
theorem vectorize2_int {f : Scalar K → Scalar K → Except PyErr (Scalar K)} {g : ℤ → ℤ → ℤ} {xs ys : List ℤ}
    (hl : xs.length = ys.length) (hne : xs ≠ [])
    (h : ∀ a, ∀ b ∈ ys, f (.int a) (.int b) = .ok (.int (g a b))) :
    vectorize2 f (intArr xs) (intArr ys) = .ok (intArr (List.zipWith g xs ys)) := by
  unfold intArr vectorize2
  have hb : broadcast (xs.map (.int : ℤ → Scalar K)) (ys.map .int) = .ok ((xs.map .int).zip (ys.map .int)) :=
    broadcast_zip (by simpa using hl)
  simp only [Samples.toList]
  rw [hb]
  have := mapExcept_int (f := fun p => f p.1 p.2) (xs := xs) h
  simp only [bind, Except.bind]
  rw [this]
  have hc : ∀ zs : List ℤ, mapExcept (vecCast .int) (zs.map (.int : ℤ → Scalar K)) = .ok (zs.map .int) := by
    intro zs
    induction zs with
    | nil => rfl
    | cons z zs ih =>
      simp only [List.map_cons, mapExcept]
      rw [ih]
      rfl
  match xs, ys, hl, hne with
  | x :: xs, y :: ys, _, _ =>
    simp only [List.zipWith_cons_cons, List.map_cons, Scalar.dt]
    have := hc (g x y :: List.zipWith g xs ys)
    simp only [List.map_cons] at this
    rw [this]

/-! ### Several samples -/

omit [IsStrictOrderedRing K] in
theorem npBin_int (powf : K → K → Option K) (o : IOp) (a b : ℤ) :
    npBin powf (IOp.toBinOp o) (.int a) (.int b) = .ok (.int (o.eval a b)) := by
  cases o <;> rfl

omit [IsStrictOrderedRing K] in
theorem npBin_pow_int (powf : K → K → Option K) (a : ℤ) (k : ℕ) :
    npBin powf .pow (.int a) (.int k) = .ok (.int (a ^ k)) := by
  have h : ¬ ((k : ℤ) < 0) := by omega
  have h' : (0 : ℤ) ≤ k := by omega
  simp only [npBin, Scalar.num?, pyBin]
  rw [if_neg h, if_pos h']
  simp

theorem lclipElem_int (a c : ℤ) :
    lclipElem (.int a : Scalar K) (.int c) = .ok (.int (max a c)) := by
  simp only [lclipElem, Scalar.lt, Scalar.num?, Num.val, Int.cast_lt, bind, Except.bind, decide_eq_true_eq]
  by_cases h : a < c
  · rw [if_pos h, max_eq_right h.le]
  · rw [if_neg h, max_eq_left (not_lt.1 h)]

theorem rclipElem_int (a c : ℤ) :
    rclipElem (.int a : Scalar K) (.int c) = .ok (.int (min a c)) := by
  simp only [rclipElem, Scalar.lt, Scalar.num?, Num.val, Int.cast_lt, bind, Except.bind, decide_eq_true_eq]
  by_cases h : c < a
  · rw [if_pos h, min_eq_right h.le]
  · rw [if_neg h, min_eq_left (not_lt.1 h)]

theorem natAbs_max_le (a b : ℤ) : (max a b).natAbs ≤ max a.natAbs b.natAbs := by
  rcases max_choice a b with e | e <;> rw [e]
  · exact le_max_left _ _
  · exact le_max_right _ _

theorem natAbs_min_le (a b : ℤ) : (min a b).natAbs ≤ max a.natAbs b.natAbs := by
  rcases min_choice a b with e | e <;> rw [e]
  · exact le_max_left _ _
  · exact le_max_right _ _

/-- The value of an operator is not larger than `size` says. -/
theorem eval_size (o : IOp) {a b : ℤ} {B : ℕ → ℕ} {e e' : IExpr} (ha : a.natAbs ≤ e.size B) (hb : b.natAbs ≤ e'.size B) :
    (o.eval a b).natAbs ≤ (IExpr.bin o e e').size B := by
  cases o with
  | add => exact (Int.natAbs_add_le a b).trans (add_le_add ha hb)
  | sub => exact (Int.natAbs_sub_le a b).trans (add_le_add ha hb)
  | mul => simp only [IOp.eval, Int.natAbs_mul, IExpr.size]; exact Nat.mul_le_mul ha hb
  | max => exact (natAbs_max_le a b).trans (max_le_max ha hb)
  | min => exact (natAbs_min_le a b).trans (max_le_max ha hb)

/-- A 64-bit operation on what is left of two numbers gives what is left of the result. -/
theorem opI64_left (o : IOp) {a b : ℤ} (h : o.Compares → Fits a ∧ Fits b) :
    opI64 o (toI64 a) (toI64 b) = toI64 (o.eval a b) := by
  cases o with
  | add => exact toI64_add a b
  | sub => exact toI64_sub a b
  | mul => exact toI64_mul a b
  | max =>
    obtain ⟨h1, h2⟩ := h trivial
    simp only [opI64, IOp.eval]
    rw [toI64_fits h1, toI64_fits h2]
    rcases max_choice a b with e | e <;> rw [e, toI64_fits] <;> assumption
  | min =>
    obtain ⟨h1, h2⟩ := h trivial
    simp only [opI64, IOp.eval]
    rw [toI64_fits h1, toI64_fits h2]
    rcases min_choice a b with e | e <;> rw [e, toI64_fits] <;> assumption

theorem zipWith_left (o : IOp) {xs ys : List ℤ} (h : o.Compares → (∀ x ∈ xs, Fits x) ∧ ∀ y ∈ ys, Fits y) :
    List.zipWith (opI64 o) (xs.map toI64) (ys.map toI64) = (List.zipWith o.eval xs ys).map toI64 := by
  induction xs generalizing ys with
  | nil => rfl
  | cons x xs ih =>
    cases ys with
    | nil => rfl
    | cons y ys =>
      simp only [List.map_cons, List.zipWith_cons_cons]
      rw [opI64_left o fun hc => ⟨(h hc).1 x (by simp), (h hc).2 y (by simp)⟩,
        ih fun hc => ⟨fun z hz => (h hc).1 z (by simp [hz]), fun z hz => (h hc).2 z (by simp [hz])⟩]

theorem zipWith_size (o : IOp) {xs ys : List ℤ} {B : ℕ → ℕ} {e e' : IExpr} (hx : ∀ x ∈ xs, x.natAbs ≤ e.size B)
    (hy : ∀ y ∈ ys, y.natAbs ≤ e'.size B) :
    ∀ z ∈ List.zipWith o.eval xs ys, z.natAbs ≤ (IExpr.bin o e e').size B := by
  intro z hz
  rw [← List.map_uncurry_zip_eq_zipWith] at hz
  obtain ⟨⟨x, y⟩, hp, rfl⟩ := List.mem_map.1 hz
  exact eval_size o (hx x (List.of_mem_zip hp).1) (hy y (List.of_mem_zip hp).2)

theorem zipWith_replicate {α β γ : Type} (f : α → β → γ) (xs : List α) (b : β) :
    List.zipWith f xs (List.replicate xs.length b) = xs.map fun x => f x b := by
  induction xs with
  | nil => rfl
  | cons x xs ih => simp only [List.length_cons, List.replicate_succ, List.zipWith_cons_cons, List.map_cons, ih]

/-- The draws are whole numbers of limited size. -/
def WholeDraws (E : Env σ K) (ds : ℕ → Leaf K) (n : ℕ) (B : ℕ → ℕ) : Prop :=
  ∀ k s s' z, sampleObj E (.leaf (ds k) none none) n none none s = (.ok z, s') →
    ∀ v ∈ z.toList, ∃ x : ℤ, v = .int x ∧ x.natAbs ≤ B k

omit [IsStrictOrderedRing K] in
theorem intArr_of_list {zs : List (Scalar K)} {m : ℕ} (h : ∀ v ∈ zs, ∃ x : ℤ, v = .int x ∧ x.natAbs ≤ m) :
    ∃ xs : List ℤ, zs = xs.map .int ∧ ∀ x ∈ xs, x.natAbs ≤ m := by
  induction zs with
  | nil => exact ⟨[], rfl, by simp⟩
  | cons v zs ih =>
    obtain ⟨x, rfl, hx⟩ := h v (by simp)
    obtain ⟨xs, rfl, hxs⟩ := ih fun w hw => h w (by simp [hw])
    refine ⟨x :: xs, rfl, ?_⟩
    intro y hy
    rcases List.mem_cons.1 hy with rfl | hy
    · exact hx
    · exact hxs y hy

omit [IsStrictOrderedRing K] in
theorem ints_intArr {xs : List ℤ} (h : ∀ x ∈ xs, Fits x) : ints (intArr xs : Samples K) = .ok (xs.map toI64) := by
  unfold ints intArr
  simp only [Samples.toList]
  induction xs with
  | nil => rfl
  | cons x xs ih =>
    simp only [List.map_cons, mapExcept]
    rw [fitI64_ok (h x (by simp)), ih fun y hy => h y (by simp [hy]), toI64_fits (h x (by simp))]
    rfl

/-- Both samplers, run by run. -/
theorem sampleI64_run (E : Env σ K) (hE : E.gen.Lawful) (ds : ℕ → Leaf K) (hd : ∀ k, (ds k).Regular) {n : ℕ}
    (hn : 1 < n) (B : ℕ → ℕ) (hw : WholeDraws E ds n B) (hB : ∀ k, B k < 2 ^ 63) (e : IExpr)
    (he : e.ComparesSmall B) (s : St σ K) :
    ∃ (r : Except PyErr (List ℤ)) (s' : St σ K),
      sampleObj E (toObjI ds e) n none none s = (r.map intArr, s') ∧
      sampleI64 E ds n e s = (r.map (·.map toI64), s') ∧
      ∀ zs, r = .ok zs → zs.length = n ∧ ∀ z ∈ zs, z.natAbs ≤ e.size B := by
  have hn0 : n ≠ 0 := by omega
  induction e generalizing s with
  | src k =>
    rcases hs : sampleObj E (.leaf (ds k) none none) n none none s with ⟨e | z, s'⟩
    · exact ⟨.error e, s', hs, by simp only [sampleI64, SM.bind, hs]; rfl, by simp⟩
    · have hsh := (C11_count_partial E hE (.leaf (ds k) none none) (hd k) _ _ _ _ _ _ hs).2
      obtain ⟨xs, e1, e2⟩ := intArr_of_list (hw k s s' z hs)
      have hz : z = intArr xs ∧ xs.length = n := by
        cases z with
        | scalar v => exact absurd hsh (by simp only [Shape]; omega)
        | arr vs =>
          simp only [Samples.toList] at e1
          subst e1
          exact ⟨rfl, by simpa using hsh.2⟩
      obtain ⟨rfl, hl⟩ := hz
      refine ⟨.ok xs, s', hs, ?_, ?_⟩
      · simp only [sampleI64, SM.bind, hs, SM.lift]
        rw [ints_intArr fun x hx => fits_of_natAbs (e2 x hx) (hB k)]
        rfl
      · rintro zs ⟨⟩
        exact ⟨hl, e2⟩
  | num z =>
    refine ⟨.ok (List.replicate n z), s, ?_, ?_, ?_⟩
    · rw [toObjI, sampleObj_lit E _ hn0, constSamples_arr _ hn]
      simp [intArr, Except.map]
    · simp only [sampleI64, SM.lift]
      rw [fitI64_ok he]
      simp [Except.map, toI64_fits he, bind, Except.bind]
    · rintro zs ⟨⟩
      refine ⟨by simp, fun x hx => ?_⟩
      rw [(List.mem_replicate.1 hx).2]
      exact le_rfl
  | neg e ih =>
    obtain ⟨r, s', h1, h2, h3⟩ := ih he s
    rcases r with er | zs
    · refine ⟨.error er, s', ?_, ?_, by simp⟩
      · rw [toObjI, sampleObj_un E _ _ hn0]
        simp only [SM.bind, h1]; rfl
      · simp only [sampleI64, SM.bind, h2]; rfl
    · obtain ⟨hl, hb⟩ := h3 zs rfl
      refine ⟨.ok (zs.map fun z => -z), s', ?_, ?_, ?_⟩
      · rw [toObjI, sampleObj_un E _ _ hn0]
        simp only [SM.bind, h1, Except.map, SM.lift, unSamples, intArr]
        have : mapExcept npNeg (zs.map (.int : ℤ → Scalar K)) = .ok ((zs.map fun z => -z).map .int) := by
          clear h1 h2 h3 hl hb
          induction zs with
          | nil => rfl
          | cons z zs ih' =>
            simp only [List.map_cons, mapExcept]
            rw [ih']
            rfl
        rw [this]
        rfl
      · simp only [sampleI64, SM.bind, h2, Except.map, SM.pure, List.map_map]
        congr 3
        funext x
        exact toI64_neg x
      · rintro ws ⟨⟩
        refine ⟨by simpa using hl, fun w hw => ?_⟩
        obtain ⟨z, hz, rfl⟩ := List.mem_map.1 hw
        rw [Int.natAbs_neg]
        exact hb z hz
  | bin o a b iha ihb =>
    obtain ⟨ca, cb, hc⟩ := he
    obtain ⟨r, s1, h1, h2, h3⟩ := iha ca s
    rcases r with er | xs
    · refine ⟨.error er, s1, ?_, ?_, by simp⟩
      · rw [toObjI, sampleObj_bin E _ _ _ hn0]
        simp only [SM.bind, h1]; rfl
      · simp only [sampleI64, SM.bind, h2]; rfl
    · obtain ⟨r, s2, k1, k2, k3⟩ := ihb cb s1
      rcases r with er | ys
      · refine ⟨.error er, s2, ?_, ?_, by simp⟩
        · rw [toObjI, sampleObj_bin E _ _ _ hn0]
          simp only [SM.bind, h1, k1, Except.map]
        · simp only [sampleI64, SM.bind, h2, k2, Except.map]
      · obtain ⟨hl, hb⟩ := h3 xs rfl
        obtain ⟨hl', hb'⟩ := k3 ys rfl
        refine ⟨.ok (List.zipWith o.eval xs ys), s2, ?_, ?_, ?_⟩
        · rw [toObjI, sampleObj_bin E _ _ _ hn0]
          simp only [SM.bind, h1, k1, Except.map, SM.lift, binFnSamples]
          rw [binSamples_int (hl.trans hl'.symm) fun a b _ => npBin_int _ o a b]
        · simp only [sampleI64, SM.bind, h2, k2, Except.map, SM.pure]
          rw [zipWith_left o fun h => ⟨fun x hx => fits_of_natAbs (hb x hx) (hc h).1,
            fun x hx => fits_of_natAbs (hb' x hx) (hc h).2⟩]
        · rintro ws ⟨⟩
          exact ⟨by rw [List.length_zipWith, hl, hl', min_self], zipWith_size o hb hb'⟩
  | pow e k ih =>
    obtain ⟨ce, hk⟩ := he
    obtain ⟨r, s', h1, h2, h3⟩ := ih ce s
    rcases r with er | zs
    · refine ⟨.error er, s', ?_, ?_, by simp⟩
      · rw [toObjI, sampleObj_bin E _ _ _ hn0]
        simp only [SM.bind, h1]; rfl
      · simp only [sampleI64, SM.bind, h2]; rfl
    · obtain ⟨hl, hb⟩ := h3 zs rfl
      refine ⟨.ok (zs.map fun z => z ^ k), s', ?_, ?_, ?_⟩
      · rw [toObjI, sampleObj_bin E _ _ _ hn0]
        simp only [SM.bind, h1, Except.map, SM.lift, binFnSamples, sampleObj_lit E _ hn0, constSamples_arr _ hn]
        have e1 : (Samples.arr (List.replicate n (.int k)) : Samples K) = intArr (List.replicate n (k : ℤ)) := by
          simp [intArr]
        rw [e1, binSamples_int (g := fun a b => a ^ b.toNat) (by simpa using hl) fun a b hb => by
          rw [(List.mem_replicate.1 hb).2, npBin_pow_int]; simp, ← hl, zipWith_replicate]
        simp
      · simp only [sampleI64, SM.bind, h2, Except.map, SM.lift]
        rw [fitI64_ok (fits_of_natAbs (m := k) (by simp) hk)]
        simp only [bind, Except.bind, List.map_map]
        congr 3
        funext x
        exact toI64_pow x k
      · rintro ws ⟨⟩
        refine ⟨by simpa using hl, fun w hw => ?_⟩
        obtain ⟨z, hz, rfl⟩ := List.mem_map.1 hw
        rw [Int.natAbs_pow]
        exact Nat.pow_le_pow_left (hb z hz) k
  | lclip e c ih =>
    obtain ⟨ce, hs, hc⟩ := he
    obtain ⟨r, s', h1, h2, h3⟩ := ih ce s
    rcases r with er | zs
    · refine ⟨.error er, s', ?_, ?_, by simp⟩
      · rw [toObjI, sampleObj_bin E _ _ _ hn0]
        simp only [SM.bind, h1]; rfl
      · simp only [sampleI64, SM.bind, h2]; rfl
    · obtain ⟨hl, hb⟩ := h3 zs rfl
      refine ⟨.ok (zs.map fun z => max z c), s', ?_, ?_, ?_⟩
      · rw [toObjI, sampleObj_bin E _ _ _ hn0]
        simp only [SM.bind, h1, Except.map, SM.lift, binFnSamples, sampleObj_lit E _ hn0, constSamples_arr _ hn]
        have e1 : (Samples.arr (List.replicate n (.int c)) : Samples K) = intArr (List.replicate n c) := by
          simp [intArr]
        rw [e1, vectorize2_int (g := max) (by simpa using hl) (by rintro rfl; simp at hl; omega)
          fun a b _ => lclipElem_int a b, ← hl, zipWith_replicate]
      · simp only [sampleI64, SM.bind, h2, Except.map, SM.lift]
        rw [fitI64_ok hc]
        simp only [bind, Except.bind, List.map_map]
        congr 2
        refine List.map_congr_left fun z hz => ?_
        have hf := fits_of_natAbs (hb z hz) hs
        simp only [Function.comp_apply, toI64_fits hf]
        by_cases h : z < c
        · rw [if_pos h, max_eq_right h.le, toI64_fits hc]
        · rw [if_neg h, max_eq_left (not_lt.1 h), toI64_fits hf]
      · rintro ws ⟨⟩
        refine ⟨by simpa using hl, fun w hw => ?_⟩
        obtain ⟨z, hz, rfl⟩ := List.mem_map.1 hw
        exact (natAbs_max_le z c).trans (max_le_max (hb z hz) le_rfl)
  | rclip e c ih =>
    obtain ⟨ce, hs, hc⟩ := he
    obtain ⟨r, s', h1, h2, h3⟩ := ih ce s
    rcases r with er | zs
    · refine ⟨.error er, s', ?_, ?_, by simp⟩
      · rw [toObjI, sampleObj_bin E _ _ _ hn0]
        simp only [SM.bind, h1]; rfl
      · simp only [sampleI64, SM.bind, h2]; rfl
    · obtain ⟨hl, hb⟩ := h3 zs rfl
      refine ⟨.ok (zs.map fun z => min z c), s', ?_, ?_, ?_⟩
      · rw [toObjI, sampleObj_bin E _ _ _ hn0]
        simp only [SM.bind, h1, Except.map, SM.lift, binFnSamples, sampleObj_lit E _ hn0, constSamples_arr _ hn]
        have e1 : (Samples.arr (List.replicate n (.int c)) : Samples K) = intArr (List.replicate n c) := by
          simp [intArr]
        rw [e1, vectorize2_int (g := min) (by simpa using hl) (by rintro rfl; simp at hl; omega)
          fun a b _ => rclipElem_int a b, ← hl, zipWith_replicate]
      · simp only [sampleI64, SM.bind, h2, Except.map, SM.lift]
        rw [fitI64_ok hc]
        simp only [bind, Except.bind, List.map_map]
        congr 2
        refine List.map_congr_left fun z hz => ?_
        have hf := fits_of_natAbs (hb z hz) hs
        simp only [Function.comp_apply, toI64_fits hf, gt_iff_lt]
        by_cases h : c < z
        · rw [if_pos h, min_eq_right h.le, toI64_fits hc]
        · rw [if_neg h, min_eq_left (not_lt.1 h), toI64_fits hf]
      · rintro ws ⟨⟩
        refine ⟨by simpa using hl, fun w hw => ?_⟩
        obtain ⟨z, hz, rfl⟩ := List.mem_map.1 hw
        exact (natAbs_min_le z c).trans (max_le_max (hb z hz) le_rfl)

/-- **C141**: for several samples, sampling goes as with numbers of any size, and each sample is what is left of the exact
number in 64 bits; nothing is said about it (no error). -/
theorem C141_left_over (E : Env σ K) (hE : E.gen.Lawful) (ds : ℕ → Leaf K) (hd : ∀ k, (ds k).Regular) {n : ℕ}
    (hn : 1 < n) (B : ℕ → ℕ) (hw : WholeDraws E ds n B) (hB : ∀ k, B k < 2 ^ 63) (e : IExpr)
    (he : e.ComparesSmall B) (s s' : St σ K) :
    (∀ err, sampleObj E (toObjI ds e) n none none s = (.error err, s') ↔ sampleI64 E ds n e s = (.error err, s')) ∧
    (∀ z, sampleObj E (toObjI ds e) n none none s = (.ok z, s') →
      ∃ zs ws : List ℤ, z = .arr (zs.map .int) ∧ sampleI64 E ds n e s = (.ok ws, s') ∧ List.Forall₂ LeftOf zs ws) ∧
    (∀ ws, sampleI64 E ds n e s = (.ok ws, s') →
      ∃ zs : List ℤ, sampleObj E (toObjI ds e) n none none s = (.ok (.arr (zs.map .int)), s') ∧
        List.Forall₂ LeftOf zs ws) := by
  obtain ⟨r, s1, h1, h2, h3⟩ := sampleI64_run E hE ds hd hn B hw hB e he s
  have hf : ∀ zs : List ℤ, List.Forall₂ LeftOf zs (zs.map toI64) := fun zs => by
    rw [List.forall₂_map_right_iff, List.forall₂_same]
    exact fun z _ => toI64_leftOf z
  rw [h1, h2]
  rcases r with er | zs
  · simp [Except.map]
  · refine ⟨by simp [Except.map], ?_, ?_⟩
    · intro z hz
      simp only [Except.map, Prod.mk.injEq, Except.ok.injEq] at hz
      obtain ⟨rfl, rfl⟩ := hz
      exact ⟨zs, _, rfl, rfl, hf zs⟩
    · intro ws hws
      simp only [Except.map, Prod.mk.injEq, Except.ok.injEq] at hws
      obtain ⟨rfl, rfl⟩ := hws
      exact ⟨zs, rfl, hf zs⟩

/-- **C141**: the samples are right exactly if the exact numbers fit into 64 bits – also if numbers on the way do not. -/
theorem C141_right_iff (E : Env σ K) (hE : E.gen.Lawful) (ds : ℕ → Leaf K) (hd : ∀ k, (ds k).Regular) {n : ℕ}
    (hn : 1 < n) (B : ℕ → ℕ) (hw : WholeDraws E ds n B) (hB : ∀ k, B k < 2 ^ 63) (e : IExpr)
    (he : e.ComparesSmall B) (s s' : St σ K) (zs : List ℤ)
    (h : sampleObj E (toObjI ds e) n none none s = (.ok (.arr (zs.map .int)), s')) :
    sampleI64 E ds n e s = (.ok zs, s') ↔ ∀ z ∈ zs, Fits z := by
  obtain ⟨zs', ws, e1, e2, e3⟩ := (C141_left_over E hE ds hd hn B hw hB e he s s').2.1 _ h
  have : zs' = zs := by
    have := Samples.arr.inj e1
    exact (List.map_injective_iff.2 (fun a b hab => by cases hab; rfl) this).symm
  subst this
  rw [e2]
  simp only [Prod.mk.injEq, Except.ok.injEq, and_true]
  clear e1 e2 h
  induction e3 with
  | nil => simp
  | @cons z w zs ws hzw _ ih =>
    simp only [List.cons.injEq, List.mem_cons, forall_eq_or_imp, ih]
    refine and_congr_left fun _ => ⟨?_, fun hz => ?_⟩
    · rintro rfl
      exact hzw.1
    · exact leftOf_unique hzw ⟨hz, by simp⟩

/-- **C141**: as long as the model cannot give numbers of `2 ^ 63` or more, the samples are exact. -/
theorem C141_exact (E : Env σ K) (hE : E.gen.Lawful) (ds : ℕ → Leaf K) (hd : ∀ k, (ds k).Regular) {n : ℕ}
    (hn : 1 < n) (B : ℕ → ℕ) (hw : WholeDraws E ds n B) (hB : ∀ k, B k < 2 ^ 63) (e : IExpr)
    (he : e.ComparesSmall B) (hs : e.size B < 2 ^ 63) (s s' : St σ K) (z : Samples K)
    (h : sampleObj E (toObjI ds e) n none none s = (.ok z, s')) :
    ∃ zs : List ℤ, sampleI64 E ds n e s = (.ok zs, s') ∧ z = .arr (zs.map .int) := by
  obtain ⟨r, s1, h1, h2, h3⟩ := sampleI64_run E hE ds hd hn B hw hB e he s
  rw [h1] at h
  rcases r with er | zs
  · simp [Except.map] at h
  · simp only [Except.map, Prod.mk.injEq, Except.ok.injEq] at h
    obtain ⟨rfl, rfl⟩ := h
    exact ⟨zs, (C141_right_iff E hE ds hd hn B hw hB e he s _ zs h1).2
      fun z hz => fits_of_natAbs ((h3 zs rfl).2 z hz) hs, rfl⟩

/-! ### A single sample -/

theorem pyBin_int (powf : K → K → Option K) (o : IOp) (a b : ℤ) :
    pyBin powf (IOp.toBinOp o) (.int a) (.int b) = .ok (.int (o.eval a b)) := by
  cases o <;> rfl

theorem pyBin_pow_int (powf : K → K → Option K) (a : ℤ) (k : ℕ) :
    pyBin powf .pow (.int a) (.int k) = .ok (.int (a ^ k)) := by
  have h' : (0 : ℤ) ≤ k := by omega
  simp only [Scalar.num?, pyBin]
  rw [if_pos h']
  simp

/-- The exact sampler on one sample. -/
theorem single_src (E : Env σ K) (hE : E.gen.Lawful) (ds : ℕ → Leaf K) (hd : ∀ k, (ds k).Regular) (B : ℕ → ℕ)
    (hw : WholeDraws E ds 1 B) (k : ℕ) (s : St σ K) :
    ∃ (r : Except PyErr ℤ) (s' : St σ K),
      sampleObj E (.leaf (ds k) none none) 1 none none s = (r.map fun z => .scalar (.int z), s') ∧
      sampleOne E ds (.src k) s = (r.map fun z => ⟨false, z⟩, s') ∧ ∀ z, r = .ok z → z.natAbs ≤ B k := by
  rcases hs : sampleObj E (.leaf (ds k) none none) 1 none none s with ⟨e | z, s'⟩
  · exact ⟨.error e, s', rfl, by simp only [sampleOne, SM.bind, hs]; rfl, by simp⟩
  · have hsh := (C11_count_partial E hE (.leaf (ds k) none none) (hd k) _ _ _ _ _ _ hs).2
    cases z with
    | arr vs => exact absurd rfl hsh.1
    | scalar v =>
      obtain ⟨x, rfl, hx⟩ := hw k s s' _ hs v (by simp [Samples.toList])
      refine ⟨.ok x, s', rfl, by simp only [sampleOne, SM.bind, hs]; rfl, ?_⟩
      rintro z ⟨⟩
      exact hx

/-- **C141**: a single sample of a model without comparisons is exact, however large the numbers are. -/
theorem C141_single (E : Env σ K) (hE : E.gen.Lawful) (ds : ℕ → Leaf K) (hd : ∀ k, (ds k).Regular) (B : ℕ → ℕ)
    (hw : WholeDraws E ds 1 B) (e : IExpr) (he : e.Polynomial) (s : St σ K) :
    ∃ (r : Except PyErr ℤ) (s' : St σ K),
      sampleObj E (toObjI ds e) 1 none none s = (r.map fun z => .scalar (.int z), s') ∧
      sampleOne E ds e s = (r.map fun z => ⟨false, z⟩, s') := by
  induction e generalizing s with
  | src k =>
    obtain ⟨r, s', h1, h2, -⟩ := single_src E hE ds hd B hw k s
    exact ⟨r, s', h1, h2⟩
  | num z => exact ⟨.ok z, s, sampleObj_lit E _ one_ne_zero s, rfl⟩
  | neg e ih =>
    obtain ⟨r, s', h1, h2⟩ := ih he s
    refine ⟨r.map fun z => -z, s', ?_, ?_⟩
    · rw [toObjI, sampleObj_un E _ _ one_ne_zero]
      rcases r with er | z <;> simp only [SM.bind, h1] <;> rfl
    · rcases r with er | z <;> simp only [sampleOne, SM.bind, h2] <;> rfl
  | bin o a b iha ihb =>
    obtain ⟨hc, ca, cb⟩ := he
    obtain ⟨r, s1, h1, h2⟩ := iha ca s
    rcases r with er | x
    · refine ⟨.error er, s1, ?_, ?_⟩
      · rw [toObjI, sampleObj_bin E _ _ _ one_ne_zero]
        simp only [SM.bind, h1]; rfl
      · simp only [sampleOne, SM.bind, h2]; rfl
    · obtain ⟨r, s2, k1, k2⟩ := ihb cb s1
      refine ⟨r.map fun y => o.eval x y, s2, ?_, ?_⟩
      · rw [toObjI, sampleObj_bin E _ _ _ one_ne_zero]
        rcases r with er | y
        · simp only [SM.bind, h1, k1, Except.map]
        · simp only [SM.bind, h1, k1, Except.map, SM.lift, binFnSamples, binSamples, pyBin_int]
          rfl
      · rcases r with er | y
        · simp only [sampleOne, SM.bind, h2, k2, Except.map]
        · simp only [sampleOne, SM.bind, h2, k2, Except.map, SM.lift]
          cases o <;> first | rfl | exact absurd trivial hc
  | pow e k ih =>
    obtain ⟨r, s', h1, h2⟩ := ih he s
    refine ⟨r.map fun z => z ^ k, s', ?_, ?_⟩
    · rw [toObjI, sampleObj_bin E _ _ _ one_ne_zero]
      rcases r with er | z
      · simp only [SM.bind, h1, Except.map]
      · simp only [SM.bind, h1, Except.map, SM.lift, binFnSamples, sampleObj_lit E _ one_ne_zero]
        have : (constSamples (.int k) 1 : Samples K) = .scalar (.int k) := rfl
        rw [this]
        simp only [binSamples, pyBin_pow_int]
        rfl
    · rcases r with er | z <;> simp only [sampleOne, SM.bind, h2, Except.map] <;> rfl
  | lclip => exact he.elim
  | rclip => exact he.elim

/-- A number of Python that stands for `z`: `z` itself, or what is left of it if it is numpy's. -/
def Stands (v : PyWhole) (z : ℤ) : Prop := (v.np = false → v.val = z) ∧ (v.np = true → v.val = toI64 z)

theorem Stands.fit {v : PyWhole} {z w : ℤ} (h : Stands v z) (hw : fitI64 v.val = .ok w) : w = toI64 z := by
  unfold fitI64 at hw
  by_cases hf : Fits v.val
  · rw [if_pos hf] at hw
    cases hw
    rcases hn : v.np with _ | _
    · rw [h.1 hn] at hf ⊢
      exact (toI64_fits hf).symm
    · exact h.2 hn
  · rw [if_neg hf] at hw
    cases hw

theorem stands_np {z : ℤ} : Stands ⟨true, toI64 z⟩ z := ⟨by simp, fun _ => rfl⟩

theorem opOne_stands {o : IOp} {x y v : PyWhole} {a b : ℤ} (hx : Stands x a) (hy : Stands y b)
    (hc : o.Compares → Fits a ∧ Fits b) (h : opOne o x y = .ok v) : Stands v (o.eval a b) := by
  have key : ∀ o' : IOp, o' = o → (do .ok ⟨true, opI64 o' (← fitI64 x.val) (← fitI64 y.val)⟩ : Except PyErr PyWhole) = .ok v →
      Stands v (o.eval a b) := by
    rintro _ rfl h
    rcases h1 : fitI64 x.val with er | x'
    · rw [h1] at h; cases h
    · rcases h2 : fitI64 y.val with er | y'
      · rw [h1, h2] at h; cases h
      · rw [h1, h2] at h
        cases h
        rw [hx.fit h1, hy.fit h2, opI64_left _ hc]
        exact stands_np
  have arith : ∀ o' : IOp, o' = o → (if x.np || y.np then (do .ok ⟨true, opI64 o' (← fitI64 x.val) (← fitI64 y.val)⟩)
      else (.ok ⟨false, o'.eval x.val y.val⟩ : Except PyErr PyWhole)) = .ok v → Stands v (o.eval a b) := by
    rintro _ rfl h
    by_cases hn : (x.np || y.np) = true
    · rw [if_pos hn] at h
      exact key _ rfl h
    · rw [if_neg hn] at h
      cases h
      simp only [Bool.or_eq_true, not_or, Bool.not_eq_true] at hn
      exact ⟨fun _ => by rw [hx.1 hn.1, hy.1 hn.2], by simp⟩
  cases o with
  | add => exact arith .add rfl h
  | sub => exact arith .sub rfl h
  | mul => exact arith .mul rfl h
  | max => exact key .max rfl h
  | min => exact key .min rfl h

/-- Both samplers on one sample. -/
theorem sampleOne_run (E : Env σ K) (hE : E.gen.Lawful) (ds : ℕ → Leaf K) (hd : ∀ k, (ds k).Regular) (B : ℕ → ℕ)
    (hw : WholeDraws E ds 1 B) (e : IExpr) (he : e.ComparesSmall B) (s s' : St σ K) (v : PyWhole)
    (h : sampleOne E ds e s = (.ok v, s')) :
    ∃ z : ℤ, sampleObj E (toObjI ds e) 1 none none s = (.ok (.scalar (.int z)), s') ∧ z.natAbs ≤ e.size B ∧
      Stands v z := by
  induction e generalizing s s' v with
  | src k =>
    obtain ⟨r, s1, h1, h2, h3⟩ := single_src E hE ds hd B hw k s
    rw [h2] at h
    rcases r with er | z
    · simp [Except.map] at h
    · simp only [Except.map, Prod.mk.injEq, Except.ok.injEq] at h
      obtain ⟨rfl, rfl⟩ := h
      exact ⟨z, h1, h3 z rfl, fun _ => rfl, by simp⟩
  | num z =>
    obtain ⟨rfl, rfl⟩ := SM.pure_ok.1 h
    exact ⟨z, sampleObj_lit E _ one_ne_zero s, le_rfl, fun _ => rfl, by simp⟩
  | neg e ih =>
    simp only [sampleOne, SM.bind_ok] at h
    obtain ⟨x, s1, h1, h2⟩ := h
    obtain ⟨rfl, rfl⟩ := SM.pure_ok.1 h2
    obtain ⟨z, k1, k2, k3⟩ := ih he _ _ _ h1
    refine ⟨-z, ?_, by rwa [Int.natAbs_neg], ?_⟩
    · rw [toObjI, sampleObj_un E _ _ one_ne_zero]
      simp only [SM.bind, k1]
      rfl
    · rcases hn : x.np with _ | _
      · exact ⟨fun _ => by simp [k3.1 hn], by simp⟩
      · exact ⟨by simp, fun _ => by simp only [if_true]; rw [k3.2 hn, toI64_neg]⟩
  | bin o a b iha ihb =>
    obtain ⟨ca, cb, hc⟩ := he
    simp only [sampleOne, SM.bind_ok, SM.lift_ok] at h
    obtain ⟨x, s1, h1, y, s2, h2, h3, rfl⟩ := h
    obtain ⟨z, k1, k2, k3⟩ := iha ca _ _ _ h1
    obtain ⟨z', l1, l2, l3⟩ := ihb cb _ _ _ h2
    refine ⟨o.eval z z', ?_, eval_size o k2 l2, opOne_stands k3 l3
      (fun h => ⟨fits_of_natAbs k2 (hc h).1, fits_of_natAbs l2 (hc h).2⟩) h3⟩
    rw [toObjI, sampleObj_bin E _ _ _ one_ne_zero]
    simp only [SM.bind, k1, l1, SM.lift, binFnSamples, binSamples, pyBin_int]
    rfl
  | pow e k ih =>
    simp only [sampleOne, SM.bind_ok] at h
    obtain ⟨x, s1, h1, h2⟩ := h
    obtain ⟨z, k1, k2, k3⟩ := ih he.1 _ _ _ h1
    have hst : Stands v (z ^ k) ∧ s1 = s' := by
      rcases hn : x.np with _ | _
      · rw [hn] at h2
        obtain ⟨rfl, rfl⟩ := SM.pure_ok.1 h2
        exact ⟨⟨fun _ => by simp only; rw [k3.1 hn], by simp⟩, rfl⟩
      · rw [hn] at h2
        simp only [if_true, SM.lift_ok, Except.bind_ok_iff] at h2
        obtain ⟨⟨_, _, h2⟩, rfl⟩ := h2
        cases h2
        refine ⟨⟨by simp, fun _ => ?_⟩, rfl⟩
        simp only
        rw [k3.2 hn, toI64_pow]
    obtain ⟨hst, rfl⟩ := hst
    refine ⟨z ^ k, ?_, ?_, hst⟩
    · rw [toObjI, sampleObj_bin E _ _ _ one_ne_zero]
      simp only [SM.bind, k1, SM.lift, binFnSamples, sampleObj_lit E _ one_ne_zero]
      have : (constSamples (.int k) 1 : Samples K) = .scalar (.int k) := rfl
      rw [this]
      simp only [binSamples, pyBin_pow_int]
      rfl
    · rw [Int.natAbs_pow]
      exact Nat.pow_le_pow_left k2 k
  | lclip e c ih =>
    obtain ⟨ce, hs, hc⟩ := he
    simp only [sampleOne, SM.bind_ok, SM.lift_ok, Except.bind_ok_iff] at h
    obtain ⟨x, s1, h1, ⟨w, h2, c', h3, h4⟩, rfl⟩ := h
    rw [fitI64_ok hc] at h3
    cases h3
    cases h4
    obtain ⟨z, k1, k2, k3⟩ := ih ce _ _ _ h1
    have hf := fits_of_natAbs k2 hs
    have hw' : w = z := by rw [k3.fit h2, toI64_fits hf]
    subst hw'
    refine ⟨max w c, ?_, (natAbs_max_le w c).trans (max_le_max k2 le_rfl), by simp, fun _ => ?_⟩
    · rw [toObjI, sampleObj_bin E _ _ _ one_ne_zero]
      simp only [SM.bind, k1, SM.lift, binFnSamples, sampleObj_lit E _ one_ne_zero]
      have : (constSamples (.int c) 1 : Samples K) = .scalar (.int c) := rfl
      rw [this]
      simp only [vectorize2, lclipElem_int]
      rfl
    · simp only
      by_cases h : w < c
      · rw [if_pos h, max_eq_right h.le, toI64_fits hc]
      · rw [if_neg h, max_eq_left (not_lt.1 h), toI64_fits hf]
  | rclip e c ih =>
    obtain ⟨ce, hs, hc⟩ := he
    simp only [sampleOne, SM.bind_ok, SM.lift_ok, Except.bind_ok_iff] at h
    obtain ⟨x, s1, h1, ⟨w, h2, c', h3, h4⟩, rfl⟩ := h
    rw [fitI64_ok hc] at h3
    cases h3
    cases h4
    obtain ⟨z, k1, k2, k3⟩ := ih ce _ _ _ h1
    have hf := fits_of_natAbs k2 hs
    have hw' : w = z := by rw [k3.fit h2, toI64_fits hf]
    subst hw'
    refine ⟨min w c, ?_, (natAbs_min_le w c).trans (max_le_max k2 le_rfl), by simp, fun _ => ?_⟩
    · rw [toObjI, sampleObj_bin E _ _ _ one_ne_zero]
      simp only [SM.bind, k1, SM.lift, binFnSamples, sampleObj_lit E _ one_ne_zero]
      have : (constSamples (.int c) 1 : Samples K) = .scalar (.int c) := rfl
      rw [this]
      simp only [vectorize2, rclipElem_int]
      rfl
    · simp only [gt_iff_lt]
      by_cases h : c < w
      · rw [if_pos h, min_eq_right h.le, toI64_fits hc]
      · rw [if_neg h, min_eq_left (not_lt.1 h), toI64_fits hf]

/-- **C141**: a single sample of any model: if it is returned, it is the exact number or what is left of it in 64 bits.
In particular it is exact if the exact number fits. -/
theorem C141_single_left_over (E : Env σ K) (hE : E.gen.Lawful) (ds : ℕ → Leaf K) (hd : ∀ k, (ds k).Regular)
    (B : ℕ → ℕ) (hw : WholeDraws E ds 1 B) (e : IExpr) (he : e.ComparesSmall B) (s s' : St σ K) (v : PyWhole)
    (h : sampleOne E ds e s = (.ok v, s')) :
    ∃ z : ℤ, sampleObj E (toObjI ds e) 1 none none s = (.ok (.scalar (.int z)), s') ∧
      (v.val = z ∨ LeftOf z v.val) ∧ (Fits z → v.val = z) ∧ (e.size B < 2 ^ 63 → v.val = z) := by
  obtain ⟨z, h1, h2, h3, h4⟩ := sampleOne_run E hE ds hd B hw e he s s' v h
  have hfit : Fits z → v.val = z := by
    intro hf
    rcases hn : v.np with _ | _
    · exact h3 hn
    · rw [h4 hn, toI64_fits hf]
  refine ⟨z, h1, ?_, hfit, fun hs => hfit (fits_of_natAbs h2 hs)⟩
  rcases hn : v.np with _ | _
  · exact .inl (h3 hn)
  · exact .inr (by rw [h4 hn]; exact toI64_leftOf z)

end run

/-- **C141** fails without the condition: `die(6) ** 25` is positive and for a roll of 6 it is 28430288029929701376.  A
single sample says so; among two samples this roll gives a negative number. -/
theorem C141_overflow_fails :
    let ds : ℕ → Leaf ℚ := fun _ => .die ⟨6, none⟩
    let e : IExpr := .pow (.src 0) 25
    (sampleOne demoEnv ds e (demoSt 5)).1 = .ok ⟨false, 28430288029929701376⟩ ∧
    (sampleI64 demoEnv ds 2 e (demoSt 4)).1 = .ok [298023223876953125, -8463200117489401856] ∧
    (sampleObj demoEnv (toObjI ds e) 2 none none (demoSt 4)).1 =
      .ok (.arr [.int 298023223876953125, .int 28430288029929701376]) := by
  refine ⟨?_, ?_, ?_⟩ <;> decide +kernel

/-- **C141** fails for a single sample after a comparison: `dist_max(die(6), 0) ** 25` for a roll of 6. -/
theorem C141_single_fails :
    let ds : ℕ → Leaf ℚ := fun _ => .die ⟨6, none⟩
    let e : IExpr := .pow (.bin .max (.src 0) (.num 0)) 25
    (sampleOne demoEnv ds e (demoSt 5)).1 = .ok ⟨true, -8463200117489401856⟩ ∧
    (sampleObj demoEnv (toObjI ds e) 1 none none (demoSt 5)).1 = .ok (.scalar (.int 28430288029929701376)) := by
  refine ⟨?_, ?_⟩ <;> decide +kernel

/-! ### The hypotheses are met -/

/-- Rolls of a six-sided die have size at most 6. -/
theorem die_wholeDraws {σ K : Type} [Field K] [LinearOrder K] [IsStrictOrderedRing K] [FloorRing K] (E : Env σ K)
    (hE : E.gen.Lawful) (hexp : ∀ x, 0 < E.exp x) (n : ℕ) :
    WholeDraws E (fun _ => .die ⟨6, none⟩) n fun _ => 6 := by
  intro k s s' z h v hv
  obtain ⟨x, rfl, h1, h2⟩ := C18_support E hE hexp (.die ⟨6, none⟩) n s s' z h v hv
  refine ⟨x, rfl, ?_⟩
  have h2' : x ≤ 6 := h2 rfl
  change x.natAbs ≤ 6
  omega

/-- Three dice times a million, at least four million: below `2 ^ 63`, so exact. -/
example : let e : IExpr := .lclip (.bin .mul (.bin .add (.src 0) (.bin .add (.src 0) (.src 0))) (.num 1000000)) 4000000
    let E : Env ℕ ℚ := { demoEnv with exp := fun _ => 1 }
    WholeDraws E (fun _ => .die ⟨6, none⟩) 2 (fun _ => 6) ∧ e.ComparesSmall (fun _ => 6) ∧
    e.size (fun _ => 6) = 18000000 ∧
    (sampleI64 E (fun _ => .die ⟨6, none⟩) 2 e (demoSt 0)).1 = .ok [9000000, 12000000] := by
  refine ⟨die_wholeDraws _ demoGen_lawful (fun _ => one_pos) 2, ?_, by decide, by decide +kernel⟩
  simp [IExpr.ComparesSmall, IExpr.size, IOp.Compares, Fits]

/-- A difference of powers too large for 64 bits, itself small: the array is right although the powers in it are not. -/
example : let e : IExpr := .bin .sub (.pow (.num 6) 25) (.bin .mul (.num 36) (.pow (.num 6) 23))
    e.ComparesSmall (fun _ => 6) ∧ e.Polynomial ∧
    (sampleI64 demoEnv (fun _ => .die ⟨6, none⟩) 2 e (demoSt 0)).1 = .ok [0, 0] := by
  refine ⟨?_, ?_, by decide +kernel⟩
  · simp [IExpr.ComparesSmall, IOp.Compares, Fits]
  · simp [IExpr.Polynomial, IOp.Compares]

end Verif
