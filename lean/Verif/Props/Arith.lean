import Verif.Props.SampleCount
import Verif.Lemmas.Arith
import Verif.Spec.Ops

/-! # C13, C14: arithmetic and comparisons of distributions -/

namespace Verif

variable {σ K : Type} [Field K] [LinearOrder K] [FloorRing K] [IsStrictOrderedRing K]

theorem floor_int_div (m n : ℤ) : ⌊(m : K) / (n : K)⌋ = m.fdiv n := by
  rcases le_total 0 n with hn | hn
  · rw [Int.floor_div_cast_of_nonneg hn, Int.floor_intCast, Int.fdiv_eq_ediv_of_nonneg _ hn]
  · have : (m : K) / (n : K) = ((-m : ℤ) : K) / ((-n : ℤ) : K) := by push_cast; rw [neg_div_neg_eq]
    rw [this, Int.floor_div_cast_of_nonneg (by omega), Int.floor_intCast,
      ← Int.fdiv_eq_ediv_of_nonneg _ (by omega), Int.neg_fdiv_neg]

/-- Python scalar arithmetic computes the operator. -/
theorem pyBin_spec {powf : K → K → Option K} {o : BinOp} {a b z : Scalar K}
    (h : pyBin powf o a b = .ok z) : OpResult powf o a b z := by
  unfold pyBin at h
  split at h
  · rename_i x y hx hy
    refine ⟨x.val, y.val, val?_of_num? hx, val?_of_num? hy, ?_⟩
    cases o with
    | add =>
      cases x <;> cases y <;> cases h <;> simp [Scalar.val?, Scalar.num?, Num.val]
    | sub =>
      cases x <;> cases y <;> cases h <;> simp [Scalar.val?, Scalar.num?, Num.val]
    | mul =>
      cases x <;> cases y <;> cases h <;> simp [Scalar.val?, Scalar.num?, Num.val]
    | truediv =>
      simp only at h
      split_ifs at h with h0
      cases h
      exact ⟨h0, rfl⟩
    | floordiv =>
      simp only at h
      split_ifs at h with h0
      intro _
      cases x <;> cases y <;> cases h
      · rename_i m n
        simp only [Scalar.val?, Scalar.num?, Num.val, Option.map_some, floor_int_div]
      all_goals rfl
    | pow =>
      simp only at h
      cases x with
      | I m =>
        cases y with
        | I n =>
          simp only at h
          refine Or.inl ⟨n, hy, ⟨m, hx⟩, ?_⟩
          split_ifs at h with h0 h1
          · cases h
            have hn : n = (n.toNat : ℤ) := by omega
            simp only [Scalar.val?, Scalar.num?, Num.val, Option.map_some, Option.some.injEq]
            conv_rhs => rw [hn]
            rw [zpow_natCast]; push_cast; rfl
          · cases h; rfl
        | F y =>
          simp only at h
          split_ifs at h with h0
          split at h
          · rename_i r hr
            cases h
            exact Or.inr ⟨by simpa [Scalar.val?, Scalar.num?, Num.val] using hr, r, rfl⟩
          · cases h
      | F x =>
        simp only at h
        split_ifs at h with h0
        split at h
        · rename_i r hr
          cases h
          exact Or.inr ⟨by simpa [Scalar.val?, Scalar.num?, Num.val] using hr, r, rfl⟩
        · cases h
    | gt => cases h; rfl
    | ge => cases h; rfl
    | lt => cases h; rfl
    | le => cases h; rfl
    | max => cases x <;> cases y <;> cases h <;> simp [Scalar.val?, Scalar.num?, Num.val]
    | min => cases x <;> cases y <;> cases h <;> simp [Scalar.val?, Scalar.num?, Num.val]
  · split_ifs at h

/-- numpy arithmetic computes the operator, unless both operands are booleans. -/
theorem npBin_spec {powf : K → K → Option K} {o : BinOp} {a b z : Scalar K}
    (hb : ¬(a.isBool = true ∧ b.isBool = true)) (h : npBin powf o a b = .ok z) :
    OpResult powf o a b z := by
  unfold npBin at h
  split at h
  · exact absurd ⟨rfl, rfl⟩ hb
  · split at h
    · rename_i x y hx hy
      cases o with
      | truediv =>
        simp only at h
        split_ifs at h
        exact pyBin_spec h
      | floordiv =>
        simp only at h
        split_ifs at h with h0
        · refine ⟨x.val, y.val, val?_of_num? hx, val?_of_num? hy, fun h1 => absurd h0 h1⟩
        · exact pyBin_spec h
      | pow =>
        simp only at h
        split at h
        · split_ifs at h
          exact pyBin_spec h
        · split_ifs at h
          exact pyBin_spec h
      | add => exact pyBin_spec h
      | sub => exact pyBin_spec h
      | mul => exact pyBin_spec h
      | gt => exact pyBin_spec h
      | ge => exact pyBin_spec h
      | lt => exact pyBin_spec h
      | le => exact pyBin_spec h
      | max => exact pyBin_spec h
      | min => exact pyBin_spec h
    · exact pyBin_spec h

/-- Comparisons and `max`/`min` are right on booleans too. -/
theorem npBin_spec_cmp {powf : K → K → Option K} {o : BinOp} {a b z : Scalar K}
    (ho : o = .gt ∨ o = .ge ∨ o = .lt ∨ o = .le ∨ o = .max ∨ o = .min)
    (h : npBin powf o a b = .ok z) : OpResult powf o a b z := by
  by_cases hb : a.isBool = true ∧ b.isBool = true
  · match a, b with
    | .bool p, .bool q =>
      rcases ho with rfl | rfl | rfl | rfl | rfl | rfl
      · exact pyBin_spec h
      · exact pyBin_spec h
      · exact pyBin_spec h
      · exact pyBin_spec h
      · obtain ⟨x, y, hx, hy, hz⟩ := npBin_max h
        exact ⟨x, y, hx, hy, hz⟩
      · obtain ⟨x, y, hx, hy, hz⟩ := npBin_min h
        exact ⟨x, y, hx, hy, hz⟩
  · exact npBin_spec hb h

theorem broadcast_eq {α : Type} {xs ys : List α} (h : xs.length = ys.length) :
    broadcast xs ys = .ok (xs.zip ys) := by
  unfold broadcast
  rw [if_pos h]

theorem zip_getElem? {α β : Type} {xs : List α} {ys : List β} {i : ℕ} {p : α × β}
    (h : (xs.zip ys)[i]? = some p) : xs[i]? = some p.1 ∧ ys[i]? = some p.2 := by
  rw [List.zip, List.getElem?_zipWith] at h
  cases hx : xs[i]? with
  | none => rw [hx] at h; simp at h
  | some x =>
    cases hy : ys[i]? with
    | none => rw [hx, hy] at h; simp at h
    | some y => rw [hx, hy] at h; simp at h; subst h; exact ⟨rfl, rfl⟩

/-- Elementwise meaning of a binary operator on samples of the same shape. -/
theorem binSamples_values {powf : K → K → Option K} {o : BinOp} {n : ℕ} {x y z : Samples K}
    (hx : Shape n x) (hy : Shape n y) (h : binSamples powf o x y = .ok z) (i : ℕ) (v : Scalar K)
    (hv : z.at? i = some v) :
    ∃ a b, x.at? i = some a ∧ y.at? i = some b ∧
      (n = 1 ∨ ¬(a.isBool = true ∧ b.isBool = true) ∨
        (o = .gt ∨ o = .ge ∨ o = .lt ∨ o = .le ∨ o = .max ∨ o = .min) → OpResult powf o a b v) := by
  match x, y, hx, hy with
  | .scalar a, .scalar b, hx, _ =>
    simp only [binSamples, Except.bind_ok_iff] at h
    obtain ⟨c, h1, h⟩ := h
    cases h
    have : i = 0 ∧ c = v := by
      simp only [Samples.at?, Samples.toList] at hv
      cases i with
      | zero => exact ⟨rfl, by simpa using hv⟩
      | succ i => simp at hv
    obtain ⟨rfl, rfl⟩ := this
    exact ⟨a, b, rfl, rfl, fun _ => pyBin_spec h1⟩
  | .scalar a, .arr b, hx, hy => exact absurd hx hy.1
  | .arr a, .scalar b, hx, hy => exact absurd hy hx.1
  | .arr a, .arr b, hx, hy =>
    simp only [binSamples, Samples.toList, Except.bind_ok_iff] at h
    obtain ⟨ps, h1, rs, h2, h⟩ := h
    cases h
    rw [broadcast_eq (hx.2.trans hy.2.symm)] at h1
    cases h1
    obtain ⟨p, hp, hf⟩ := mapExcept_get h2 i v hv
    obtain ⟨hp1, hp2⟩ := zip_getElem? hp
    refine ⟨p.1, p.2, hp1, hp2, ?_⟩
    rintro (h1 | h1 | h1)
    · exact absurd h1 hx.1
    · exact npBin_spec h1 hf
    · exact npBin_spec_cmp h1 hf

/-- **C13.** Sampling `l op r` is: sample `l`, then `r` from the generator state that leaves, then
combine elementwise.  Each returned value is the operator applied to the values at the same position
– provided numpy does not see two booleans (comparison results) there.  Reflected operators such as
`2 - d` are the case `l = lit 2`. -/
theorem C13_elementwise_partial (E : Env σ K) (hE : E.gen.Lawful) (o : BinOp) (l r : Obj (St σ K) K)
    (hl : l.Regular) (hr : r.Regular) (n : ℕ) (s s' : St σ K) (z : Samples K)
    (h : sampleObj E (.bin (.op o) l r) n none none s = (.ok z, s')) :
    ∃ x s1 y, sampleObj E l n none none s = (.ok x, s1) ∧ sampleObj E r n none none s1 = (.ok y, s') ∧
      Shape n z ∧ ∀ i v, z.at? i = some v → ∃ a b, x.at? i = some a ∧ y.at? i = some b ∧
        (n = 1 ∨ ¬(a.isBool = true ∧ b.isBool = true) ∨
          (o = .gt ∨ o = .ge ∨ o = .lt ∨ o = .le ∨ o = .max ∨ o = .min) →
          OpResult E.powf o a b v) := by
  have hz := (C11_count_partial E hE _ (show (Obj.bin (.op o) l r).Regular from ⟨hl, hr⟩) n none none
    s s' z h).2
  obtain ⟨hn, l', r', w, h1, h2, h3, h4⟩ := withClips_ok.1 h
  cases h1
  cases h2
  simp only [rawObj, SM.bind_ok, SM.lift_ok] at h3
  obtain ⟨x, s1, h5, y, s2, h6, h7, rfl⟩ := h3
  simp only [applyClips, applyL, applyR, Obj.clips] at h4
  cases h4
  refine ⟨x, s1, y, h5, h6, hz, ?_⟩
  exact fun i v hv => binSamples_values (C11_count_partial E hE _ hl _ _ _ _ _ _ h5).2
    (C11_count_partial E hE _ hr _ _ _ _ _ _ h6).2 h7 i v hv

/-- **C13.** Negation is elementwise. -/
theorem C13_neg (E : Env σ K) (l : Obj (St σ K) K) (n : ℕ) (s s' : St σ K) (z : Samples K)
    (h : sampleObj E (.un .neg l) n none none s = (.ok z, s')) :
    ∃ x, sampleObj E l n none none s = (.ok x, s') ∧
      List.Forall₂ (fun a v => ∃ y, a.val? = some y ∧ v.val? = some (-y)) x.toList z.toList := by
  have hneg : ∀ a v : Scalar K, pyNeg a = .ok v → ∃ y, a.val? = some y ∧ v.val? = some (-y) := by
    intro a v h
    cases a with
    | none => cases h
    | str => cases h
    | bool b => cases b <;> cases h <;> simp [Scalar.val?, Scalar.num?, Num.val]
    | int z => cases h; simp [Scalar.val?, Scalar.num?, Num.val]
    | flt z => cases h; simp [Scalar.val?, Scalar.num?, Num.val]
  obtain ⟨hn, l', r', w, h1, h2, h3, h4⟩ := withClips_ok.1 h
  cases h1
  cases h2
  simp only [rawObj, SM.bind_ok, SM.lift_ok] at h3
  obtain ⟨x, s1, h5, h7, rfl⟩ := h3
  simp only [applyClips, applyL, applyR, Obj.clips] at h4
  cases h4
  refine ⟨x, h5, ?_⟩
  simp only [unSamples] at h7
  cases x with
  | scalar v =>
    simp only [Except.bind_ok_iff] at h7
    obtain ⟨c, h7, h8⟩ := h7
    cases h8
    exact .cons (hneg _ _ h7) .nil
  | arr vs =>
    simp only [Except.bind_ok_iff] at h7
    obtain ⟨c, h7, h8⟩ := h7
    cases h8
    refine (mapExcept_ok.1 h7).imp ?_
    intro a b hab
    cases a with
    | bool => cases hab
    | none => exact hneg _ _ hab
    | int => exact hneg _ _ hab
    | flt => exact hneg _ _ hab
    | str => exact hneg _ _ hab

theorem pyBin_total {powf : K → K → Option K} {o : BinOp}
    (ho : o ≠ .truediv ∧ o ≠ .floordiv ∧ o ≠ .pow) {a b : Scalar K} {x y : K}
    (ha : a.val? = some x) (hb : b.val? = some y) : ∃ z, pyBin powf o a b = .ok z := by
  obtain ⟨p, hp, -⟩ := num?_of_val? ha
  obtain ⟨q, hq, -⟩ := num?_of_val? hb
  unfold pyBin
  rw [hp, hq]
  cases o <;> first | exact ⟨_, rfl⟩ | (exfalso; simp at ho)

/-- **C13.** `+`, `-`, `*`, the four comparisons and `max`/`min` of two expressions never fail on
numbers: if both operands can be sampled and give numbers that are not booleans, the combination
succeeds. -/
theorem C13_no_new_failures (E : Env σ K) (hE : E.gen.Lawful) (o : BinOp)
    (ho : o ≠ .truediv ∧ o ≠ .floordiv ∧ o ≠ .pow) (l r : Obj (St σ K) K)
    (hl : l.Regular) (hr : r.Regular) (n : ℕ) (s s1 s2 : St σ K) (x y : Samples K)
    (hx : sampleObj E l n none none s = (.ok x, s1)) (hy : sampleObj E r n none none s1 = (.ok y, s2))
    (nx : ∀ v ∈ x.toList, v.isBool = false ∧ ∃ a, v.val? = some a)
    (ny : ∀ v ∈ y.toList, v.isBool = false ∧ ∃ a, v.val? = some a) :
    ∃ z, sampleObj E (.bin (.op o) l r) n none none s = (.ok z, s2) := by
  have sx := C11_count_partial E hE _ hl _ _ _ _ _ _ hx
  have sy := (C11_count_partial E hE _ hr _ _ _ _ _ _ hy).2
  have hnp : ∀ a b : Scalar K, a.isBool = false → (∃ p, a.val? = some p) → (∃ p, b.val? = some p) →
      ∃ z, npBin E.powf o a b = .ok z := by
    intro a b hab ⟨p, hp⟩ ⟨q, hq⟩
    obtain ⟨z, hz⟩ := pyBin_total (powf := E.powf) ho hp hq
    obtain ⟨p', hp', -⟩ := num?_of_val? hp
    obtain ⟨q', hq', -⟩ := num?_of_val? hq
    refine ⟨z, ?_⟩
    unfold npBin
    split
    · simp [Scalar.isBool] at hab
    · rw [hp', hq']
      cases o <;> first | exact hz | (exfalso; simp at ho)
  have hb : ∃ z, binSamples E.powf o x y = .ok z := by
    match x, y, sx.2, sy, nx, ny with
    | .scalar a, .scalar b, _, _, nx, ny =>
      obtain ⟨p, hp⟩ := (nx a (by simp [Samples.toList])).2
      obtain ⟨q, hq⟩ := (ny b (by simp [Samples.toList])).2
      obtain ⟨z, hz⟩ := pyBin_total (powf := E.powf) ho hp hq
      exact ⟨.scalar z, by simp [binSamples, hz, bind, Except.bind]⟩
    | .scalar a, .arr b, hx, hy, _, _ => exact absurd hx hy.1
    | .arr a, .scalar b, hx, hy, _, _ => exact absurd hy hx.1
    | .arr a, .arr b, hx, hy, nx, ny =>
      have : ∀ (as bs : List (Scalar K)), (∀ v ∈ as, v.isBool = false ∧ ∃ a, v.val? = some a) →
          (∀ v ∈ bs, v.isBool = false ∧ ∃ a, v.val? = some a) →
          ∃ rs, mapExcept (fun p : Scalar K × Scalar K => npBin E.powf o p.1 p.2) (as.zip bs)
            = .ok rs := by
        intro as
        induction as with
        | nil => intro bs _ _; exact ⟨[], rfl⟩
        | cons a as ih =>
          intro bs h1 h2
          cases bs with
          | nil => exact ⟨[], rfl⟩
          | cons b bs =>
            obtain ⟨z, hz⟩ := hnp a b (h1 a (by simp)).1 (h1 a (by simp)).2 (h2 b (by simp)).2
            obtain ⟨rs, hrs⟩ := ih bs (fun v hv => h1 v (by simp [hv])) (fun v hv => h2 v (by simp [hv]))
            refine ⟨z :: rs, ?_⟩
            simp only [List.zip_cons_cons, mapExcept, hz, hrs]
            rfl
      obtain ⟨rs, hrs⟩ := this a b nx ny
      refine ⟨.arr rs, ?_⟩
      simp only [binSamples, Samples.toList, broadcast_eq (hx.2.trans hy.2.symm)]
      show (mapExcept _ _ >>= fun rs => Except.ok (Samples.arr rs)) = _
      rw [hrs]; rfl
  obtain ⟨z, hz⟩ := hb
  refine ⟨z, ?_⟩
  unfold sampleObj
  rw [withClips_ok]
  refine ⟨by omega, none, none, z, rfl, rfl, ?_, rfl⟩
  simp only [rawObj, SM.bind_ok, SM.lift_ok]
  exact ⟨x, s1, hx, y, s2, hy, hz, rfl⟩

/-- `const(1) > const(0)`. -/
def trueDist : Obj (St σ K) K :=
  .bin (.op .gt) (.leaf (.const (.int 1)) none none) (.leaf (.const (.int 0)) none none)

/-- **C13 fails** for sums of comparisons: `(const(1) > const(0)) + (const(1) > const(0))` is 2 when
sampled once, but "true" (that is 1) at each position when sampled several times. -/
theorem C13_bool_sum_fails (E : Env σ K) (s : St σ K) :
    sampleObj E (.bin (.op .add) trueDist trueDist) 1 none none s = (.ok (.scalar (.int 2)), s) ∧
    sampleObj E (.bin (.op .add) trueDist trueDist) 2 none none s
      = (.ok (.arr [.bool true, .bool true]), s) := by
  have h1 : ¬ ((1 : K) ≤ 0) := by simp
  constructor
  · simp [sampleObj, withClips, trueDist, rawObj, leafSample, constSamples, SM.bind, SM.lift, SM.pure,
      combineL, combineR, applyClips, applyL, applyR, Obj.clips, Samples.simplify, binFnSamples,
      binSamples, pyBin, Scalar.num?, Num.val, bind, Except.bind, List.replicate]
  · simp [sampleObj, withClips, trueDist, rawObj, leafSample, constSamples, SM.bind, SM.lift, SM.pure,
      combineL, combineR, applyClips, applyL, applyR, Obj.clips, Samples.simplify, binFnSamples,
      binSamples, pyBin, npBin, Scalar.num?, Num.val, bind, Except.bind, List.replicate, broadcast,
      mapExcept, Samples.toList]

/-! ## C14 -/

/-- The comparison operators a user can write. -/
inductive CmpSym where
  | gt | ge | lt | le | eq | ne
  deriving DecidableEq

/-- Which function the operator methods of a distribution use (distributions.py:114-130): `__eq__`
and `__ne__` both use `operator.le`. -/
def CmpSym.dunder : CmpSym → BinOp
  | .gt => .gt
  | .ge => .ge
  | .lt => .lt
  | .le => .le
  | .eq => .le
  | .ne => .le

/-- What the operators mean. -/
def CmpSym.holds (c : CmpSym) (x y : K) : Prop :=
  match c with
  | .gt => x > y
  | .ge => x ≥ y
  | .lt => x < y
  | .le => x ≤ y
  | .eq => x = y
  | .ne => x ≠ y

/-- **C14.** Sampling `a > b`, `a >= b`, `a < b` or `a <= b` gives, at each position, the truth of
that comparison of the two samples.  (Missing: `==` and `!=`, see `C14_eq_ne_fails`.) -/
theorem C14_comparisons_partial (E : Env σ K) (hE : E.gen.Lawful) (c : CmpSym)
    (hc : c ≠ .eq ∧ c ≠ .ne) (l r : Obj (St σ K) K)
    (hl : l.Regular) (hr : r.Regular) (n : ℕ) (s s' : St σ K) (z : Samples K)
    (h : sampleObj E (.bin (.op c.dunder) l r) n none none s = (.ok z, s')) :
    ∃ x s1 y, sampleObj E l n none none s = (.ok x, s1) ∧ sampleObj E r n none none s1 = (.ok y, s') ∧
      Shape n z ∧ ∀ i v, z.at? i = some v → ∃ a b p q t, x.at? i = some a ∧ y.at? i = some b ∧
        a.val? = some p ∧ b.val? = some q ∧ v = .bool t ∧ (t = true ↔ c.holds p q) := by
  obtain ⟨x, s1, y, h1, h2, h3, h4⟩ := C13_elementwise_partial E hE _ l r hl hr n s s' z h
  refine ⟨x, s1, y, h1, h2, h3, ?_⟩
  intro i v hv
  obtain ⟨a, b, ha, hb, hs⟩ := h4 i v hv
  have : c.dunder = .gt ∨ c.dunder = .ge ∨ c.dunder = .lt ∨ c.dunder = .le ∨ c.dunder = .max ∨
      c.dunder = .min := by cases c <;> simp [CmpSym.dunder]
  obtain ⟨p, q, hp, hq, hres⟩ := hs (Or.inr (Or.inr this))
  cases c with
  | gt => exact ⟨a, b, p, q, _, ha, hb, hp, hq, hres, by simp [CmpSym.holds]⟩
  | ge => exact ⟨a, b, p, q, _, ha, hb, hp, hq, hres, by simp [CmpSym.holds]⟩
  | lt => exact ⟨a, b, p, q, _, ha, hb, hp, hq, hres, by simp [CmpSym.holds]⟩
  | le => exact ⟨a, b, p, q, _, ha, hb, hp, hq, hres, by simp [CmpSym.holds]⟩
  | eq => exact absurd rfl hc.1
  | ne => exact absurd rfl hc.2

/-- **C14 fails** for `==` and `!=`: for all numbers `x < y`, `const(x) == const(y)` samples as true
and for every `x`, `const(x) != const(x)` samples as true. -/
theorem C14_eq_ne_fails (E : Env σ K) (x y : K) (s : St σ K) :
    (x < y → sampleObj E (.bin (.op CmpSym.eq.dunder) (.leaf (.const (.flt x)) none none)
        (.leaf (.const (.flt y)) none none)) 1 none none s = (.ok (.scalar (.bool true)), s)) ∧
    sampleObj E (.bin (.op CmpSym.ne.dunder) (.leaf (.const (.flt x)) none none)
        (.leaf (.const (.flt x)) none none)) 1 none none s = (.ok (.scalar (.bool true)), s) := by
  constructor
  · intro hxy
    simp [CmpSym.dunder, sampleObj, withClips, rawObj, leafSample, constSamples, SM.bind, SM.lift,
      SM.pure, combineL, combineR, applyClips, applyL, applyR, Obj.clips, Samples.simplify,
      binFnSamples, binSamples, pyBin, Scalar.num?, Num.val, bind, Except.bind, List.replicate, hxy.le]
  · simp [CmpSym.dunder, sampleObj, withClips, rawObj, leafSample, constSamples, SM.bind, SM.lift,
      SM.pure, combineL, combineR, applyClips, applyL, applyR, Obj.clips, Samples.simplify,
      binFnSamples, binSamples, pyBin, Scalar.num?, Num.val, bind, Except.bind, List.replicate]

/-! ### The hypotheses are met: `norm(0,1) - uniform(1,2)`, three samples -/

example : (sampleObj demoEnv (.bin (.op .sub) (.leaf (.normal 0 1) none none)
      (.leaf (.uniform 1 2) none none)) 3 none none (demoSt 0)).1
    = .ok (.arr [.flt (-19 / 10), .flt (-9 / 10), .flt (-9 / 10)]) := by decide +kernel
example : (sampleObj demoEnv (.bin (.op .gt) (.leaf (.normal 0 1) none none)
      (.lit (.flt (1 / 2)))) 3 none none (demoSt 0)).1
    = .ok (.arr [.bool false, .bool false, .bool true]) := by decide +kernel

end Verif
