import Verif.Lemmas.Sample
import Verif.Spec.Sampling
import Verif.Lemmas.Weights

/-! # How many samples each part of the sampler returns -/

namespace Verif

variable {σ K : Type}

theorem shape_length {n : ℕ} {s : Samples K} (h : Shape n s) : s.toList.length = n := by
  cases s with
  | scalar v => simpa [Samples.toList, Shape, eq_comm] using h
  | arr vs => exact h.2

theorem shape_simplify (vs : List (Scalar K)) : Shape vs.length (Samples.simplify (.arr vs)) := by
  match vs with
  | [] => simp [Samples.simplify, Shape]
  | [v] => simp [Samples.simplify, Shape]
  | a :: b :: c => simp [Samples.simplify, Shape]

theorem shape_simplify' {n : ℕ} {vs : List (Scalar K)} (h : vs.length = n) :
    Shape n (Samples.simplify (.arr vs)) := h ▸ shape_simplify vs

/-- `simplify` of something that already has the right shape changes nothing. -/
theorem simplify_of_shape {n : ℕ} {s : Samples K} (h : Shape n s) : s.simplify = s := by
  match s, h with
  | .scalar v, _ => rfl
  | .arr [], _ => rfl
  | .arr [v], h => exact absurd h.2.symm h.1
  | .arr (_ :: _ :: _), _ => rfl

theorem toList_simplify (vs : List (Scalar K)) : (Samples.simplify (.arr vs)).toList = vs := by
  match vs with
  | [] => rfl
  | [v] => rfl
  | a :: b :: c => rfl

variable [Field K] [LinearOrder K] [FloorRing K]

theorem constSamples_shape (v : Scalar K) (n : ℕ) : Shape n (constSamples v n) :=
  shape_simplify' (by simp)

theorem drawSM_ok {E : Env σ K} {p : Prim K} {n : ℕ} {s s' : St σ K} {xs : List (Scalar K)}
    (h : drawSM E p n s = (.ok xs, s')) :
    E.gen.draw p n s.rng = (.ok xs, s'.rng) ∧ s'.left = s.left := by
  unfold drawSM at h
  cases hg : E.gen.draw p n s.rng with
  | mk r rng' =>
    rw [hg] at h
    simp only [Prod.mk.injEq] at h
    obtain ⟨h1, h2⟩ := h
    subst h1 h2
    exact ⟨rfl, rfl⟩

theorem drawSM_lawful {E : Env σ K} (hE : E.gen.Lawful) {p : Prim K} {n : ℕ} {s s' : St σ K}
    {xs : List (Scalar K)} (h : drawSM E p n s = (.ok xs, s')) :
    xs.length = n ∧ ∀ v ∈ xs, p.support v :=
  hE _ _ _ _ _ (drawSM_ok h).1

theorem drawSimple_ok {E : Env σ K} {p : Prim K} {n : ℕ} {s s' : St σ K} {x : Samples K} :
    drawSimple E p n s = (.ok x, s') ↔
      ∃ xs, drawSM E p n s = (.ok xs, s') ∧ x = Samples.simplify (.arr xs) := by
  unfold drawSimple
  rw [SM.bind_ok]
  constructor
  · rintro ⟨a, s1, h1, h2⟩
    obtain ⟨rfl, rfl⟩ := SM.pure_ok.1 h2
    exact ⟨a, h1, rfl⟩
  · rintro ⟨xs, h1, rfl⟩
    exact ⟨xs, s', h1, rfl⟩

theorem drawSimple_shape {E : Env σ K} (hE : E.gen.Lawful) {p : Prim K} {n : ℕ} {s s' : St σ K}
    {x : Samples K} (h : drawSimple E p n s = (.ok x, s')) : Shape n x := by
  obtain ⟨xs, h1, rfl⟩ := drawSimple_ok.1 h
  exact shape_simplify' (drawSM_lawful hE h1).1

theorem mapFlt_shape {f : K → K} {n : ℕ} {x y : Samples K} (hx : Shape n x)
    (h : mapFlt f x = .ok y) : Shape n y := by
  cases x with
  | scalar v =>
    simp only [mapFlt, Except.bind_ok_iff] at h
    obtain ⟨a, -, h⟩ := h
    cases h; exact hx
  | arr vs =>
    simp only [mapFlt, Except.bind_ok_iff] at h
    obtain ⟨a, h1, h⟩ := h
    cases h
    exact ⟨hx.1, (mapExcept_length h1).trans hx.2⟩

theorem mapFlt_length {f : K → K} {x y : Samples K}
    (h : mapFlt f x = .ok y) : y.toList.length = x.toList.length := by
  cases x with
  | scalar v =>
    simp only [mapFlt, Except.bind_ok_iff] at h
    obtain ⟨a, -, h⟩ := h
    cases h; rfl
  | arr vs =>
    simp only [mapFlt, Except.bind_ok_iff] at h
    obtain ⟨a, h1, h⟩ := h
    cases h
    exact mapExcept_length h1

theorem mapFlt_arr {f : K → K} {xs : List (Scalar K)} {y : Samples K}
    (h : mapFlt f (.arr xs) = .ok y) : ∃ ys, y = .arr ys ∧ ys.length = xs.length := by
  simp only [mapFlt, Except.bind_ok_iff] at h
  obtain ⟨a, h1, h⟩ := h
  cases h
  exact ⟨a, rfl, mapExcept_length h1⟩

theorem broadcast_length {α : Type} {xs ys : List α} {ps : List (α × α)}
    (h : broadcast xs ys = .ok ps) (n : ℕ) (hx : xs.length = n ∨ xs.length = 1)
    (hy : ys.length = n ∨ ys.length = 1) (hn : xs.length = n ∨ ys.length = n) :
    ps.length = n := by
  unfold broadcast at h
  split_ifs at h with heq
  · cases h
    rw [List.length_zip]; omega
  · split at h
    · cases h
      simp only [List.length_map, List.length_singleton] at *
      omega
    · cases h
      simp only [List.length_map, List.length_singleton] at *
      omega
    · cases h

theorem binSamples_shape {powf : K → K → Option K} {o : BinOp} {n : ℕ} {x y z : Samples K}
    (hx : Shape n x) (hy : Shape n y) (h : binSamples powf o x y = .ok z) : Shape n z := by
  have key : ∀ a b : Samples K, (do
      let ps ← broadcast a.toList b.toList
      let rs ← mapExcept (fun p : Scalar K × Scalar K => npBin powf o p.1 p.2) ps
      (.ok (.arr rs) : Except PyErr (Samples K))) = .ok z → a.toList.length = n → b.toList.length = n →
      n ≠ 1 → Shape n z := by
    intro a b h ha hb hn
    rw [Except.bind_ok_iff] at h
    obtain ⟨ps, h1, h⟩ := h
    rw [Except.bind_ok_iff] at h
    obtain ⟨rs, h2, h⟩ := h
    cases h
    exact ⟨hn, (mapExcept_length h2).trans
      (broadcast_length h1 n (Or.inl ha) (Or.inl hb) (Or.inl ha))⟩
  match x, y, hx, hy with
  | .scalar a, .scalar b, hx, _ =>
    simp only [binSamples, Except.bind_ok_iff] at h
    obtain ⟨c, -, h⟩ := h
    cases h; exact hx
  | .scalar a, .arr b, hx, hy => exact absurd hx hy.1
  | .arr a, .scalar b, hx, hy => exact absurd hy hx.1
  | .arr a, .arr b, hx, hy => exact key _ _ h hx.2 hy.2 hx.1

/-- An array operand with a scalar. -/
theorem binSamples_arr_scalar {powf : K → K → Option K} {o : BinOp} {vs : List (Scalar K)}
    {v : Scalar K} {z : Samples K}
    (h : binSamples powf o (.arr vs) (.scalar v) = .ok z) :
    ∃ rs, z = .arr rs ∧ mapExcept (fun a => npBin powf o a v) vs = .ok rs := by
  have hb : broadcast vs [v] = .ok (vs.map fun a => (a, v)) := by
    unfold broadcast
    match vs with
    | [] => rfl
    | [a] => rfl
    | a :: b :: c => rfl
  simp only [binSamples, Samples.toList, hb] at h
  rw [Except.bind_ok_iff] at h
  obtain ⟨ps, h1, h⟩ := h
  cases h1
  rw [Except.bind_ok_iff] at h
  obtain ⟨rs, h2, h⟩ := h
  cases h
  refine ⟨rs, rfl, ?_⟩
  rw [mapExcept_ok] at h2 ⊢
  rw [List.forall₂_map_left_iff] at h2
  exact h2

theorem binSamples_shape_scalar {powf : K → K → Option K} {o : BinOp} {n : ℕ} {x z : Samples K}
    {v : Scalar K} (hx : Shape n x) (h : binSamples powf o x (.scalar v) = .ok z) : Shape n z := by
  cases x with
  | scalar a => exact binSamples_shape (y := .scalar v) hx hx h
  | arr vs =>
    obtain ⟨rs, rfl, h2⟩ := binSamples_arr_scalar h
    exact ⟨hx.1, (mapExcept_length h2).trans hx.2⟩

theorem vectorize2_shape {f : Scalar K → Scalar K → Except PyErr (Scalar K)} {n : ℕ}
    {x y z : Samples K} (hx : Shape n x) (hy : Shape n y) (h : vectorize2 f x y = .ok z) :
    Shape n z := by
  match x, y, hx, hy with
  | .scalar a, .scalar b, hx, _ =>
    simp only [vectorize2, Except.bind_ok_iff] at h
    obtain ⟨c, -, h⟩ := h
    cases h; exact hx
  | .scalar a, .arr b, hx, hy => exact absurd hx hy.1
  | .arr a, .scalar b, hx, hy => exact absurd hy hx.1
  | .arr a, .arr b, hx, hy =>
    simp only [vectorize2, Except.bind_ok_iff] at h
    obtain ⟨ps, h1, rs, h2, h⟩ := h
    have hl := (mapExcept_length h2).trans
      (broadcast_length h1 n (Or.inl hx.2) (Or.inl hy.2) (Or.inl hx.2))
    cases rs with
    | nil => cases h
    | cons r rs =>
      simp only [Except.bind_ok_iff] at h
      obtain ⟨out, h3, h⟩ := h
      cases h
      exact ⟨hx.1, (mapExcept_length h3).trans hl⟩

theorem applyL_shape {powf : K → K → Option K} {l : Option (Scalar K)} {n : ℕ} {x z : Samples K}
    (hx : Shape n x) (h : applyL powf l x = .ok z) : Shape n z := by
  cases l with
  | none => cases h; exact hx
  | some l =>
    simp only [applyL] at h
    split_ifs at h with hs
    · exact binSamples_shape_scalar hx h
    · match x, hx with
      | .scalar v, hx =>
        simp only [Except.bind_ok_iff] at h
        obtain ⟨c, -, h⟩ := h
        cases h; exact hx
      | .arr [], hx => cases h
      | .arr [v], hx => exact absurd hx.2.symm hx.1
      | .arr (a :: b :: c), hx => cases h

theorem applyR_shape {powf : K → K → Option K} {l : Option (Scalar K)} {n : ℕ} {x z : Samples K}
    (hx : Shape n x) (h : applyR powf l x = .ok z) : Shape n z := by
  cases l with
  | none => cases h; exact hx
  | some l =>
    simp only [applyR] at h
    split_ifs at h with hs
    · exact binSamples_shape_scalar hx h
    · match x, hx with
      | .scalar v, hx =>
        simp only [Except.bind_ok_iff] at h
        obtain ⟨c, -, h⟩ := h
        cases h; exact hx
      | .arr [], hx => cases h
      | .arr [v], hx => exact absurd hx.2.symm hx.1
      | .arr (a :: b :: c), hx => cases h

theorem applyClips_shape {powf : K → K → Option K} {l r : Option (Scalar K)} {n : ℕ}
    {x z : Samples K} (hx : Shape n x) (h : applyClips powf l r x = .ok z) : Shape n z := by
  simp only [applyClips, Except.bind_ok_iff] at h
  obtain ⟨y, h1, h2⟩ := h
  exact applyR_shape (applyL_shape hx h1) h2

theorem withClips_ok {E : Env σ K} {own : Option (Scalar K) × Option (Scalar K)}
    {raw : ℕ → SM σ K (Samples K)} {n : ℕ} {lc rc : Option (Scalar K)} {s s' : St σ K}
    {z : Samples K} :
    withClips E own raw n lc rc s = (.ok z, s') ↔
      n ≠ 0 ∧ ∃ l r x, combineL lc own.1 = .ok l ∧ combineR rc own.2 = .ok r ∧
        raw n s = (.ok x, s') ∧ applyClips E.powf l r x = .ok z := by
  unfold withClips
  split_ifs with hn
  · simp [SM.throw, hn]
  · simp only [SM.bind_ok, SM.lift_ok]
    constructor
    · rintro ⟨l, s1, ⟨h1, rfl⟩, r, s2, ⟨h2, rfl⟩, x, s3, h3, h4, rfl⟩
      exact ⟨hn, l, r, x, h1, h2, h3, h4⟩
    · rintro ⟨-, l, r, x, h1, h2, h3, h4⟩
      exact ⟨l, s, ⟨h1, rfl⟩, r, s, ⟨h2, rfl⟩, x, s', h3, h4, rfl⟩

theorem withClips_shape {E : Env σ K} {own : Option (Scalar K) × Option (Scalar K)}
    {raw : ℕ → SM σ K (Samples K)} {n : ℕ} {lc rc : Option (Scalar K)} {s s' : St σ K}
    {z : Samples K} (hraw : ∀ s x s', raw n s = (.ok x, s') → Shape n x)
    (h : withClips E own raw n lc rc s = (.ok z, s')) : Shape n z := by
  obtain ⟨-, l, r, x, -, -, h3, h4⟩ := withClips_ok.1 h
  exact applyClips_shape (hraw _ _ _ h3) h4

theorem npArray_length (fmt : Scalar K → String) (vs : List (Scalar K)) :
    (npArray fmt vs).length = vs.length := by simp [npArray]

theorem gather_shape {E : Env σ K} {ss : List (Samples K)} {z : Samples K}
    (h : gather E ss = .ok z) : Shape ss.length z := by
  simp only [gather, Except.bind_ok_iff] at h
  obtain ⟨vs, h1, h⟩ := h
  cases h
  exact shape_simplify' ((npArray_length _ _).trans (mapExcept_length h1))

theorem mixtureLarge_shape {ι : Type} {E : Env σ K} (hE : E.gen.Lawful)
    {comp : ι → ℕ → SM σ K (Samples K)} {ws : List K} {vals : List ι} {n : ℕ} {s s' : St σ K}
    {z : Samples K} (h : mixtureLarge E comp ws vals n s = (.ok z, s')) : Shape n z := by
  unfold mixtureLarge at h
  simp only [SM.bind_ok, SM.lift_ok, Except.bind_ok_iff] at h
  obtain ⟨pre, s1, -, us, s2, h2, ⟨vs, h3, h4⟩, rfl⟩ := h
  cases h4
  refine shape_simplify' ((npArray_length _ _).trans ((mapExcept_length h3).trans ?_))
  rw [List.length_zipIdx]
  exact (drawSM_lawful hE h2).1

theorem mixtureSmall_shape {ι : Type} {E : Env σ K}
    {comp : ι → ℕ → SM σ K (Samples K)} {ws : List K} {vals : List ι} {n : ℕ} {s s' : St σ K}
    {z : Samples K} (hcomp : ∀ i s x s', comp i 1 s = (.ok x, s') → Shape 1 x)
    (h : mixtureSmall E comp ws vals n s = (.ok z, s')) : Shape n z := by
  unfold mixtureSmall at h
  obtain ⟨ss, s1, h1, h2⟩ := SM.bind_ok.1 h
  have hr := SM.replicateL_ok.1 h1
  have hl := hr.length
  rw [List.length_replicate] at hl
  split at h2
  · rename_i x
    obtain ⟨rfl, rfl⟩ := SM.pure_ok.1 h2
    simp only [List.length_singleton] at hl
    subst hl
    cases hr with
    | cons h3 h4 =>
      obtain ⟨us, s2, -, h5⟩ := SM.bind_ok.1 h3
      split at h5
      · split at h5
        · exact hcomp _ _ _ _ h5
        · exact (SM.throw_ok.1 h5).elim
      · exact (SM.throw_ok.1 h5).elim
  · rw [SM.lift_ok] at h2
    rw [← hl]
    exact gather_shape h2.1

theorem mixtureRun_shape {ι : Type} {E : Env σ K} (hE : E.gen.Lawful)
    {comp : ι → ℕ → SM σ K (Samples K)} {ws : List K} {vals : List ι} {n : ℕ} {s s' : St σ K}
    {z : Samples K} (hcomp : ∀ i n s x s', comp i n s = (.ok x, s') → Shape n x)
    (h : mixtureRun E comp ws vals n s = (.ok z, s')) : Shape n z := by
  unfold mixtureRun at h
  split at h
  · exact (SM.throw_ok.1 h).elim
  · split at h
    · exact hcomp _ _ _ _ _ h
    · split_ifs at h
      · exact mixtureLarge_shape hE h
      · exact mixtureSmall_shape (fun i => hcomp i 1) h

theorem tInterval_shape {E : Env σ K} (hE : E.gen.Lawful) {low high t cred : K} {n : ℕ}
    {s s' : St σ K} {z : Samples K} (h : tInterval E low high t cred n s = (.ok z, s')) :
    Shape n z := by
  unfold tInterval at h
  simp only [SM.bind_ok, SM.lift_ok, Except.bind_ok_iff] at h
  obtain ⟨x, s1, h1, c, s2, h2, ⟨r, h3, q, h4, y, h5, h6⟩, rfl⟩ := h
  cases h6
  have hy := binSamples_shape (drawSimple_shape hE h1)
    (binSamples_shape_scalar (binSamples_shape_scalar (drawSimple_shape hE h2) h3) h4) h5
  rw [simplify_of_shape hy]
  exact hy

theorem roundSamples_shape {n : ℕ} {x y z : Samples K} (hx : Shape n x)
    (h : roundSamples x y = .ok z) : Shape n z := by
  unfold roundSamples at h
  split at h
  · cases h; exact hx
  · split at h
    · rw [Except.bind_ok_iff] at h
      obtain ⟨a, -, h⟩ := h
      cases h; exact hx
    · exact absurd hx.2.symm hx.1
    · rw [Except.bind_ok_iff] at h
      obtain ⟨a, h1, h⟩ := h
      cases h
      exact ⟨hx.1, (mapExcept_length h1).trans hx.2⟩
  · cases h

theorem logSamples_shape {E : Env σ K} {n : ℕ} {x y z : Samples K} (hx : Shape n x)
    (h : logSamples E x y = .ok z) : Shape n z := by
  have hl := shape_length hx
  unfold logSamples at h
  split at h
  · rename_i h1 h2
    split at h
    · split_ifs at h
      cases h
      rw [h1] at hl
      exact hl.symm
    · cases h
  · cases h

theorem unSamples_shape {E : Env σ K} {f : UnFn} {n : ℕ} {x z : Samples K} (hx : Shape n x)
    (h : unSamples E f x = .ok z) : Shape n z := by
  cases f with
  | neg =>
    simp only [unSamples] at h
    cases x with
    | scalar v =>
      simp only [Except.bind_ok_iff] at h
      obtain ⟨a, -, h⟩ := h
      cases h; exact hx
    | arr vs =>
      simp only [Except.bind_ok_iff] at h
      obtain ⟨a, h1, h⟩ := h
      cases h
      exact ⟨hx.1, (mapExcept_length h1).trans hx.2⟩
  | floor => exact mapFlt_shape (f := fun x => ((⌊x⌋ : ℤ) : K)) hx h
  | ceil => exact mapFlt_shape (f := fun x => ((⌈x⌉ : ℤ) : K)) hx h
  | exp =>
    simp only [unSamples] at h
    split at h
    · rename_i v hv
      split at h
      · cases h
        have := shape_length hx
        rw [hv] at this
        exact this.symm
      · cases h
    · cases h
  | round0 => exact roundSamples_shape (y := .scalar (.int 0)) hx h
  | clipNone => cases h; exact hx

theorem binFnSamples_shape {E : Env σ K} {f : BinFn} {n : ℕ} {x y z : Samples K} (hx : Shape n x)
    (hy : Shape n y) (h : binFnSamples E f x y = .ok z) : Shape n z := by
  cases f with
  | op o => exact binSamples_shape hx hy h
  | lclip => exact vectorize2_shape hx hy h
  | rclip => exact vectorize2_shape hx hy h
  | round => exact roundSamples_shape hx h
  | log => exact logSamples_shape hx h

/-- Leaves whose sampler honours `n`: everything except the `t` distributions without a proper
interval. -/
def Leaf.Regular : Leaf K → Prop
  | .tdist x y _ _ => ∃ a b, x = some a ∧ y = some b ∧ a ≠ b
  | .logtdist x y _ _ => ∃ a b, x = some a ∧ y = some b ∧ a ≠ b
  | _ => True

theorem leafSample_shape {E : Env σ K} (hE : E.gen.Lawful) {l : Leaf K} (hl : l.Regular) {n : ℕ}
    {s s' : St σ K} {z : Samples K} (h : leafSample E l n s = (.ok z, s')) : Shape n z := by
  cases l with
  | const v =>
    obtain ⟨rfl, -⟩ := SM.pure_ok.1 h
    exact constSamples_shape v n
  | uniform => exact drawSimple_shape hE h
  | categorical items =>
    simp only [leafSample, SM.bind_ok] at h
    obtain ⟨p, s1, -, h⟩ := h
    refine mixtureRun_shape hE ?_ h
    intro i n s x s' hx
    obtain ⟨rfl, -⟩ := SM.pure_ok.1 hx
    exact constSamples_shape i n
  | normal => exact drawSimple_shape hE h
  | lognormal => exact drawSimple_shape hE h
  | invlognormal m sd =>
    simp only [leafSample, SM.bind_ok, SM.lift_ok, Except.bind_ok_iff] at h
    obtain ⟨xs, s1, h1, ⟨y, h2, h3⟩, rfl⟩ := h
    obtain ⟨ys, rfl, hy⟩ := mapFlt_arr h2
    cases h3
    exact shape_simplify' (hy.trans (drawSM_lawful hE h1).1)
  | binomial => exact drawSimple_shape hE h
  | beta => exact drawSimple_shape hE h
  | bernoulli p =>
    simp only [leafSample, SM.bind_ok, SM.lift_ok, Except.bind_ok_iff] at h
    obtain ⟨xs, s1, h1, ⟨ys, h2, h3⟩, rfl⟩ := h
    cases h3
    exact shape_simplify' ((mapExcept_length h2).trans (drawSM_lawful hE h1).1)
  | poisson => exact drawSimple_shape hE h
  | chisquare => exact drawSimple_shape hE h
  | exponential => exact drawSimple_shape hE h
  | gamma => exact drawSimple_shape hE h
  | pareto sh =>
    simp only [leafSample, SM.bind_ok, SM.lift_ok, Except.bind_ok_iff] at h
    obtain ⟨xs, s1, h1, ⟨y, h2, h3⟩, rfl⟩ := h
    obtain ⟨ys, rfl, hy⟩ := mapFlt_arr h2
    cases h3
    exact shape_simplify' (hy.trans (drawSM_lawful hE h1).1)
  | triangular => exact drawSimple_shape hE h
  | pert l m r lam =>
    simp only [leafSample, SM.bind_ok, SM.lift_ok] at h
    obtain ⟨b, s1, h1, h2, rfl⟩ := h
    exact mapFlt_shape (drawSimple_shape hE h1) h2
  | tdist x y t cred =>
    obtain ⟨a, b, rfl, rfl, hab⟩ := hl
    simp only [leafSample] at h
    split_ifs at h
    · exact (SM.throw_ok.1 h).elim
    · exact tInterval_shape hE h
  | logtdist x y t cred =>
    obtain ⟨a, b, rfl, rfl, hab⟩ := hl
    simp only [leafSample] at h
    split_ifs at h
    · exact (SM.throw_ok.1 h).elim
    · exact (SM.throw_ok.1 h).elim
    · simp only [SM.bind_ok, SM.lift_ok] at h
      obtain ⟨y, s1, h1, h2, rfl⟩ := h
      exact mapFlt_shape (tInterval_shape hE h1) h2
  | geometric => exact drawSimple_shape hE h
  | die d =>
    simp only [leafSample, SM.bind_ok] at h
    obtain ⟨rs, s1, h1, h2⟩ := h
    obtain ⟨rfl, -⟩ := SM.pure_ok.1 h2
    refine shape_simplify' ?_
    have := (SM.replicateL_ok.1 h1).length
    simpa using this
  | coin =>
    simp only [leafSample, SM.bind_ok] at h
    obtain ⟨rs, s1, h1, h2⟩ := h
    obtain ⟨rfl, -⟩ := SM.pure_ok.1 h2
    refine shape_simplify' ?_
    simpa using (drawSM_lawful hE h1).1

end Verif
