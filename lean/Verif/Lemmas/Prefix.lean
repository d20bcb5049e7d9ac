import Verif.Lemmas.Shape
import Verif.Spec.Prefix

/-! # Samples of a longer run begin with the samples of a shorter one: the steps of the sampler -/

namespace Verif

open Spec

variable {σ K : Type}

/-- The first `n` of `n + k` results are the results of `n`, and they are arrays. -/
def FirstPart (n k : ℕ) (m : ℕ → SM σ K (Samples K)) : Prop :=
  ∀ s z s2, m (n + k) s = (.ok z, s2) →
    ∃ zs s1, z = .arr zs ∧ zs.length = n + k ∧ m n s = (.ok (.arr (zs.take n)), s1)

/-- A step on arrays of at least two values that treats prefixes like the whole. -/
def Local (F : Samples K → Except PyErr (Samples K)) : Prop :=
  ∀ zs z, 2 ≤ zs.length → F (.arr zs) = .ok z →
    ∃ rs, z = .arr rs ∧ rs.length = zs.length ∧ ∀ n, 2 ≤ n → F (.arr (zs.take n)) = .ok (.arr (rs.take n))

/-- The same for a step with two operands of one length. -/
def Local₂ (F : Samples K → Samples K → Except PyErr (Samples K)) : Prop :=
  ∀ xs ys z, 2 ≤ xs.length → xs.length = ys.length → F (.arr xs) (.arr ys) = .ok z →
    ∃ rs, z = .arr rs ∧ rs.length = xs.length ∧
      ∀ n, 2 ≤ n → F (.arr (xs.take n)) (.arr (ys.take n)) = .ok (.arr (rs.take n))

theorem mapExcept_take {α β : Type} {f : α → Except PyErr β} {as : List α} {bs : List β}
    (h : mapExcept f as = .ok bs) (n : ℕ) : mapExcept f (as.take n) = .ok (bs.take n) :=
  mapExcept_ok.2 (List.forall₂_take n (mapExcept_ok.1 h))

theorem simplify_long {vs : List (Scalar K)} (h : 2 ≤ vs.length) : Samples.simplify (.arr vs) = .arr vs := by
  match vs, h with
  | _ :: _ :: _, _ => rfl

theorem simplify_take {zs : List (Scalar K)} (h : 2 ≤ zs.length) {n : ℕ} (hn : 2 ≤ n) :
    Samples.simplify (.arr (zs.take n)) = .arr (zs.take n) :=
  simplify_long (by rw [List.length_take]; omega)

theorem Local.comp {F G : Samples K → Except PyErr (Samples K)} (hF : Local F) (hG : Local G) :
    Local fun x => F x >>= G := by
  intro zs z hz h
  obtain ⟨y, h1, h2⟩ := Except.bind_ok_iff.1 h
  obtain ⟨rs, rfl, hr, hp⟩ := hF zs y hz h1
  obtain ⟨ts, rfl, ht, hq⟩ := hG rs z (by omega) h2
  refine ⟨ts, rfl, by omega, fun n hn => ?_⟩
  show (F (.arr (zs.take n)) >>= G) = _
  rw [hp n hn]
  exact hq n hn

theorem Local.of_map {F : Samples K → Except PyErr (Samples K)} (f : Scalar K → Except PyErr (Scalar K))
    (h : ∀ zs : List (Scalar K), 2 ≤ zs.length → F (.arr zs) = (mapExcept f zs) >>= fun rs => .ok (.arr rs)) :
    Local F := by
  intro zs z hz hzz
  rw [h zs hz] at hzz
  obtain ⟨rs, h1, h2⟩ := Except.bind_ok_iff.1 hzz
  cases h2
  refine ⟨rs, rfl, mapExcept_length h1, fun n hn => ?_⟩
  rw [h _ (by rw [List.length_take]; omega), mapExcept_take h1 n]
  rfl

theorem Local.ok : Local (fun x : Samples K => .ok x) := by
  intro zs z _ h
  cases h
  exact ⟨zs, rfl, rfl, fun _ _ => rfl⟩

theorem Local.simplify : Local (fun x : Samples K => .ok x.simplify) := by
  intro zs z hz h
  simp only [simplify_long hz] at h
  cases h
  exact ⟨zs, rfl, rfl, fun n hn => by simp only [simplify_take hz hn]⟩

theorem Local.congr {F G : Samples K → Except PyErr (Samples K)} (h : ∀ x, F x = G x) (hG : Local G) : Local F := by
  rwa [show F = G from funext h]

theorem Local.map (f : Scalar K → Scalar K) : Local (fun x : Samples K => .ok (.arr (x.toList.map f))) := by
  intro zs z _ h
  cases h
  exact ⟨zs.map f, rfl, by simp, fun n _ => by simp only [Samples.toList, List.map_take]⟩

/-- A step that refuses arrays of at least two values. -/
theorem Local.of_error {F : Samples K → Except PyErr (Samples K)}
    (h : ∀ zs : List (Scalar K), 2 ≤ zs.length → ∃ e, F (.arr zs) = .error e) : Local F := by
  intro zs z hz hzz
  obtain ⟨e, he⟩ := h zs hz
  rw [he] at hzz; cases hzz

theorem Local₂.left {F : Samples K → Samples K → Except PyErr (Samples K)} (h : Local₂ F) (v : Scalar K) :
    ∀ zs z, 2 ≤ zs.length → F (.arr zs) (.arr (List.replicate zs.length v)) = .ok z →
      ∃ rs, z = .arr rs ∧ rs.length = zs.length ∧ ∀ n, 2 ≤ n → n ≤ zs.length →
        F (.arr (zs.take n)) (.arr (List.replicate n v)) = .ok (.arr (rs.take n)) := by
  intro zs z hz hzz
  obtain ⟨rs, h1, h2, h3⟩ := h zs _ z hz (by simp) hzz
  refine ⟨rs, h1, h2, fun n hn hnz => ?_⟩
  have := h3 n hn
  rwa [List.take_replicate, Nat.min_eq_left hnz] at this

theorem Local₂.right {F : Samples K → Samples K → Except PyErr (Samples K)} (h : Local₂ F) (v : Scalar K) :
    ∀ zs z, 2 ≤ zs.length → F (.arr (List.replicate zs.length v)) (.arr zs) = .ok z →
      ∃ rs, z = .arr rs ∧ rs.length = zs.length ∧ ∀ n, 2 ≤ n → n ≤ zs.length →
        F (.arr (List.replicate n v)) (.arr (zs.take n)) = .ok (.arr (rs.take n)) := by
  intro zs z hz hzz
  obtain ⟨rs, h1, h2, h3⟩ := h _ zs z (by simpa using hz) (by simp) hzz
  refine ⟨rs, h1, by simpa using h2, fun n hn hnz => ?_⟩
  have := h3 n hn
  rwa [List.take_replicate, Nat.min_eq_left hnz] at this

/-- Two-operand steps that act on pairs. -/
theorem Local₂.of_zip {F : Samples K → Samples K → Except PyErr (Samples K)}
    (f : Scalar K × Scalar K → Except PyErr (Scalar K)) (g : List (Scalar K) → Except PyErr (List (Scalar K)))
    (hg : ∀ {rs out}, g rs = .ok out → out.length = rs.length ∧ ∀ n, 1 ≤ n → g (rs.take n) = .ok (out.take n))
    (h : ∀ xs ys : List (Scalar K), 2 ≤ xs.length → xs.length = ys.length →
      F (.arr xs) (.arr ys) = (mapExcept f (xs.zip ys)) >>= fun rs => g rs >>= fun out => .ok (.arr out)) :
    Local₂ F := by
  intro xs ys z hx hxy hz
  rw [h xs ys hx hxy] at hz
  obtain ⟨rs, h1, h2⟩ := Except.bind_ok_iff.1 hz
  obtain ⟨out, h3, h4⟩ := Except.bind_ok_iff.1 h2
  cases h4
  obtain ⟨hl, hp⟩ := hg h3
  have hlen := mapExcept_length h1
  rw [List.length_zip] at hlen
  refine ⟨out, rfl, by omega, fun n hn => ?_⟩
  have hz : (xs.take n).zip (ys.take n) = (xs.zip ys).take n := by
    simp only [List.zip, List.take_zipWith]
  rw [h _ _ (by rw [List.length_take]; omega) (by rw [List.length_take, List.length_take, hxy]), hz,
    mapExcept_take h1 n]
  show (g (rs.take n) >>= _) = _
  rw [hp n (by omega)]
  rfl

variable [Field K] [LinearOrder K] [FloorRing K]

theorem constSamples_long (v : Scalar K) {n : ℕ} (hn : 2 ≤ n) : constSamples v n = .arr (List.replicate n v) :=
  simplify_long (by simpa using hn)

theorem binSamples_long (powf : K → K → Option K) (o : BinOp) (v : Scalar K) {zs : List (Scalar K)}
    (hz : 2 ≤ zs.length) :
    binSamples powf o (.arr zs) (.scalar v)
      = (mapExcept (fun x => npBin powf o x v) zs) >>= fun rs => .ok (.arr rs) := by
  match zs, hz with
  | a :: b :: l, _ =>
    have hb : broadcast (a :: b :: l) [v] = .ok ((a :: b :: l).map fun x => (x, v)) := by
      unfold broadcast
      rw [if_neg (by simp)]
    have hm : ∀ l : List (Scalar K), mapExcept (fun p : Scalar K × Scalar K => npBin powf o p.1 p.2)
        (l.map fun x => (x, v)) = mapExcept (fun x => npBin powf o x v) l := by
      intro l
      induction l with
      | nil => rfl
      | cons x l ih => simp only [List.map_cons, mapExcept, ih]
    show (do
      let ps ← broadcast (a :: b :: l) [v]
      let rs ← mapExcept (fun p : Scalar K × Scalar K => npBin powf o p.1 p.2) ps
      Except.ok (Samples.arr rs)) = _
    rw [hb]
    show (mapExcept (fun p : Scalar K × Scalar K => npBin powf o p.1 p.2) ((a :: b :: l).map fun x => (x, v)) >>= _) = _
    rw [hm]

theorem applyL_local (powf : K → K → Option K) (l : Option (Scalar K)) : Local (applyL powf l) := by
  cases l with
  | none => exact Local.ok
  | some v =>
    refine Local.of_map (fun x => npBin powf .max x v) fun zs hz => ?_
    have hs : (Samples.arr zs).safeLen > 1 := hz
    unfold applyL
    simp only [if_pos hs]
    exact binSamples_long powf .max v hz

theorem applyR_local (powf : K → K → Option K) (l : Option (Scalar K)) : Local (applyR powf l) := by
  cases l with
  | none => exact Local.ok
  | some v =>
    refine Local.of_map (fun x => npBin powf .min x v) fun zs hz => ?_
    have hs : (Samples.arr zs).safeLen > 1 := hz
    unfold applyR
    simp only [if_pos hs]
    exact binSamples_long powf .min v hz

theorem mapFlt_local (f : K → K) : Local (mapFlt f) :=
  Local.of_map (fun v => match v.num? with
    | some x => .ok (.flt (f x.val))
    | none => .error .typeError) fun _ _ => rfl

theorem unSamples_local (E : Env σ K) (f : UnFn) : Local (unSamples E f) := by
  cases f with
  | neg => exact Local.of_map npNeg fun _ _ => rfl
  | floor => exact mapFlt_local fun x => ((⌊x⌋ : ℤ) : K)
  | ceil => exact mapFlt_local fun x => ((⌈x⌉ : ℤ) : K)
  | exp =>
    refine Local.of_error fun zs hz => ?_
    match zs, hz with
    | _ :: _ :: _, _ => exact ⟨_, rfl⟩
  | round0 =>
    refine Local.of_map (roundElem 0) fun zs hz => ?_
    match zs, hz with
    | _ :: _ :: _, _ => rfl
  | clipNone => exact Local.ok

theorem vectorize2_local (f : Scalar K → Scalar K → Except PyErr (Scalar K)) : Local₂ (vectorize2 f) := by
  refine Local₂.of_zip (fun p => f p.1 p.2) (fun rs => match rs with
    | [] => .error .valueError
    | r :: _ => mapExcept (vecCast r.dt) rs) ?_ ?_
  · intro rs out h
    match rs, h with
    | r :: rs, h =>
      refine ⟨mapExcept_length h, fun n hn => ?_⟩
      match n, hn with
      | n + 1, _ => exact mapExcept_take h (n + 1)
  · intro xs ys hx hxy
    show (do
      let ps ← broadcast xs ys
      let rs ← mapExcept (fun p : Scalar K × Scalar K => f p.1 p.2) ps
      match rs with
        | [] => .error .valueError
        | r :: _ => do
          let out ← mapExcept (vecCast r.dt) rs
          Except.ok (Samples.arr out)) = _
    have hb : broadcast xs ys = .ok (xs.zip ys) := by unfold broadcast; rw [if_pos hxy]
    rw [hb]
    show (mapExcept (fun p : Scalar K × Scalar K => f p.1 p.2) (xs.zip ys) >>= _) = _
    congr 1
    funext rs
    cases rs <;> rfl

theorem binFnSamples_local (E : Env σ K) (f : BinFn) : Local₂ (binFnSamples E f) := by
  cases f with
  | op o =>
    refine Local₂.of_zip (fun p => npBin E.powf o p.1 p.2) (fun rs => .ok rs) ?_ ?_
    · intro rs out h
      cases h
      exact ⟨rfl, fun _ _ => rfl⟩
    · intro xs ys hx hxy
      show (do
        let ps ← broadcast xs ys
        let rs ← mapExcept (fun p : Scalar K × Scalar K => npBin E.powf o p.1 p.2) ps
        Except.ok (Samples.arr rs)) = _
      have hb : broadcast xs ys = .ok (xs.zip ys) := by unfold broadcast; rw [if_pos hxy]
      rw [hb]
      rfl
  | lclip => exact vectorize2_local _
  | rclip => exact vectorize2_local _
  | round =>
    intro xs ys z _ _ h
    cases h
  | log =>
    intro xs ys z hx _ h
    match xs, hx, h with
    | _ :: _ :: _, _, h => cases h

/-- Continue with a step on the samples. -/
theorem FirstPart.lift {n k : ℕ} (hn : 2 ≤ n) {m : ℕ → SM σ K (Samples K)} (h : FirstPart n k m)
    {F : Samples K → Except PyErr (Samples K)} (hF : Local F) :
    FirstPart n k fun j => SM.bind (m j) fun x => SM.lift (F x) := by
  intro s z s2 hz
  obtain ⟨y, s3, h1, h2⟩ := SM.bind_ok.1 hz
  obtain ⟨h3, rfl⟩ := SM.lift_ok.1 h2
  obtain ⟨zs, s1, rfl, hl, h4⟩ := h s y _ h1
  obtain ⟨rs, rfl, hr, h5⟩ := hF zs z (by omega) h3
  exact ⟨rs, s1, rfl, by omega, SM.bind_ok.2 ⟨_, _, h4, SM.lift_ok.2 ⟨h5 n hn, rfl⟩⟩⟩

theorem FirstPart.withClips {n k : ℕ} (hn : 2 ≤ n) {E : Env σ K} {own : Option (Scalar K) × Option (Scalar K)}
    {raw : ℕ → SM σ K (Samples K)} (h : FirstPart n k raw) (lc rc : Option (Scalar K)) :
    FirstPart n k fun j => withClips E own raw j lc rc := by
  intro s z s2 hz
  simp only [Verif.withClips] at hz ⊢
  rw [if_neg (by omega)] at hz
  obtain ⟨l, s3, hl, hz⟩ := SM.bind_ok.1 hz
  obtain ⟨hl', rfl⟩ := SM.lift_ok.1 hl
  obtain ⟨r, s4, hr, hz⟩ := SM.bind_ok.1 hz
  obtain ⟨hr', rfl⟩ := SM.lift_ok.1 hr
  have hF : Local (applyClips E.powf l r) := (applyL_local _ _).comp (applyR_local _ _)
  obtain ⟨zs, s1, rfl, hlen, h1⟩ := (h.lift hn hF) s z s2 hz
  refine ⟨zs, s1, rfl, hlen, ?_⟩
  rw [if_neg (by omega)]
  exact SM.bind_ok.2 ⟨l, s, SM.lift_ok.2 ⟨hl', rfl⟩, SM.bind_ok.2 ⟨r, s, SM.lift_ok.2 ⟨hr', rfl⟩, h1⟩⟩

theorem FirstPart.const {n k : ℕ} (hn : 2 ≤ n) (v : Scalar K) :
    FirstPart (σ := σ) n k fun j => SM.pure (constSamples v j) := by
  intro s z s2 hz
  obtain ⟨rfl, rfl⟩ := SM.pure_ok.1 hz
  refine ⟨List.replicate (n + k) v, s, constSamples_long v (by omega), by simp, ?_⟩
  simp only [constSamples_long v hn, List.take_replicate, Nat.min_eq_left (show n ≤ n + k by omega)]
  rfl

theorem drawSM_first {E : Env σ K} (hE : E.gen.Lawful) (hseq : Sequential E.gen) {p : Prim K} {n k : ℕ} {s s2 : St σ K}
    {zs : List (Scalar K)} (h : drawSM E p (n + k) s = (.ok zs, s2)) :
    zs.length = n + k ∧ ∃ s1, drawSM E p n s = (.ok (zs.take n), s1) := by
  obtain ⟨h1, -⟩ := drawSM_ok h
  obtain ⟨xs, ys, t, h2, -, rfl⟩ := hseq p n k s.rng _ zs h1
  refine ⟨(hE _ _ _ _ _ h1).1, { s with rng := t }, ?_⟩
  have hl := (hE _ _ _ _ _ h2).1
  unfold drawSM
  rw [h2, List.take_left' hl]

/-- A request followed by a step on the numbers. -/
theorem FirstPart.draw {E : Env σ K} (hE : E.gen.Lawful) (hseq : Sequential E.gen) {n k : ℕ} (hn : 2 ≤ n)
    (p : Prim K) {F : Samples K → Except PyErr (Samples K)} (hF : Local F) :
    FirstPart n k fun j => SM.bind (drawSM E p j) fun xs => SM.lift (F (.arr xs)) := by
  intro s z s2 hz
  obtain ⟨ys, s3, h1, h2⟩ := SM.bind_ok.1 hz
  obtain ⟨h3, rfl⟩ := SM.lift_ok.1 h2
  obtain ⟨hl, s1, h4⟩ := drawSM_first hE hseq h1
  obtain ⟨rs, rfl, hr, h5⟩ := hF ys z (by omega) h3
  exact ⟨rs, s1, rfl, by omega, SM.bind_ok.2 ⟨_, _, h4, SM.lift_ok.2 ⟨h5 n hn, rfl⟩⟩⟩

theorem FirstPart.simple {E : Env σ K} (hE : E.gen.Lawful) (hseq : Sequential E.gen) {n k : ℕ} (hn : 2 ≤ n)
    (p : Prim K) : FirstPart n k fun j => drawSimple E p j :=
  FirstPart.draw hE hseq hn p Local.simplify

/-- The first results of a repeated computation are those of fewer repetitions. -/
theorem replicateL_first {α : Type} {m : SM σ K α} {n k : ℕ} {s s2 : St σ K} {as : List α}
    (h : SM.replicateL m (n + k) s = (.ok as, s2)) :
    as.length = n + k ∧ ∃ s1, SM.replicateL m n s = (.ok (as.take n), s1) := by
  refine ⟨by have := (SM.replicateL_ok.1 h).length; simpa using this, ?_⟩
  induction n generalizing s as with
  | zero => exact ⟨s, rfl⟩
  | succ n ih =>
    rw [show n + 1 + k = (n + k) + 1 by omega] at h
    simp only [SM.replicateL] at h ⊢
    obtain ⟨a, s3, h1, h2⟩ := SM.bind_ok.1 h
    obtain ⟨bs, s4, h3, h4⟩ := SM.bind_ok.1 h2
    obtain ⟨rfl, rfl⟩ := SM.pure_ok.1 h4
    obtain ⟨s5, h5⟩ := ih h3
    exact ⟨s5, SM.bind_ok.2 ⟨a, s3, h1, SM.bind_ok.2 ⟨_, s5, h5, rfl⟩⟩⟩

theorem leafSample_first {E : Env σ K} (hE : E.gen.Lawful) (hseq : Sequential E.gen) {n k : ℕ} (hn : 2 ≤ n)
    {l : Leaf K} (hl : OneRequest l) : FirstPart n k (leafSample E l) := by
  cases l with
  | const v => exact FirstPart.const hn v
  | uniform x y => exact FirstPart.simple hE hseq hn _
  | categorical items => exact hl.elim
  | normal m s => exact FirstPart.simple hE hseq hn _
  | lognormal m s => exact FirstPart.simple hE hseq hn _
  | invlognormal m s => exact FirstPart.draw hE hseq hn _ ((mapFlt_local _).comp Local.simplify)
  | binomial m p => exact FirstPart.simple hE hseq hn _
  | beta a b => exact FirstPart.simple hE hseq hn _
  | bernoulli p =>
    refine FirstPart.draw hE hseq hn _ (F := fun x => (do
        let vs ← mapExcept (fun v : Scalar K => match v with
          | .flt u => Except.ok (Scalar.int (if u < p then 1 else 0))
          | _ => .error .unmodelled) x.toList
        .ok (Samples.simplify (.arr vs)))) ?_
    have : Local (fun x : Samples K => (do
        let vs ← mapExcept (fun v : Scalar K => match v with
          | .flt u => Except.ok (Scalar.int (if u < p then 1 else 0))
          | _ => .error .unmodelled) x.toList
        Except.ok (Samples.arr vs))) := Local.of_map _ fun _ _ => rfl
    refine Local.congr (fun x => ?_) (this.comp Local.simplify)
    cases mapExcept (fun v : Scalar K => match v with
          | .flt u => Except.ok (Scalar.int (if u < p then 1 else 0))
          | _ => .error .unmodelled) x.toList <;> rfl
  | poisson lam => exact FirstPart.simple hE hseq hn _
  | chisquare df => exact FirstPart.simple hE hseq hn _
  | exponential sc => exact FirstPart.simple hE hseq hn _
  | gamma sh sc => exact FirstPart.simple hE hseq hn _
  | pareto sh => exact FirstPart.draw hE hseq hn _ ((mapFlt_local _).comp Local.simplify)
  | triangular l m r => exact FirstPart.simple hE hseq hn _
  | pert l m r lam => exact (FirstPart.simple hE hseq hn _).lift hn (mapFlt_local _)
  | tdist x y t cred =>
    obtain ⟨rfl, rfl⟩ := hl
    exact FirstPart.draw hE hseq hn _ Local.ok
  | logtdist x y t cred => exact hl.elim
  | geometric p => exact FirstPart.simple hE hseq hn _
  | die d =>
    intro s z s2 hz
    obtain ⟨rs, s3, h1, h2⟩ := SM.bind_ok.1 hz
    obtain ⟨rfl, rfl⟩ := SM.pure_ok.1 h2
    obtain ⟨hl, s1, h3⟩ := replicateL_first h1
    refine ⟨rs.map .int, s1, simplify_long (by rw [List.length_map]; omega), by simpa using hl,
      SM.bind_ok.2 ⟨_, s1, h3, SM.pure_ok.2 ⟨?_, rfl⟩⟩⟩
    rw [← List.map_take, simplify_long (by rw [List.length_map, List.length_take]; omega)]
  | coin =>
    exact FirstPart.draw hE hseq hn _ ((Local.map fun v =>
      if v = .int 1 then .str "heads" else .str "tails").comp Local.simplify)

end Verif
