import Verif.Lemmas.Prefix
import Verif.Lemmas.DemoGen
import Verif.Props.Support
import Verif.Props.Bayesnet

/-! # C132: more samples with the same seed -/

namespace Verif

open Spec

variable {σ K : Type} [Field K] [LinearOrder K] [FloorRing K]

/-! ## Models with one source of randomness -/

theorem commonDT_flt : ∀ {vs : List (Scalar K)}, vs ≠ [] → (∀ v ∈ vs, ∃ x, v = .flt x) → commonDT vs = .flt := by
  have key : ∀ (vs : List (Scalar K)), (∀ v ∈ vs, ∃ x, v = .flt x) →
      vs.foldl (fun (d : DT) v => d.join v.dt) DT.flt = DT.flt := by
    intro vs
    induction vs with
    | nil => intro _; rfl
    | cons v vs ih =>
      intro h
      obtain ⟨x, rfl⟩ := h v (by simp)
      exact ih fun w hw => h w (by simp [hw])
  intro vs hne h
  match vs, hne with
  | v :: vs, _ =>
    obtain ⟨x, rfl⟩ := h v (by simp)
    exact key vs fun w hw => h w (by simp [hw])

theorem npArray_flt (fmt : Scalar K → String) (xs : List K) : npArray fmt (xs.map .flt) = xs.map .flt := by
  match xs with
  | [] => rfl
  | x :: xs =>
    unfold npArray
    rw [commonDT_flt (by simp) (by
      intro v hv
      obtain ⟨y, -, rfl⟩ := List.mem_map.1 hv
      exact ⟨y, rfl⟩), List.map_map]
    rfl

theorem gather_flt (E : Env σ K) (xs : List K) :
    gather E (xs.map fun x => Samples.scalar (.flt x)) = .ok (Samples.simplify (.arr (xs.map .flt))) := by
  have h : mapExcept (fun s : Samples K => match s with
      | .scalar v => Except.ok v
      | .arr _ => .error .unmodelled) (xs.map fun x => Samples.scalar (.flt x)) = .ok (xs.map .flt) := by
    induction xs with
    | nil => rfl
    | cons x xs ih => simp only [List.map_cons, mapExcept, ih]; rfl
  have h2 : gather E (xs.map fun x => Samples.scalar (.flt x))
      = (Except.ok (xs.map Scalar.flt) >>= fun vs => Except.ok (Samples.simplify (.arr (npArray E.fmt vs)))) :=
    congrArg (· >>= fun vs => Except.ok (Samples.simplify (.arr (npArray E.fmt vs)))) h
  rw [h2]
  show Except.ok (Samples.simplify (.arr (npArray E.fmt (xs.map .flt)))) = _
  rw [npArray_flt]

theorem lit_run (E : Env σ K) (v : Scalar K) {n : ℕ} (hn : n ≠ 0) (s : St σ K) :
    withClips E (Obj.lit v : Obj (St σ K) K).clips (rawObj E (.lit v)) n none none s = (.ok (constSamples v n), s) := by
  unfold withClips
  rw [if_neg hn]
  rfl

theorem calls_flt (E : Env σ K) {ret : St σ K → Obj (St σ K) K} {val : St σ K → K} (h : ∀ s, ret s = .lit (.flt (val s))) :
    ∀ (states : List (St σ K)) (s : St σ K), SM.mapL (fun s =>
      if (ret s).isLit then SM.pure (.scalar (ret s).litVal)
      else withClips E (ret s).clips (rawObj E (ret s)) 1 none none) states s
        = (.ok ((states.map val).map fun x => Samples.scalar (.flt x)), s)
  | [], s => rfl
  | a :: states, s => by
    rw [SM.mapL]
    refine SM.bind_ok.2 ⟨.scalar (.flt (val a)), s, ?_, SM.bind_ok.2 ⟨_, s, calls_flt E h states s, rfl⟩⟩
    simp only [h a, Obj.isLit, Obj.litVal, if_true]
    rfl

theorem rawObj_first {E : Env σ K} (hE : E.gen.Lawful) (hseq : Sequential E.gen) {n k : ℕ} (hn : 2 ≤ n)
    {d : Obj (St σ K) K} (h : OneSource d) : FirstPart n k (rawObj E d) := by
  induction h with
  | number v => exact FirstPart.const hn v
  | basic lc rc h => exact leafSample_first hE hseq hn h
  | un f h ih => exact (ih.withClips hn none none).lift hn (unSamples_local E f)
  | @withNumber f d h v ih =>
    intro s z s2 hz
    rw [rawObj] at hz ⊢
    obtain ⟨x, s3, h1, h2⟩ := SM.bind_ok.1 hz
    obtain ⟨y, s4, h3, h4⟩ := SM.bind_ok.1 h2
    obtain ⟨h5, rfl⟩ := SM.lift_ok.1 h4
    obtain ⟨xs, s1, rfl, hl, h6⟩ := (ih.withClips hn none none) s x s3 h1
    rw [lit_run E v (by omega), constSamples_long v (by omega)] at h3
    cases h3
    rw [← hl] at h5
    obtain ⟨rs, rfl, hr, h7⟩ := (binFnSamples_local E f).left v xs z (by omega) h5
    refine ⟨rs, s1, rfl, by omega, SM.bind_ok.2 ⟨_, s1, h6, SM.bind_ok.2 ⟨_, s1, lit_run E v (by omega) s1,
      SM.lift_ok.2 ⟨?_, rfl⟩⟩⟩⟩
    rw [constSamples_long v hn]
    exact h7 n hn (by omega)
  | @ofNumber f v d h ih =>
    intro s z s2 hz
    rw [rawObj] at hz ⊢
    obtain ⟨x, s3, h1, h2⟩ := SM.bind_ok.1 hz
    obtain ⟨y, s4, h3, h4⟩ := SM.bind_ok.1 h2
    obtain ⟨h5, rfl⟩ := SM.lift_ok.1 h4
    rw [lit_run E v (by omega), constSamples_long v (by omega)] at h1
    cases h1
    obtain ⟨xs, s1, rfl, hl, h6⟩ := (ih.withClips hn none none) s y s4 h3
    rw [← hl] at h5
    obtain ⟨rs, rfl, hr, h7⟩ := (binFnSamples_local E f).right v xs z (by omega) h5
    refine ⟨rs, s1, rfl, by omega, SM.bind_ok.2 ⟨_, s, lit_run E v (by omega) s, SM.bind_ok.2 ⟨_, s1, h6,
      SM.lift_ok.2 ⟨?_, rfl⟩⟩⟩⟩
    rw [constSamples_long v hn]
    exact h7 n hn (by omega)
  | @each f isDist val r d hd hv h ih =>
    have hF : Local val := by
      intro zs z hz hzz
      rw [hv] at hzz
      cases hzz
      exact ⟨zs.map f, rfl, by simp, fun n _ => by rw [hv, List.map_take]⟩
    have := (ih.withClips (E := E) (own := d.clips) hn none none).lift hn hF
    have he : rawObj E (.userUn isDist val r d)
        = fun j => SM.bind (withClips E d.clips (rawObj E d) j none none) fun x => SM.lift (val x) := by
      funext j
      rw [rawObj]
      simp only [hd, Bool.false_eq_true, if_false]
    rw [he]
    exact this
  | @function exn ret next h =>
    choose val hval using h
    intro s z s2 hz
    rw [rawObj] at hz ⊢
    obtain ⟨states, s3, h1, h2⟩ := SM.bind_ok.1 hz
    rw [SM.bind, calls_flt E hval] at h2
    obtain ⟨h3, rfl⟩ := SM.lift_ok.1 h2
    rw [gather_flt] at h3
    obtain ⟨hl, s1, h4⟩ := replicateL_first h1
    rw [simplify_long (by simp; omega)] at h3
    cases h3
    refine ⟨_, s1, rfl, by simpa using hl, SM.bind_ok.2 ⟨_, s1, h4, ?_⟩⟩
    rw [SM.bind, calls_flt E hval]
    refine SM.lift_ok.2 ⟨?_, rfl⟩
    rw [gather_flt, simplify_long (by simp; omega), List.map_take, List.map_take]

/-- **C132** (part): with the same seed, a model with one source of randomness gives the same samples again and
then more, if more are asked for.  Not for `n = 1` (see `C132_first_sample_partial`), and not for models with
several sources (`C132_sum_fails`, `C132_mixture_fails`). -/
theorem C132_extends_partial {E : Env σ K} (hE : E.gen.Lawful) (hseq : Sequential E.gen) {d : Obj (St σ K) K}
    (h : OneSource d) {n k : ℕ} (hn : 2 ≤ n) (lc rc : Option (Scalar K)) {s s2 : St σ K} {z : Samples K}
    (hz : sampleObj E d (n + k) lc rc s = (.ok z, s2)) :
    ∃ x s1, sampleObj E d n lc rc s = (.ok x, s1) ∧ x.toList = z.toList.take n := by
  obtain ⟨zs, s1, rfl, -, h1⟩ := ((rawObj_first hE hseq (k := k) hn h).withClips hn lc rc) s z s2 hz
  exact ⟨_, s1, h1, rfl⟩

/-! ## One sample -/

/-- The first `n` of `n + k` results are the results of `n`, as values. -/
def FirstList (n k : ℕ) (m : ℕ → SM σ K (Samples K)) : Prop :=
  ∀ s z s2, m (n + k) s = (.ok z, s2) → ∃ x s1, m n s = (.ok x, s1) ∧ x.toList = z.toList.take n

theorem FirstList.draw {E : Env σ K} (hE : E.gen.Lawful) (hseq : Sequential E.gen) (n k : ℕ) (p : Prim K)
    {F : List (Scalar K) → Except PyErr (Samples K)}
    (hF : ∀ xs z, F xs = .ok z → ∃ x, F (xs.take n) = .ok x ∧ x.toList = z.toList.take n) :
    FirstList n k fun j => SM.bind (drawSM E p j) fun xs => SM.lift (F xs) := by
  intro s z s2 hz
  obtain ⟨ys, s3, h1, h2⟩ := SM.bind_ok.1 hz
  obtain ⟨h3, rfl⟩ := SM.lift_ok.1 h2
  obtain ⟨hl, s1, h4⟩ := drawSM_first hE hseq h1
  obtain ⟨x, h5, h6⟩ := hF ys z h3
  exact ⟨x, s1, SM.bind_ok.2 ⟨_, _, h4, SM.lift_ok.2 ⟨h5, rfl⟩⟩, h6⟩

theorem FirstList.simple {E : Env σ K} (hE : E.gen.Lawful) (hseq : Sequential E.gen) (n k : ℕ) (p : Prim K) :
    FirstList n k fun j => drawSimple E p j := by
  refine FirstList.draw hE hseq n k p (F := fun xs => .ok (Samples.simplify (.arr xs))) fun xs z h => ?_
  cases h
  exact ⟨_, rfl, by rw [toList_simplify, toList_simplify]⟩

theorem mapFlt_toList (f : K → K) {x y : Samples K} (h : mapFlt f x = .ok y) (n : ℕ) {x' : Samples K}
    (hx : x'.toList = x.toList.take n) (hn : 1 ≤ n) : ∃ y', mapFlt f x' = .ok y' ∧ y'.toList = y.toList.take n := by
  have key : ∃ g : Scalar K → Except PyErr (Scalar K), ∀ x : Samples K,
      mapFlt f x = (match x with
        | .scalar v => (g v) >>= fun w => .ok (.scalar w)
        | .arr vs => (mapExcept g vs) >>= fun ws => .ok (.arr ws)) :=
    ⟨fun v => match v.num? with
      | some x => .ok (.flt (f x.val))
      | none => .error .typeError, fun x => by cases x <;> rfl⟩
  obtain ⟨g, hg⟩ := key
  have h1 : mapExcept g x.toList = .ok y.toList := by
    rw [hg] at h
    cases x with
    | scalar v =>
      obtain ⟨w, h1, h2⟩ := Except.bind_ok_iff.1 h
      cases h2
      exact mapExcept_ok.2 (.cons h1 .nil)
    | arr vs =>
      obtain ⟨ws, h1, h2⟩ := Except.bind_ok_iff.1 h
      cases h2
      exact h1
  have h2 : mapExcept g x'.toList = .ok (y.toList.take n) := by rw [hx]; exact mapExcept_take h1 n
  cases x' with
  | scalar v =>
    obtain ⟨w, h3, h4⟩ := Except.bind_ok_iff.1 (show (g v >>= fun w => mapExcept g [] >>= fun ws => .ok (w :: ws)) = _ from h2)
    exact ⟨.scalar w, by rw [hg]; simp only [h3]; rfl, Except.ok.inj h4⟩
  | arr vs =>
    exact ⟨.arr (y.toList.take n), by rw [hg]; simp only [show mapExcept g vs = _ from h2]; rfl, rfl⟩

theorem leafSample_firstList {E : Env σ K} (hE : E.gen.Lawful) (hseq : Sequential E.gen) {n k : ℕ} (hn : 1 ≤ n)
    {l : Leaf K} (hl : OneRequest l) : FirstList n k (leafSample E l) := by
  have hmap : ∀ (p : Prim K) (f : K → K), FirstList n k fun j => SM.bind (drawSM E p j) fun xs =>
      SM.lift (do .ok (← mapFlt f (.arr xs)).simplify) := by
    intro p f
    refine FirstList.draw hE hseq n k p (F := fun xs => (do .ok (← mapFlt f (.arr xs)).simplify)) fun xs z h => ?_
    obtain ⟨y, h1, h2⟩ := Except.bind_ok_iff.1 h
    cases h2
    obtain ⟨ys, rfl, -⟩ := mapFlt_arr h1
    obtain ⟨y', h3, h4⟩ := mapFlt_toList f h1 n (x' := .arr (xs.take n)) rfl hn
    obtain ⟨ys', rfl, -⟩ := mapFlt_arr h3
    exact ⟨_, Except.bind_ok_iff.2 ⟨_, h3, rfl⟩, by rw [toList_simplify, toList_simplify]; exact h4⟩
  cases l with
  | const v =>
    intro s z s2 hz
    obtain ⟨rfl, rfl⟩ := SM.pure_ok.1 hz
    refine ⟨_, s, rfl, ?_⟩
    simp only [constSamples, toList_simplify, List.take_replicate]
    congr 1
    omega
  | uniform x y => exact FirstList.simple hE hseq n k _
  | categorical items => exact hl.elim
  | normal m s => exact FirstList.simple hE hseq n k _
  | lognormal m s => exact FirstList.simple hE hseq n k _
  | invlognormal m s => exact hmap _ _
  | binomial m p => exact FirstList.simple hE hseq n k _
  | beta a b => exact FirstList.simple hE hseq n k _
  | bernoulli p =>
    refine FirstList.draw hE hseq n k _ (F := fun xs => (do
        let vs ← mapExcept (fun v : Scalar K => match v with
          | .flt u => Except.ok (Scalar.int (if u < p then 1 else 0))
          | _ => .error .unmodelled) xs
        .ok (Samples.simplify (.arr vs)))) fun xs z h => ?_
    obtain ⟨y, h1, h2⟩ := Except.bind_ok_iff.1 h
    cases h2
    exact ⟨_, Except.bind_ok_iff.2 ⟨_, mapExcept_take h1 n, rfl⟩, by rw [toList_simplify, toList_simplify]⟩
  | poisson lam => exact FirstList.simple hE hseq n k _
  | chisquare df => exact FirstList.simple hE hseq n k _
  | exponential sc => exact FirstList.simple hE hseq n k _
  | gamma sh sc => exact FirstList.simple hE hseq n k _
  | pareto sh => exact hmap _ _
  | triangular l m r => exact FirstList.simple hE hseq n k _
  | pert l m r lam =>
    intro s z s2 hz
    obtain ⟨y, s3, h1, h2⟩ := SM.bind_ok.1 hz
    obtain ⟨h3, rfl⟩ := SM.lift_ok.1 h2
    obtain ⟨x, s1, h4, h5⟩ := FirstList.simple hE hseq n k _ s y _ h1
    obtain ⟨y', h6, h7⟩ := mapFlt_toList _ h3 n h5 hn
    exact ⟨y', s1, SM.bind_ok.2 ⟨_, _, h4, SM.lift_ok.2 ⟨h6, rfl⟩⟩, h7⟩
  | tdist x y t cred =>
    obtain ⟨rfl, rfl⟩ := hl
    exact FirstList.draw hE hseq n k _ (F := fun xs => .ok (.arr xs)) fun xs z h => by cases h; exact ⟨_, rfl, rfl⟩
  | logtdist x y t cred => exact hl.elim
  | geometric p => exact FirstList.simple hE hseq n k _
  | die d =>
    intro s z s2 hz
    obtain ⟨rs, s3, h1, h2⟩ := SM.bind_ok.1 hz
    obtain ⟨rfl, rfl⟩ := SM.pure_ok.1 h2
    obtain ⟨hl, s1, h3⟩ := replicateL_first h1
    exact ⟨_, s1, SM.bind_ok.2 ⟨_, s1, h3, rfl⟩, by rw [toList_simplify, toList_simplify, List.map_take]⟩
  | coin =>
    refine FirstList.draw hE hseq n k _ (F := fun xs => .ok (Samples.simplify (.arr (xs.map fun v =>
        if v = .int 1 then .str "heads" else .str "tails")))) fun xs z h => ?_
    cases h
    exact ⟨_, rfl, by rw [toList_simplify, toList_simplify, List.map_take]⟩

/-- **C132** (part): one sample of a basic distribution is the first of several with the same seed (also for
`n ≥ 2`; bounds are missing here, see `C132_extends_partial` for them). -/
theorem C132_first_sample_partial {E : Env σ K} (hE : E.gen.Lawful) (hseq : Sequential E.gen) {l : Leaf K}
    (h : OneRequest l) {n k : ℕ} (hn : 1 ≤ n) {s s2 : St σ K} {z : Samples K}
    (hz : sampleObj E (.leaf l none none) (n + k) none none s = (.ok z, s2)) :
    ∃ x s1, sampleObj E (.leaf l none none) n none none s = (.ok x, s1) ∧ x.toList = z.toList.take n := by
  unfold sampleObj at hz ⊢
  obtain ⟨-, lo, hi, y, h1, h2, h3, h4⟩ := withClips_ok.1 hz
  cases h1
  cases h2
  cases h4
  obtain ⟨x, s1, h5, h6⟩ := leafSample_firstList hE hseq hn h s z s2 h3
  exact ⟨x, s1, withClips_ok.2 ⟨by omega, none, none, x, rfl, rfl, h5, rfl⟩, h6⟩

/-! ## Mixtures -/

theorem castTo_number {fmt : Scalar K → String} {d : DT} {v : Scalar K} (h : ((v.castTo fmt d).val?).isSome) :
    (v.val?).isSome := by
  cases d <;> cases v <;> simp_all [Scalar.castTo, Scalar.val?, Scalar.num?]

theorem gather_values (E : Env σ K) {ss : List (Samples K)} {z : Samples K} (h : gather E ss = .ok z) :
    ∃ vs, ss = vs.map .scalar ∧ z = Samples.simplify (.arr (npArray E.fmt vs)) := by
  obtain ⟨vs, h1, h2⟩ := Except.bind_ok_iff.1 h
  cases h2
  refine ⟨vs, ?_, rfl⟩
  have h3 := mapExcept_ok.1 h1
  clear h1 h
  induction h3 with
  | nil => rfl
  | @cons a b as bs hab _ ih =>
    rw [List.map_cons]
    cases a with
    | scalar v => cases hab; rw [← ih]
    | arr vs => cases hab

theorem gather_of_values (E : Env σ K) (vs : List (Scalar K)) :
    gather E (vs.map .scalar) = .ok (Samples.simplify (.arr (npArray E.fmt vs))) := by
  have h : mapExcept (fun s : Samples K => match s with
      | .scalar v => Except.ok v
      | .arr _ => .error .unmodelled) (vs.map .scalar) = .ok vs := by
    induction vs with
    | nil => rfl
    | cons x xs ih => simp only [List.map_cons, mapExcept, ih]; rfl
  exact congrArg (· >>= fun vs => Except.ok (Samples.simplify (.arr (npArray E.fmt vs)))) h

theorem mixtureSmall_first {ι : Type} (E : Env σ K) {comp : ι → ℕ → SM σ K (Samples K)} {ws : List K}
    {vals : List ι} {n k : ℕ} (hn : 1 ≤ n) (hk : 1 ≤ k) {s s2 : St σ K} {z : Samples K}
    (h : mixtureSmall E comp ws vals (n + k) s = (.ok z, s2)) (hz : ∀ v ∈ z.toList, (v.val?).isSome) :
    ∃ x s1, mixtureSmall E comp ws vals n s = (.ok x, s1) ∧
      x.toList.map Scalar.val? = (z.toList.take n).map Scalar.val? := by
  unfold mixtureSmall at h ⊢
  obtain ⟨ss, s3, h1, h2⟩ := SM.bind_ok.1 h
  obtain ⟨hl, s1, h3⟩ := replicateL_first h1
  have h4 : gather E ss = .ok z := by
    match ss, hl, h2 with
    | [], hl, _ => simp at hl; omega
    | [_], hl, _ => simp at hl; omega
    | a :: b :: ss, _, h2 => exact (SM.lift_ok.1 h2).1
  obtain ⟨vs, rfl, rfl⟩ := gather_values E h4
  rw [toList_simplify] at hz
  have hnum : ∀ v ∈ vs, (v.val?).isSome := fun v hv =>
    castTo_number (hz _ (List.mem_map.2 ⟨v, hv, rfl⟩))
  have hvals : (Samples.simplify (.arr (npArray E.fmt vs))).toList.map Scalar.val? = vs.map Scalar.val? := by
    rw [toList_simplify, npArray_vals E.fmt vs hnum]
  have hpart : (Samples.simplify (.arr (npArray E.fmt (vs.take n)))).toList.map Scalar.val?
      = (vs.take n).map Scalar.val? := by
    rw [toList_simplify, npArray_vals E.fmt _ fun v hv => hnum v (List.mem_of_mem_take hv)]
  have hfin : (vs.take n).map Scalar.val? = ((Samples.simplify (.arr (npArray E.fmt vs))).toList.take n).map Scalar.val? := by
    rw [List.map_take, List.map_take, hvals]
  rw [List.length_map] at hl
  by_cases h1n : n = 1
  · subst h1n
    obtain ⟨v, vs', rfl⟩ := List.exists_cons_of_length_pos (show 0 < vs.length by omega)
    exact ⟨.scalar v, s1, SM.bind_ok.2 ⟨[.scalar v], s1, h3, rfl⟩, hfin⟩
  · refine ⟨_, s1, SM.bind_ok.2 ⟨_, s1, h3, ?_⟩, hpart.trans hfin⟩
    rw [← List.map_take]
    have hlen : (vs.take n).length = n := by rw [List.length_take]; omega
    match hvs : vs.take n, hlen with
    | [], hlen => simp at hlen; omega
    | [_], hlen => simp at hlen; omega
    | a :: b :: l, _ =>
      refine SM.lift_ok.2 ⟨?_, rfl⟩
      exact gather_of_values E (a :: b :: l)

/-- **C132** (part): up to 100 samples in all, a mixture of any models gives the same numbers again and then
more.  Beyond 100 samples it does not (`C132_mixture_fails`). -/
theorem C132_small_mixture_partial [IsStrictOrderedRing K] {E : Env σ K} {m : ℕ} {ds : Fin m → Obj (St σ K) K}
    {ws : List K} (hm : 2 ≤ m) (hlen : ws.length = m) (hpos : ∀ w ∈ ws, 0 < w) (hsum : ws.sum = 1) {n k : ℕ}
    (hn : 1 ≤ n) (hk : 1 ≤ k) (h100 : n + k ≤ 100) {s s2 : St σ K} {z : Samples K}
    (h : sampleObj E (.mix m ds ws none none) (n + k) none none s = (.ok z, s2))
    (hz : ∀ v ∈ z.toList, (v.val?).isSome) :
    ∃ x s1, sampleObj E (.mix m ds ws none none) n none none s = (.ok x, s1) ∧
      x.toList.map Scalar.val? = (z.toList.take n).map Scalar.val? := by
  have hproc : (processWeightsValues (fun _ => false) (.list (ws.map some)) .absent
      (.list ((List.finRange m).map .plain)) false).result = .ok (ws, (List.finRange m).map .plain) :=
    C07_reprocessing_is_identity ws (List.finRange m) (by simpa using hlen)
      (by intro h0; have := congrArg List.length h0; simp at this; omega) hpos
      (by rw [hsum]; norm_num) (by rw [hsum]; norm_num)
  have hitems : ((List.finRange m).map VItem.plain).filterMap (VItem.plain? (K := K)) = List.finRange m := by
    rw [List.filterMap_map]
    exact List.filterMap_some
  have hrun : ∀ (j : ℕ), j ≤ 100 → ∀ s, rawObj E (.mix m ds ws none none) j s
      = mixtureSmall E (fun i m => withClips E (ds i).clips (rawObj E (ds i)) m none none) ws (List.finRange m) j s := by
    intro j hj s
    rw [rawObj]
    unfold mixtureRun
    rw [hproc]
    simp only [hitems]
    have hl : (List.finRange m).length = m := by simp
    match List.finRange m, hl with
    | [], hl => simp at hl; omega
    | [_], hl => simp at hl; omega
    | a :: b :: l, _ => simp only [if_neg (show ¬ j > 100 by omega)]
  unfold sampleObj at h ⊢
  obtain ⟨-, lo, hi, y, h1, h2, h3, h4⟩ := withClips_ok.1 h
  cases h1
  cases h2
  cases h4
  rw [hrun _ h100] at h3
  obtain ⟨x, s1, h5, h6⟩ := mixtureSmall_first E hn hk h3 hz
  exact ⟨x, s1, withClips_ok.2 ⟨by omega, none, none, x, rfl, rfl, by rw [hrun _ (by omega)]; exact h5, rfl⟩, h6⟩

/-! ## bayesnet -/

theorem repeatEvent_first {S α : Type} {f : S → Except PyErr α × S} : ∀ {n k : ℕ} {s s2 : S} {l : List α},
    repeatEvent f (n + k) s = (.ok l, s2) → l.length = n + k ∧ ∃ s1, repeatEvent f n s = (.ok (l.take n), s1) := by
  have hlen : ∀ {n : ℕ} {s s2 : S} {l : List α}, repeatEvent f n s = (.ok l, s2) → l.length = n := by
    intro n
    induction n with
    | zero => intro s s2 l h; cases h; rfl
    | succ n ih =>
      intro s s2 l h
      rw [repeatEvent] at h
      rcases hf : f s with ⟨_ | a, s'⟩
      · rw [hf] at h; cases h
      · rw [hf] at h
        rcases hr : repeatEvent f n s' with ⟨_ | as, s''⟩
        · simp only [hr] at h; cases h
        · simp only [hr] at h
          cases h
          rw [List.length_cons, ih hr]
  intro n k
  induction n with
  | zero => intro s s2 l h; exact ⟨hlen h, s, rfl⟩
  | succ n ih =>
    intro s s2 l h
    refine ⟨hlen h, ?_⟩
    rw [show n + 1 + k = (n + k) + 1 by omega, repeatEvent] at h
    rw [repeatEvent]
    rcases hf : f s with ⟨_ | a, s'⟩
    · rw [hf] at h; cases h
    · rw [hf] at h
      rcases hr : repeatEvent f (n + k) s' with ⟨_ | as, s''⟩
      · simp only [hr] at h; cases h
      · simp only [hr] at h
        cases h
        obtain ⟨-, s1, h1⟩ := ih hr
        exact ⟨s1, by simp only [h1]; rfl⟩

/-- **C132** (part): the events of `bayesnet` with the same seed (one core, no caches): more events begin with
the fewer ones.  The events a call uses are what it returns with `reduce_fn=lambda events: events`. -/
theorem C132_bayesnet {S α : Type} (E : BEnv S α) (o : BOpts) (hr : o.reload = true) (hc : o.cores = 1)
    (hd : truthyName o.dump = none) (f : ℕ) {n k : ℕ} (hn : 1 ≤ n) {s s2 : BSt S α} {l : List α}
    (h : bayesnet (K := K) E o (some f) ((n + k : ℕ) : ℤ) (.reduceEvents .ok : Query α (List α) K) none s
      = (.ok (.reduced l), s2)) :
    ∃ s1, bayesnet (K := K) E o (some f) (n : ℤ) (.reduceEvents .ok : Query α (List α) K) none s
      = (.ok (.reduced (l.take n)), s1) := by
  have hbay : ∀ j : ℕ, 1 ≤ j → ∀ r : Except PyErr (List α), (repeatEvent (E.event f) j s.inner).1 = r →
      (∀ l, r = .ok l → l ≠ []) →
      (bayesnet (K := K) E o (some f) (j : ℤ) (.reduceEvents .ok : Query α (List α) K) none s).1
        = r >>= fun l => .ok (.reduced l) := by
    intro j hj r hrj hne
    simp only [bayesnet, cachedEvents, hr, if_true, generateEvents, hc, Int.toNat_natCast]
    rcases hrr : repeatEvent (E.event f) j s.inner with ⟨e | l', s'⟩
    · rw [hrr] at hrj
      cases hrj
      rfl
    · rw [hrr] at hrj
      cases hrj
      have hl' := hne l' rfl
      have : ¬ l'.length < 1 := by
        cases l' with
        | nil => exact absurd rfl hl'
        | cons _ _ => simp
      by_cases hs : o.saves = true <;>
        simp [finishBayes, saveEvents, hd, answerEvents, BSt.alloc, hs, hr, hl'] <;> rfl
  have hne : ∀ j : ℕ, 1 ≤ j → ∀ l, (repeatEvent (E.event f) j s.inner).1 = .ok l → l ≠ [] := by
    intro j hj l hl h0
    have := (repeatEvent_first (k := 0) (n := j) (s2 := (repeatEvent (E.event f) j s.inner).2)
      (Prod.ext hl rfl)).1
    rw [h0] at this
    simp at this
    omega
  have h1 := hbay (n + k) (by omega) _ rfl (hne (n + k) (by omega))
  rw [h] at h1
  obtain ⟨l', h2, h3⟩ := Except.bind_ok_iff.1 h1.symm
  cases h3
  obtain ⟨-, s1, h4⟩ := repeatEvent_first (s2 := (repeatEvent (E.event f) (n + k) s.inner).2) (Prod.ext h2 rfl)
  have h5 := hbay n hn _ rfl (hne n hn)
  rw [h4] at h5
  exact ⟨_, Prod.ext h5 rfl⟩

/-! ## Models with several sources -/

/-- The demonstration generator makes its numbers one after the other. -/
theorem demoGen_sequential : Sequential demoGen := by
  intro p n k s s' zs h
  simp only [demoGen, Prod.mk.injEq] at h
  obtain ⟨h1, rfl⟩ := h
  have hr : List.range' s (n + k) = List.range' s n ++ List.range' (s + n) k := by
    rw [List.range'_append_1]
  unfold demoValues at h1
  rw [hr] at h1
  have h2 := mapExcept_ok.1 h1
  have h3 := List.forall₂_take n h2
  have h4 := List.forall₂_drop n h2
  rw [List.take_left' (by simp)] at h3
  rw [List.drop_left' (by simp)] at h4
  exact ⟨_, _, s + n, Prod.ext (mapExcept_ok.2 h3) rfl, Prod.ext (mapExcept_ok.2 h4) (by simp [demoGen]; omega),
    (List.take_append_drop n zs).symm⟩

/-- Two different distributions, added. -/
def twoSources : Obj (St ℕ ℚ) ℚ := .bin (.op .add) (.leaf (.uniform 0 1) none none) (.leaf (.uniform 0 1) none none)

/-- **C132** fails for sums of two distributions: three samples with the same seed do not begin with the two. -/
theorem C132_sum_fails : ∃ (E : Env ℕ ℚ) (s : St ℕ ℚ) (x z : Samples ℚ), E.gen.Lawful ∧ Sequential E.gen ∧
    (sampleObj E twoSources 2 none none s).1 = .ok x ∧ (sampleObj E twoSources 3 none none s).1 = .ok z ∧
    x.toList ≠ z.toList.take 2 := by
  refine ⟨demoEnv, demoSt 0, .arr [.flt (3 / 5), .flt (6 / 5)], .arr [.flt (9 / 10), .flt (1 / 2), .flt (11 / 10)],
    demoGen_lawful, demoGen_sequential, ?_, ?_, ?_⟩ <;> decide +kernel

/-- A mixture of a distribution and a number. -/
def halfHalf : Obj (St ℕ ℚ) ℚ :=
  .mix 2 (fun i => if i = 0 then .leaf (.uniform 0 1) none none else .lit (.int 5)) [1 / 2, 1 / 2] none none

/-- **C132** fails for mixtures beyond 100 samples: 101 samples with the same seed do not begin with the 100. -/
theorem C132_mixture_fails : ∃ (E : Env ℕ ℚ) (s : St ℕ ℚ) (x z : Samples ℚ), E.gen.Lawful ∧ Sequential E.gen ∧
    (sampleObj E halfHalf 100 none none s).1 = .ok x ∧ (sampleObj E halfHalf 101 none none s).1 = .ok z ∧
    (x.toList.map Scalar.val?) ≠ (z.toList.take 100).map Scalar.val? := by
  have h : (match (sampleObj demoEnv halfHalf 100 none none (demoSt 0)).1,
      (sampleObj demoEnv halfHalf 101 none none (demoSt 0)).1 with
    | .ok x, .ok z => decide ((x.toList.map Scalar.val?) ≠ (z.toList.take 100).map Scalar.val?)
    | _, _ => false) = true := by decide +kernel
  cases hx : (sampleObj demoEnv halfHalf 100 none none (demoSt 0)).1 with
  | error e => rw [hx] at h; cases h
  | ok x =>
    cases hz : (sampleObj demoEnv halfHalf 101 none none (demoSt 0)).1 with
    | error e => rw [hx, hz] at h; cases h
    | ok z =>
      rw [hx, hz] at h
      exact ⟨demoEnv, demoSt 0, x, z, demoGen_lawful, demoGen_sequential, hx, hz, of_decide_eq_true h⟩

/-! ## Examples -/

/-- `dist_max(2 * uniform(0, 1) + 1, 3/2)`, sampled with a lower bound: `C132_extends_partial` applies. -/
example : ∃ x z : Samples ℚ,
    (sampleObj demoEnv (.bin (.op .max) (.bin (.op .add) (.bin (.op .mul) (.lit (.int 2)) (.leaf (.uniform 0 1) none none))
      (.lit (.int 1))) (.lit (.flt (3 / 2)))) 2 (some (.flt (8 / 5))) none (demoSt 0)).1 = .ok x ∧
    (sampleObj demoEnv (.bin (.op .max) (.bin (.op .add) (.bin (.op .mul) (.lit (.int 2)) (.leaf (.uniform 0 1) none none))
      (.lit (.int 1))) (.lit (.flt (3 / 2)))) 4 (some (.flt (8 / 5))) none (demoSt 0)).1 = .ok z ∧
    x = .arr [.flt (8 / 5), .flt (8 / 5)] ∧ z = .arr [.flt (8 / 5), .flt (8 / 5), .flt (11 / 5), .flt (14 / 5)] := by
  refine ⟨_, _, ?_, ?_, rfl, rfl⟩ <;> decide +kernel

example : OneSource (σ := ℕ) (K := ℚ) (.bin (.op .max) (.bin (.op .add) (.bin (.op .mul) (.lit (.int 2))
    (.leaf (.uniform 0 1) none none)) (.lit (.int 1))) (.lit (.flt (3 / 2)))) :=
  .withNumber _ (.withNumber _ (.ofNumber _ _ (OneSource.basic (l := .uniform 0 1) none none trivial)) _) _

/-- A Python function that adds two samples is a model with one source, the sum of the distributions is not:
`def model(): return sample(uniform(0, 1)) + sample(uniform(0, 1))`. -/
example : OneSource (σ := ℕ) (K := ℚ) (.call (fun _ => none)
    (fun s => .lit (.flt (demoFrac s.rng + demoFrac (s.rng + 1)))) (fun s => { s with rng := s.rng + 2 })) :=
  .function _ fun _ => ⟨_, rfl⟩

example : ¬ OneSource twoSources := by
  intro h
  cases h

/-- `C132_small_mixture_partial` on two and four samples. -/
example : (sampleObj demoEnv halfHalf 4 none none (demoSt 0)).1
      = .ok (.arr [.flt (3 / 10), .flt 5, .flt 5, .flt (1 / 2)]) ∧
    (sampleObj demoEnv halfHalf 2 none none (demoSt 0)).1 = .ok (.arr [.flt (3 / 10), .flt 5]) := by
  constructor <;> decide +kernel

/-- The hypotheses of `C132_bayesnet`. -/
example : (bayesnet (K := ℚ) demoB { reload := true } (some 1) 3 (.reduceEvents .ok : Query ℕ (List ℕ) ℚ) none
    ⟨5, fun _ => [], 0, fun _ => none, fun _ => none, fun _ => none⟩).1 = .ok (.reduced [15, 16, 17]) := rfl

end Verif
