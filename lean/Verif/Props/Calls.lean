import Verif.Lemmas.DemoGen

/-! # C17: sampling a Python function -/

namespace Verif

variable {σ K : Type} [Field K] [LinearOrder K] [FloorRing K]

theorem callOnce_ok {exn : St σ K → Option PyErr} {next : St σ K → St σ K} {s s' t : St σ K} :
    callOnce exn next s = (.ok t, s') ↔ exn s = none ∧ t = s ∧ s' = next s := by
  unfold callOnce
  cases exn s <;> simp [eq_comm]

theorem callOnce_runs {exn : St σ K → Option PyErr} {next : St σ K → St σ K} :
    ∀ (n : ℕ) (s s' : St σ K) (ts : List (St σ K)),
    SM.replicateL (callOnce exn next) n s = (.ok ts, s') ↔
      (∀ k < n, exn (next^[k] s) = none) ∧ ts = (List.range n).map (fun k => next^[k] s) ∧
        s' = next^[n] s := by
  intro n
  induction n with
  | zero =>
    intro s s' ts
    simp only [SM.replicateL, SM.pure_ok]
    constructor
    · rintro ⟨rfl, rfl⟩; simp
    · rintro ⟨-, rfl, rfl⟩; simp
  | succ n ih =>
    intro s s' ts
    simp only [SM.replicateL, SM.bind_ok, SM.pure_ok, callOnce_ok, ih]
    constructor
    · rintro ⟨t, s1, ⟨h1, rfl, rfl⟩, ts', s2, ⟨h2, rfl, rfl⟩, rfl, rfl⟩
      refine ⟨?_, ?_, rfl⟩
      · intro k hk
        cases k with
        | zero => exact h1
        | succ k => exact h2 k (by omega)
      · rw [List.range_succ_eq_map, List.map_cons, List.map_map]
        rfl
    · rintro ⟨h1, rfl, rfl⟩
      refine ⟨s, next s, ⟨h1 0 (by omega), rfl, rfl⟩, (List.range n).map (fun k => next^[k] (next s)),
        next^[n] (next s), ⟨fun k hk => h1 (k + 1) (by omega), rfl, rfl⟩, ?_, rfl⟩
      rw [List.range_succ_eq_map, List.map_cons, List.map_map]
      rfl

theorem sample_lit (E : Env σ K) (v : Scalar K) (s : St σ K) :
    sampleObj E (.lit v) 1 none none s = (.ok (.scalar v), s) := rfl

theorem SM.Runs.congr {α β γ : Type} {f : α → SM σ K β} {g : γ → SM σ K β} {p : α → γ} :
    ∀ {as : List α} {bs : List β} {s s' : St σ K}, (∀ a ∈ as, f a = g (p a)) →
    (SM.Runs f s as bs s' ↔ SM.Runs g s (as.map p) bs s')
  | [], bs, s, s', _ => by
    constructor
    · rintro ⟨⟩; exact .nil _
    · rintro ⟨⟩; exact .nil _
  | a :: as, bs, s, s', h => by
    constructor
    · rintro (_ | ⟨h1, h2⟩)
      rw [h a (by simp)] at h1
      exact .cons h1 ((SM.Runs.congr fun a ha => h a (by simp [ha])).1 h2)
    · intro hh
      rw [List.map_cons] at hh
      cases hh with
      | cons h1 h2 =>
        rw [← h a (by simp)] at h1
        exact .cons h1 ((SM.Runs.congr fun a ha => h a (by simp [ha])).2 h2)

theorem gather_ok {E : Env σ K} {ss : List (Samples K)} {z : Samples K} :
    gather E ss = .ok z ↔ ∃ vs : List (Scalar K), ss = vs.map .scalar ∧
      z = Samples.simplify (.arr (npArray E.fmt vs)) := by
  simp only [gather, Except.bind_ok_iff, mapExcept_ok]
  constructor
  · rintro ⟨vs, h, h2⟩
    cases h2
    refine ⟨vs, ?_, rfl⟩
    induction h with
    | nil => rfl
    | cons h1 _ ih =>
      rename_i a b l1 l2 _
      cases a with
      | scalar v => cases h1; rw [ih]; rfl
      | arr _ => cases h1
  · rintro ⟨vs, rfl, rfl⟩
    refine ⟨vs, ?_, rfl⟩
    rw [List.forall₂_map_left_iff]
    exact List.forall₂_same.2 fun _ _ => rfl

/-- **C17.** `sample(f, n)` of a Python function succeeds with samples `z` exactly when: `n ≥ 1`; the
function, called `n` times in a row (`next^[k] s` is the state after `k` calls), raises nothing; each
of the `n` returned objects is then sampled exactly once, one sample each, in order, starting in the
state the last call left behind; and the results are single values which `np.array` collects. -/
theorem C17_calls (E : Env σ K) (exn : St σ K → Option PyErr) (ret : St σ K → Obj (St σ K) K)
    (next : St σ K → St σ K) (n : ℕ) (s s' : St σ K) (z : Samples K) :
    sampleObj E (.call exn ret next) n none none s = (.ok z, s') ↔
      1 ≤ n ∧ (∀ k < n, exn (next^[k] s) = none) ∧
      ∃ vs : List (Scalar K),
        SM.Runs (fun d => sampleObj E d 1 none none) (next^[n] s)
          ((List.range n).map fun k => ret (next^[k] s)) (vs.map .scalar) s' ∧
        z = Samples.simplify (.arr (npArray E.fmt vs)) := by
  unfold sampleObj
  rw [withClips_ok]
  simp only [Obj.clips, combineL, combineR, rawObj, SM.bind_ok, SM.lift_ok, callOnce_runs, SM.mapL_ok,
    gather_ok]
  have hrun : ∀ (ss : List (Samples K)) (t t' : St σ K) (sts : List (St σ K)),
      SM.Runs (fun s => if (ret s).isLit = true then SM.pure (.scalar (ret s).litVal)
        else withClips E (ret s).clips (rawObj E (ret s)) 1 none none) t sts ss t' ↔
      SM.Runs (fun d => withClips E d.clips (rawObj E d) 1 none none) t (sts.map ret) ss t' := by
    intro ss t t' sts
    apply SM.Runs.congr
    intro a _
    split_ifs with hl
    · cases hr : ret a with
      | lit v => rfl
      | _ => rw [hr] at hl; cases hl
    · rfl
  simp only [hrun]
  constructor
  · rintro ⟨hn, l, r, x, h1, h2, ⟨sts, s1, ⟨h3, rfl, rfl⟩, ss, s2, h4, ⟨vs, rfl, rfl⟩, rfl⟩, h5⟩
    cases h1
    cases h2
    cases h5
    refine ⟨by omega, h3, vs, ?_, rfl⟩
    rw [List.map_map] at h4
    exact h4
  · rintro ⟨hn, h3, vs, h4, rfl⟩
    refine ⟨by omega, none, none, _, rfl, rfl, ⟨_, _, ⟨h3, rfl, rfl⟩, vs.map .scalar, s', ?_,
      ⟨vs, rfl, rfl⟩, rfl⟩, rfl⟩
    rw [List.map_map]
    exact h4

/-- **C17.** If the function raises at its `k`-th call, that exception comes out of `sample`, and no
further call is made: the state is the one after that call. -/
theorem C17_exception (E : Env σ K) (exn : St σ K → Option PyErr) (ret : St σ K → Obj (St σ K) K)
    (next : St σ K → St σ K) (n k : ℕ) (s : St σ K) (e : PyErr) (hk : k < n)
    (hbefore : ∀ j < k, exn (next^[j] s) = none) (hat : exn (next^[k] s) = some e) :
    sampleObj E (.call exn ret next) n none none s = (.error e, next^[k + 1] s) := by
  have hrep : ∀ (n k : ℕ) (s : St σ K), k < n → (∀ j < k, exn (next^[j] s) = none) →
      exn (next^[k] s) = some e →
      SM.replicateL (callOnce exn next) n s = (.error e, next^[k + 1] s) := by
    intro n
    induction n with
    | zero => intro k s h; omega
    | succ n ih =>
      intro k s hk hb ha
      cases k with
      | zero =>
        simp only [Function.iterate_zero, id_eq] at ha
        simp [SM.replicateL, SM.bind, callOnce, ha]
      | succ k =>
        have h0 := hb 0 (by omega)
        simp only [Function.iterate_zero, id_eq] at h0
        have := ih k (next s) (by omega) (fun j hj => hb (j + 1) (by omega)) ha
        simp only [SM.replicateL, SM.bind, callOnce, h0, this]
        rfl
  unfold sampleObj withClips
  rw [if_neg (by omega)]
  simp only [Obj.clips, combineL, combineR, rawObj, SM.bind, SM.lift, hrep n k s hk hbefore hat]

/-- **C17.** A function that returns plain values of one type: the result is the list of return
values, unchanged and in order. -/
theorem C17_plain (E : Env σ K) (val : St σ K → Scalar K) (next : St σ K → St σ K) (n : ℕ)
    (hn : 1 ≤ n) (s : St σ K) (d : DT)
    (hty : ∀ k < n, (val (next^[k] s)).dt = d) :
    sampleObj E (.call (fun _ => none) (fun s => .lit (val s)) next) n none none s =
      (.ok (Samples.simplify (.arr ((List.range n).map fun k => val (next^[k] s)))), next^[n] s) := by
  have hz : Samples.simplify (.arr ((List.range n).map fun k => val (next^[k] s))) =
      Samples.simplify (.arr (npArray E.fmt ((List.range n).map fun k => val (next^[k] s)))) := by
    have hdt : commonDT ((List.range n).map fun k => val (next^[k] s)) = d := by
      have hgen : ∀ (vs : List (Scalar K)) (a : DT), (∀ v ∈ vs, v.dt = d) → (a = d ∨ a = .bool) →
          vs ≠ [] → vs.foldl (fun d v => d.join v.dt) a = d := by
        intro vs
        induction vs with
        | nil => intro a _ _ h; exact absurd rfl h
        | cons v vs ih =>
          intro a hv ha _
          have h1 : a.join v.dt = d := by
            rw [hv v (by simp)]
            rcases ha with rfl | rfl
            · cases a <;> rfl
            · cases d <;> rfl
          rw [List.foldl_cons, h1]
          by_cases hvs : vs = []
          · subst hvs; rfl
          · exact ih d (fun w hw => hv w (by simp [hw])) (Or.inl rfl) hvs
      refine hgen _ _ ?_ (Or.inr rfl) ?_
      · intro v hv
        obtain ⟨k, hk, rfl⟩ := List.mem_map.1 hv
        exact hty k (List.mem_range.1 hk)
      · simp; omega
    unfold npArray
    rw [hdt]
    congr 2
    symm
    rw [List.map_map]
    refine List.map_congr_left fun k hk => ?_
    have := hty k (List.mem_range.1 hk)
    subst this
    simp only [Function.comp]
    cases hv : val (next^[k] s) <;> simp [Scalar.castTo, Scalar.dt]
  refine (C17_calls E _ _ next n s _ _).2 ⟨hn, fun _ _ => rfl,
    (List.range n).map fun k => val (next^[k] s), ?_, hz⟩
  have hruns : ∀ (l : List ℕ) (t : St σ K),
      SM.Runs (fun d => sampleObj E d 1 none none) t
        (l.map fun k => Obj.lit (val (next^[k] s)))
        ((l.map fun k => val (next^[k] s)).map .scalar) t := by
    intro l t
    induction l with
    | nil => exact .nil _
    | cons a l ih => exact .cons (sample_lit E _ t) ih
  exact hruns _ _

/-- A number mixed with strings is *not* returned as it is: `np.array` turns it into its string. -/
theorem C17_number_with_string_fails (E : Env σ K) (s : St σ K) (a b : St σ K)
    (hab : a ≠ b) :
    (sampleObj E (.call (fun _ => none)
        (fun t => open Classical in if t = a then .lit (.int 1) else .lit (.str "x")) (fun _ => b))
      2 none none a).1 = .ok (.arr [.str (E.fmt (.int 1)), .str "x"]) := by
  simp [sampleObj, withClips, Obj.clips, combineL, combineR, SM.bind, SM.lift, rawObj, SM.replicateL,
    callOnce, SM.pure, SM.mapL, hab.symm, Obj.isLit, Obj.litVal, gather, mapExcept, bind, Except.bind,
    npArray, commonDT, DT.join, Scalar.dt, Scalar.castTo, Samples.simplify, applyClips, applyL, applyR]

/-- A function whose `k`-th call returns a die or a number, depending on the generator's state. -/
def demoFn : Obj (St ℕ ℚ) ℚ :=
  .call (fun s => if s.rng ≥ 50 then some .valueError else none)
    (fun s => if s.rng = 1 then .lit (.flt (1 / 2)) else .leaf (.die ⟨6, none⟩) none none)
    (fun s => { s with rng := s.rng + 1 })

/-- Three calls, then the two dice are rolled. -/
example : sampleObj demoEnv demoFn 3 none none (demoSt 0) |>.1
    |> (· = .ok (.arr [.flt 4, .flt (1 / 2), .flt 5])) := by decide +kernel

example : (sampleObj demoEnv demoFn 3 none none (demoSt 48)).1 = .error .valueError := by
  decide +kernel

end Verif
