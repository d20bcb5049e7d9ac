import Verif.Lemmas.DemoGen

/-! # C11: `sample(d, n)` returns `n` samples -/

namespace Verif

variable {σ K : Type} [Field K] [LinearOrder K] [FloorRing K]

/-- Expressions whose leaves honour `n`: no `t` distribution without a proper interval, no
correlated variable (see C33), and user functions that keep the number of samples. -/
def Obj.Regular {S : Type} : Obj S K → Prop
  | .lit _ => True
  | .call _ ret _ => ∀ s, (ret s).Regular
  | .leaf l _ _ => l.Regular
  | .mix _ ds _ _ _ => ∀ i, (ds i).Regular
  | .un _ left => left.Regular
  | .bin _ left right => left.Regular ∧ right.Regular
  | .userUn _ val d left => left.Regular ∧ (∀ x, (d x).Regular) ∧
      ∀ n x y, Shape n x → val x = .ok y → Shape n y
  | .userBin _ val d left right => left.Regular ∧ right.Regular ∧ (∀ x y, (d x y).Regular) ∧
      ∀ n x y z, Shape n x → Shape n y → val x y = .ok z → Shape n z
  | .corr _ _ _ _ => False

theorem rawObj_shape {E : Env σ K} (hE : E.gen.Lawful) (d : Obj (St σ K) K) :
    d.Regular → ∀ (n : ℕ) (s : St σ K) (z : Samples K) (s' : St σ K),
      rawObj E d n s = (.ok z, s') → Shape n z := by
  induction d with
  | lit v =>
    intro _ n s z s' h
    obtain ⟨rfl, -⟩ := SM.pure_ok.1 h
    exact constSamples_shape v n
  | call exn ret next ih =>
    intro hd n s z s' h
    simp only [rawObj, SM.bind_ok, SM.lift_ok] at h
    obtain ⟨states, s1, h1, ss, s2, h2, h3, rfl⟩ := h
    have hl1 := (SM.replicateL_ok.1 h1).length
    have hl2 := (SM.mapL_ok.1 h2).length
    rw [List.length_replicate] at hl1
    rw [← hl1, ← hl2]
    exact gather_shape h3
  | leaf l lc rc =>
    intro hd n s z s' h
    exact leafSample_shape hE hd h
  | mix k ds ws lc rc ih =>
    intro hd n s z s' h
    simp only [rawObj] at h
    refine mixtureRun_shape hE ?_ h
    intro i n s x s' hx
    exact withClips_shape (ih i (hd i) n) hx
  | un f left ih =>
    intro hd n s z s' h
    simp only [rawObj, SM.bind_ok, SM.lift_ok] at h
    obtain ⟨x, s1, h1, h2, rfl⟩ := h
    exact unSamples_shape (withClips_shape (ih hd n) h1) h2
  | bin f left right ihl ihr =>
    intro hd n s z s' h
    simp only [rawObj, SM.bind_ok, SM.lift_ok] at h
    obtain ⟨x, s1, h1, y, s2, h2, h3, rfl⟩ := h
    exact binFnSamples_shape (withClips_shape (ihl hd.1 n) h1) (withClips_shape (ihr hd.2 n) h2) h3
  | userUn isDist val d left ihd ihl =>
    intro hd n s z s' h
    simp only [rawObj, SM.bind_ok] at h
    obtain ⟨x, s1, h1, h2⟩ := h
    split_ifs at h2
    · exact withClips_shape (ihd x (hd.2.1 x) n) h2
    · exact hd.2.2 n x z (withClips_shape (ihl hd.1 n) h1) (SM.lift_ok.1 h2).1
  | userBin isDist val d left right ihd ihl ihr =>
    intro hd n s z s' h
    simp only [rawObj, SM.bind_ok] at h
    obtain ⟨x, s1, h1, y, s2, h2, h3⟩ := h
    split_ifs at h3
    · exact withClips_shape (ihd x y (hd.2.2.1 x y) n) h3
    · exact hd.2.2.2 n x y z (withClips_shape (ihl hd.1 n) h1) (withClips_shape (ihr hd.2.1 n) h2)
        (SM.lift_ok.1 h3).1
  | corr g m members i ih => intro hd; exact hd.elim

/-- **C11.** For every generator that honours the requested size, every regular expression tree,
every `n` and all bounds: if sampling succeeds, then `n ≥ 1` and the result is one scalar for `n = 1`
and an array of `n` values otherwise. -/
theorem C11_count_partial (E : Env σ K) (hE : E.gen.Lawful) (d : Obj (St σ K) K) (hd : d.Regular)
    (n : ℕ) (lc rc : Option (Scalar K)) (s s' : St σ K) (z : Samples K)
    (h : sampleObj E d n lc rc s = (.ok z, s')) : 1 ≤ n ∧ Shape n z :=
  ⟨Nat.one_le_iff_ne_zero.2 (withClips_ok.1 h).1, withClips_shape (rawObj_shape hE d hd n) h⟩

/-- **C11.** `n = 0` is refused, before anything is drawn. -/
theorem C11_zero_refused (E : Env σ K) (d : Obj (St σ K) K) (lc rc : Option (Scalar K))
    (s : St σ K) : sampleObj E d 0 lc rc s = (.error .valueError, s) := rfl

/-- **C11 fails** for a `t` distribution with equal bounds: whatever `n ≥ 1`, one number comes
back. -/
theorem C11_tdist_equal_bounds_fails (E : Env σ K) (x t cred : K) (n : ℕ) (hn : 1 ≤ n) (s : St σ K) :
    sampleObj E (.leaf (.tdist (some x) (some x) t cred) none none) n none none s
      = (.ok (.scalar (.flt x)), s) := by
  unfold sampleObj withClips
  rw [if_neg (by omega)]
  simp [Obj.clips, combineL, combineR, SM.bind, SM.lift, rawObj, leafSample, applyClips, applyL,
    applyR, SM.pure, bind, Except.bind]

/-- **C11 fails** for `log_tdist()` without an interval: a successful call returns one number,
whatever `n`. -/
theorem C11_logtdist_no_interval_fails (E : Env σ K) (hE : E.gen.Lawful) (t cred : K) (n : ℕ)
    (s s' : St σ K) (z : Samples K)
    (h : sampleObj E (.leaf (.logtdist none none t cred) none none) n none none s = (.ok z, s')) :
    ∃ v, z = .scalar v := by
  obtain ⟨-, l, r, x, h1, h2, h3, h4⟩ := withClips_ok.1 h
  cases h1
  cases h2
  simp only [rawObj, leafSample, SM.bind_ok, SM.lift_ok, Except.bind_ok_iff] at h3
  obtain ⟨xs, s1, h5, ⟨y, h6, h7⟩, rfl⟩ := h3
  obtain ⟨ys, rfl, hl⟩ := mapFlt_arr h6
  rw [(drawSM_lawful hE h5).1] at hl
  simp only [applyClips, applyL, applyR, Obj.clips] at h4
  cases h7
  cases h4
  match ys, hl with
  | [v], _ => exact ⟨v, rfl⟩

/-- **C11 fails** for `tdist()` without an interval: for `n = 1` the result is not a number but an
array holding one. -/
theorem C11_tdist_no_interval_fails (E : Env σ K) (t cred : K) (n : ℕ) (s s' : St σ K)
    (z : Samples K)
    (h : sampleObj E (.leaf (.tdist none none t cred) none none) n none none s = (.ok z, s')) :
    ∃ vs, z = .arr vs := by
  obtain ⟨-, l, r, x, h1, h2, h3, h4⟩ := withClips_ok.1 h
  cases h1
  cases h2
  simp only [rawObj, leafSample, SM.bind_ok] at h3
  obtain ⟨xs, s1, h5, h6⟩ := h3
  obtain ⟨rfl, rfl⟩ := SM.pure_ok.1 h6
  cases h4
  exact ⟨xs, rfl⟩

/-- **C69** (samplers): one sample of a regular expression is a number, not an array. -/
theorem C69_one_sample_partial (E : Env σ K) (hE : E.gen.Lawful) (d : Obj (St σ K) K) (hd : d.Regular)
    (lc rc : Option (Scalar K)) (s s' : St σ K) (z : Samples K)
    (h : sampleObj E d 1 lc rc s = (.ok z, s')) : ∃ v, z = .scalar v := by
  have h2 := (C11_count_partial E hE d hd 1 lc rc s s' z h).2
  cases z with
  | scalar v => exact ⟨v, rfl⟩
  | arr vs => exact absurd rfl h2.1

/-- **C69 fails** for `tdist()` without an interval: its one sample comes as an array. -/
theorem C69_tdist_fails (E : Env σ K) (t cred : K) (s s' : St σ K) (z : Samples K)
    (h : sampleObj E (.leaf (.tdist none none t cred) none none) 1 none none s = (.ok z, s')) :
    ¬ ∃ v, z = .scalar v := by
  obtain ⟨vs, rfl⟩ := C11_tdist_no_interval_fails E t cred 1 s s' z h
  rintro ⟨v, ⟨⟩⟩

/-! ### The hypotheses are met -/

/-- `mixture([norm(0,1), die(6)], [0.5, 0.5]) + 2`, clipped. -/
def demoTree : Obj (St ℕ ℚ) ℚ :=
  .bin (.op .add)
    (.mix 2 (fun i => if i = 0 then .leaf (.normal 0 1) none none
      else .leaf (.die ⟨6, none⟩) none none) [1 / 2, 1 / 2] (some (.int 0)) none)
    (.lit (.int 2))

example : demoTree.Regular := by
  refine ⟨?_, trivial⟩
  intro i
  by_cases hi : i = 0
  · simp only [hi, if_true]; trivial
  · simp only [hi, if_false]; trivial

example : (sampleObj demoEnv demoTree 3 none (some (.int 4)) (demoSt 0)).1
    = .ok (.arr [.flt (23 / 10), .flt 4, .flt (5 / 2)]) := by decide +kernel

end Verif
