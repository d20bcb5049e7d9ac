import Verif.Lemmas.Verbose
import Verif.Lemmas.DemoGen
import Mathlib.Data.Fin.VecNotation
import Mathlib.Tactic.NormNum

/-!
# C136: progress output

A console is the list of progress bars shown so far.  `sampleV E d n lclip rclip verbose` is `sample(d, n, lclip,
rclip, verbose=verbose)`; `none` is the default.
-/

namespace Verif

variable {σ K : Type} [Field K] [LinearOrder K] [FloorRing K]

/-- **C136**: `verbose` does not change what `sample` returns or raises, nor the state it leaves behind. -/
theorem C136_same_result (E : Env σ K) (d : Obj (St σ K) K) (n : ℕ) (lc rc : Option (Scalar K))
    (verbose : Option Bool) (s : St σ K) (o : Console) :
    (sampleV E d n lc rc verbose s o).1 = sampleObj E d n lc rc s :=
  withClipsV_erases E _ (rawV_erases E d) _ _ _ _ _ _ s o

/-- **C136**: with several cores, `verbose` does not change the batch of the parent process. -/
theorem C136_same_batch (E : Env σ K) (cores : ℕ) (d : Obj (St σ K) K) (n : ℕ) (lc rc : Option (Scalar K))
    (verbose : Option Bool) (s : St σ K) (o : Console) (cuts : List ℕ) (hc : coreCuts n cores = .ok cuts) :
    (parentBatchV E cores d n lc rc verbose s o).1 = sampleObj E d (cuts.getD (cores - 1) 0) lc rc s := by
  unfold parentBatchV
  rw [hc]
  exact withClipsV_erases E _ (rawV_erases E d) _ _ _ _ _ _ s o

/-- **C136, partial.** With `verbose=False`, or without `verbose`, fewer than a million samples show no progress
bar.  Full statement: with `verbose=False`, no call shows a bar.  Missing: a million samples and more, see
`C136_silent_fails`. -/
theorem C136_silent_partial (E : Env σ K) (d : Obj (St σ K) K) (n : ℕ) (hn : n < 1000000)
    (lc rc : Option (Scalar K)) (verbose : Option Bool) (hv : verbose ≠ some true) (s : St σ K) (o : Console) :
    (sampleV E d n lc rc verbose s o).2 = o := by
  refine withClipsV_silent E _ ?_ (fun v h => rawV_silent E d v n h hn) _ _ s o
  rcases verbose with _ | _ | _
  · simp [resolveVerbose, hn]
  · rfl
  · exact absurd rfl hv

/-- **C136**: when a call of `sample` succeeds, the bars it has shown were all closed exactly when they had
counted to their end; older bars were not touched. -/
theorem C136_bars_end {E : Env σ K} (hE : E.gen.Lawful) (d : Obj (St σ K) K) (n : ℕ)
    (lc rc : Option (Scalar K)) (verbose : Option Bool) (s s' : St σ K) (o o' : Console) (z : Samples K)
    (h : sampleV E d n lc rc verbose s o = ((.ok z, s'), o')) :
    ∃ new, o' = o ++ new ∧ ∀ b ∈ new, b.closed = true ∧ b.count = b.total := by
  obtain ⟨new, h1, h2⟩ := withClipsV_fills (P := BarEnds ⟨false, 1, 1⟩ n) E d.clips (raw := rawV E d)
    (verbose := verbose) (tn := 1) (tc := 1) (n := n) (fun hn =>
      (rawV_fills hE d ⟨resolveVerbose verbose n, 1, 1⟩ n hn (by simp [Shown.total]; omega)).mono
        fun b hb => barEnds_of_one rfl hb) lc rc s o
  change (sampleV E d n lc rc verbose s o).2 = _ at h1
  change ∀ a s', (sampleV E d n lc rc verbose s o).1 = _ → _ at h2
  rw [h] at h1 h2
  refine ⟨new, h1, fun b hb => ?_⟩
  obtain ⟨h3, h4 | h4⟩ := h2 z s' rfl b hb
  · exact ⟨h3, h4⟩
  · exact absurd rfl h4.1

theorem coreCuts_last {n cores : ℕ} {cuts : List ℕ} (hc : coreCuts n cores = .ok cuts) :
    1 ≤ cores ∧ cuts.getD (cores - 1) 0 = n / cores + n % cores := by
  unfold coreCuts at hc
  rcases cores with _ | c
  · simp at hc
  · refine ⟨by omega, ?_⟩
    have hr : (List.replicate (c + 1) (n / (c + 1))).reverse
        = n / (c + 1) :: List.replicate c (n / (c + 1)) := by
      rw [List.reverse_replicate, List.replicate_succ]
    simp only [hr] at hc
    injection hc with hc
    subst hc
    simp only [List.reverse_replicate, Nat.add_sub_cancel, List.sum_replicate_nat]
    rw [List.getD_eq_getElem?_getD, List.getElem?_append_right (by simp)]
    simp only [List.length_replicate, Nat.sub_self, List.getElem?_cons_zero, Option.getD_some]
    have := Nat.div_add_mod n (c + 1)
    omega

/-- **C136, partial.** With several cores: when the parent has sampled its batch, its bars are closed and have
counted to their end, or count to `n` but have counted `(cores - 1) * (n mod cores)` too far.  If the number of
cores divides `n`, all bars end exactly.  Full statement: all bars end exactly.  Missing: other `n`, see
`C136_bars_end_cores_fails`. -/
theorem C136_bars_end_cores_partial {E : Env σ K} (hE : E.gen.Lawful) (cores : ℕ) (d : Obj (St σ K) K) (n : ℕ)
    (hn : 1 ≤ n) (lc rc : Option (Scalar K)) (verbose : Option Bool) (s s' : St σ K) (o o' : Console)
    (z : Samples K) (h : parentBatchV E cores d n lc rc verbose s o = ((.ok z, s'), o')) :
    (∃ new, o' = o ++ new ∧ ∀ b ∈ new, b.closed = true ∧
      (b.count = b.total ∨ b.total = n ∧ b.count = n + (cores - 1) * (n % cores))) ∧
    (cores ∣ n → ∃ new, o' = o ++ new ∧ ∀ b ∈ new, b.closed = true ∧ b.count = b.total) := by
  have key : ∃ new, o' = o ++ new ∧ ∀ b ∈ new, b.closed = true ∧
      (b.count = b.total ∨ b.total = n ∧ b.count = n + (cores - 1) * (n % cores)) := by
    unfold parentBatchV at h
    rcases hc : coreCuts n cores with e | cuts
    · rw [hc] at h
      simp [CM.quiet, SM.throw] at h
    · rw [hc] at h
      simp only at h
      obtain ⟨hc1, hlast⟩ := coreCuts_last hc
      set m := cuts.getD (cores - 1) 0 with hm
      obtain ⟨new, h1, h2⟩ := withClipsV_fills
        (P := BarEnds ⟨resolveVerbose (some (resolveVerbose verbose n)) m, n, cores⟩ m) E d.clips
        (raw := rawV E d) (verbose := some (resolveVerbose verbose n)) (tn := n) (tc := cores) (n := m)
        (fun hm1 => rawV_fills hE d _ m hm1 (by simp only [Shown.total]; split <;> omega)) lc rc s o
      rw [h] at h1 h2
      refine ⟨new, h1, fun b hb => ?_⟩
      obtain ⟨h3, h4 | ⟨_, h4, h5⟩⟩ := h2 z s' rfl b hb
      · exact ⟨h3, Or.inl h4⟩
      · refine ⟨h3, Or.inr ⟨h4, ?_⟩⟩
        rw [h5]
        show m * cores = _
        rw [hlast]
        have e := Nat.div_add_mod n cores
        obtain ⟨c, rfl⟩ : ∃ c, cores = c + 1 := ⟨cores - 1, by omega⟩
        rw [Nat.add_mul, Nat.add_sub_cancel]
        have : n % (c + 1) * (c + 1) = n % (c + 1) + c * (n % (c + 1)) := by ring
        rw [this, Nat.mul_comm (n / (c + 1))]
        omega
  refine ⟨key, fun hd => ?_⟩
  obtain ⟨new, h1, h2⟩ := key
  refine ⟨new, h1, fun b hb => ?_⟩
  obtain ⟨h3, h4 | ⟨h4, h5⟩⟩ := h2 b hb
  · exact ⟨h3, h4⟩
  · rw [Nat.mod_eq_zero_of_dvd hd] at h5
    exact ⟨h3, by omega⟩

/-! ## A million samples and more -/

/-- `m` shows at least one bar. -/
def CM.Shows {α : Type} (m : CM σ K α) : Prop := ∀ s o, o.length < (m s o).2.length

/-- `m` removes no bar. -/
def CM.Grows {α : Type} (m : CM σ K α) : Prop := ∀ s o, o.length ≤ (m s o).2.length

section

omit [Field K] [LinearOrder K] [FloorRing K]

theorem CM.Fills.grows {α : Type} {P : Bar → Prop} {m : CM σ K α} (h : m.Fills P) : m.Grows := by
  intro s o
  obtain ⟨new, h1, _⟩ := h s o
  rw [h1]
  simp

theorem CM.Shows.bind {α β : Type} {m : CM σ K α} {f : α → CM σ K β} (hm : m.Shows)
    (hf : ∀ a, (f a).Grows) : (CM.bind m f).Shows := by
  intro s o
  have h := hm s o
  unfold CM.bind
  rcases hx : m s o with ⟨⟨_ | a, s'⟩, o'⟩
  · rw [hx] at h; exact h
  · rw [hx] at h; exact lt_of_lt_of_le h (hf a s' o')

theorem CM.Grows.bind {α β : Type} {m : CM σ K α} {f : α → CM σ K β} (hm : m.Grows)
    (hf : ∀ a, (f a).Grows) : (CM.bind m f).Grows := by
  intro s o
  have h := hm s o
  unfold CM.bind
  rcases hx : m s o with ⟨⟨_ | a, s'⟩, o'⟩
  · rw [hx] at h; exact h
  · rw [hx] at h; exact le_trans h (hf a s' o')

theorem CM.Grows.quiet {α : Type} (m : SM σ K α) : (CM.quiet m).Grows := fun _ _ => le_rfl

theorem CM.Grows.mapL {α β : Type} {f : α → CM σ K β} (h : ∀ a, (f a).Grows) : ∀ l, (CM.mapL f l).Grows
  | [] => .quiet _
  | a :: as => .bind (h a) fun _ => .bind (CM.Grows.mapL h as) fun _ => .quiet _

theorem CM.Grows.tick (p : Option ℕ) (k : ℕ) : (tickBar (σ := σ) (K := K) p k).Grows := by
  intro s o; cases p <;> simp [tickBar]

theorem CM.Grows.flush (p : Option ℕ) : (flushBar (σ := σ) (K := K) p).Grows := by
  intro s o; cases p <;> simp [flushBar]

theorem CM.Grows.withBar {α : Type} {verbose : Bool} {total : ℕ} {body : Option ℕ → CM σ K α}
    (h : ∀ p, (body p).Grows) : (withBar verbose total body).Grows := by
  refine .bind ?_ fun p => .bind (h p) fun r => .bind (.flush p) fun _ => .quiet _
  intro s o; unfold initBar; split <;> simp

theorem CM.Shows.withBar {α : Type} {total : ℕ} {body : Option ℕ → CM σ K α}
    (h : ∀ p, (body p).Grows) : (Verif.withBar true total body).Shows := by
  refine .bind ?_ fun p => .bind (h p) fun r => .bind (.flush p) fun _ => .quiet _
  intro s o; simp [initBar]

theorem CM.Shows.withBar_body {α : Type} {verbose : Bool} {total : ℕ} {body : Option ℕ → CM σ K α}
    (h : ∀ p, (body p).Shows) : (Verif.withBar verbose total body).Shows := by
  intro s o
  have h1 : (initBar (σ := σ) (K := K) verbose total).Grows := by
    intro s o; unfold initBar; split <;> simp
  have h2 := h1 s o
  unfold Verif.withBar CM.bind
  rcases hx : initBar (K := K) verbose total s o with ⟨⟨_ | p, s'⟩, o'⟩
  · unfold initBar at hx; split at hx <;> simp at hx
  · rw [hx] at h2
    exact lt_of_le_of_lt h2 ((CM.Shows.bind (h p) fun r => .bind (.flush p) fun _ => .quiet _) s' o')

theorem CM.Shows.mapL {α β : Type} {f : α → CM σ K β} {a : α} {l : List α} (ha : (f a).Shows)
    (h : ∀ a, (f a).Grows) : (CM.mapL f (a :: l)).Shows :=
  .bind ha fun _ => .bind (.mapL h l) fun _ => .quiet _

end

/-- `mixture([mixture([a, b]), c])`, all weights equal. -/
def mixtureOfMixture (a b c : Obj (St σ ℚ) ℚ) : Obj (St σ ℚ) ℚ :=
  .mix 2 ![.mix 2 ![a, b] [1 / 2, 1 / 2] none none, c] [1 / 2, 1 / 2] none none

theorem two_halves : (processWeightsValues (K := ℚ) (fun _ => false) (.list ([1 / 2, 1 / 2].map some)) .absent
    (.list ((List.finRange 2).map .plain)) false).result
    = .ok ([1 / 2, 1 / 2], [.plain 0, .plain 1]) := by
  decide +kernel

/-- **C136 fails** for a million samples and more: `sample(mixture([mixture([a, b]), c]), n, verbose=False)` shows
progress bars (those of the inner mixture), whatever `a`, `b`, `c` are and whether or not the call succeeds. -/
theorem C136_silent_fails {E : Env σ ℚ} (hE : E.gen.Lawful) (a b c : Obj (St σ ℚ) ℚ) (n : ℕ)
    (hn : 1000000 ≤ n) (s : St σ ℚ) (o : Console) :
    (sampleV E (mixtureOfMixture a b c) n none none (some false) s o).2 ≠ o := by
  have hg : ∀ (d : Obj (St σ ℚ) ℚ) (m : ℕ), (withClipsV E d.clips (rawV E d) none 1 1 m none none).Grows := by
    intro d m
    exact (withClipsV_fills (P := BarEnds ⟨resolveVerbose none m, 1, 1⟩ m) E d.clips (fun hm =>
      rawV_fills hE d _ m hm (by simp [Shown.total]; omega)) none none).grows
  have hclips : ∀ (raw : Shown → ℕ → CM σ ℚ (Samples ℚ)) (verbose : Option Bool),
      (raw ⟨resolveVerbose verbose n, 1, 1⟩ n).Shows →
      (withClipsV E (none, none) raw verbose 1 1 n none none).Shows := by
    intro raw verbose h s o
    unfold withClipsV
    rw [if_neg (by omega)]
    exact (CM.Shows.bind h fun z => .quiet _) s o
  have hmix : ∀ (v : Shown) (comp : Fin 2 → ℕ → CM σ ℚ (Samples ℚ)), (∀ i m, (comp i m).Grows) →
      (v.verbose = true ∨ (comp 0 n).Shows) →
      (mixtureRunV E v comp [1 / 2, 1 / 2] (List.finRange 2) n).Shows := by
    intro v comp hgc hor
    unfold mixtureRunV
    rw [two_halves]
    show (if n > 100 then mixtureLargeV E v comp [1 / 2, 1 / 2] [0, 1] n
      else mixtureSmallV E v comp [1 / 2, 1 / 2] [0, 1] n).Shows
    rw [if_pos (by omega)]
    have hb : ∀ p j, (CM.bind (tickBar p 1) fun _ => comp j n).Grows := fun p j =>
      .bind (.tick _ _) fun _ => hgc j n
    refine .bind ?_ fun pre => .bind (.quiet _) fun us => .withBar fun p =>
      .bind (.mapL (fun q => .bind (.tick _ _) fun _ => .quiet _) _) fun _ => .quiet _
    rcases hor with hv | hs
    · rw [hv]
      exact .withBar fun p => .mapL (hb p) _
    · refine .withBar_body fun p => .mapL ?_ (hb p)
      intro s o
      have h1 := CM.Grows.tick (σ := σ) (K := ℚ) p 1 s o
      unfold CM.bind
      cases p with
      | none => exact hs s o
      | some i => exact lt_of_le_of_lt h1 (hs s _)
  have hinner : ∀ v, (rawV E (.mix 2 ![a, b] [1 / 2, 1 / 2] none none) v n).Shows ∨ v.verbose = false := by
    intro v
    cases hv : v.verbose
    · exact Or.inr rfl
    · exact Or.inl (hmix v _ (fun i m => hg _ m) (Or.inl hv))
  have hcomp : (withClipsV E (none, none) (rawV E (.mix 2 ![a, b] [1 / 2, 1 / 2] none none)) none 1 1 n none
      none).Shows := by
    refine hclips _ none ?_
    have hv : resolveVerbose none n = true := by simp [resolveVerbose, hn]
    rcases hinner ⟨resolveVerbose none n, 1, 1⟩ with h | h
    · exact h
    · rw [hv] at h; exact absurd h (by simp)
  have hall : (sampleV E (mixtureOfMixture a b c) n none none (some false)).Shows :=
    hclips _ _ (hmix _ _ (fun i m => hg _ m) (Or.inr hcomp))
  intro h
  have := hall s o
  rw [h] at this
  exact lt_irrefl _ this

/-! ## Concrete cases -/

/-- `mixture([0, 1])` in the example environment. -/
def coinMix : Obj (St ℕ ℚ) ℚ :=
  .mix 2 ![.leaf (.const (.int 0)) none none, .leaf (.const (.int 1)) none none] [1 / 2, 1 / 2] none none

/-- **C136 fails** with several cores when the number of cores does not divide `n`: for three samples and two
cores the bar of the parent counts to 4 of 3. -/
theorem C136_bars_end_cores_fails :
    (parentBatchV demoEnv 2 coinMix 3 none none (some true) (demoSt 0) []).2 = [⟨3, 4, true⟩] := by
  decide +kernel

/-- With one core the bar counts to 3 of 3. -/
example : (sampleV demoEnv coinMix 3 none none (some true) (demoSt 0) []).2 = [⟨3, 3, true⟩] ∧
    (sampleV demoEnv coinMix 3 none none none (demoSt 0) []).2 = [] := by
  decide +kernel

/-- A function called three times: one bar for the calls, one for their values. -/
example : (sampleV demoEnv (.call (fun _ => none) (fun _ => coinMix) fun s => s) 3 none none (some true)
    (demoSt 0) []).2 = [⟨3, 3, true⟩, ⟨3, 3, true⟩] := by decide +kernel

/-- The calls of the examples succeed. -/
example : (sampleV demoEnv coinMix 3 none none (some true) (demoSt 0) []).1.1.isOk = true ∧
    (parentBatchV demoEnv 2 coinMix 3 none none (some true) (demoSt 0) []).1.1.isOk = true ∧
    (parentBatchV demoEnv 2 coinMix 4 none none (some true) (demoSt 0) []).2 = [⟨4, 4, true⟩] := by
  decide +kernel

example : demoEnv.gen.Lawful := demoGen_lawful

end Verif
