import Verif.Props.Sampleable
import Verif.Props.Mixture
import Verif.Props.SampleCount
import Verif.Lemmas.Patience

/-!
# C75: mixtures, `discrete` and exploding dice can be sampled
-/

namespace Verif

variable {σ K : Type} [Field K] [LinearOrder K] [FloorRing K] [IsStrictOrderedRing K]

/-- Sampling succeeds from every state, for every positive number of samples, with that many values. -/
def Always (run : ℕ → SM σ K (Samples K)) : Prop :=
  ∀ m, 1 ≤ m → ∀ s, ∃ z s', run m s = (.ok z, s') ∧ Shape m z

omit [FloorRing K] [IsStrictOrderedRing K] [Field K] [LinearOrder K] in
theorem mapL_total {α β : Type} {f : α → SM σ K β} {Q : β → Prop} (as : List α)
    (h : ∀ a ∈ as, ∀ s, ∃ b s', f a s = (.ok b, s') ∧ Q b) (s : St σ K) :
    ∃ bs s', SM.mapL f as s = (.ok bs, s') ∧ bs.length = as.length ∧ ∀ b ∈ bs, Q b := by
  induction as generalizing s with
  | nil => exact ⟨[], s, rfl, rfl, by simp⟩
  | cons a as ih =>
    obtain ⟨b, s1, h1, hb⟩ := h a (by simp) s
    obtain ⟨bs, s2, h2, hl, hbs⟩ := ih (fun a ha => h a (by simp [ha])) s1
    refine ⟨b :: bs, s2, by simp [SM.mapL, SM.bind, h1, h2, SM.pure], by simp [hl], ?_⟩
    intro c hc
    rcases List.mem_cons.1 hc with rfl | hc
    · exact hb
    · exact hbs c hc

omit [FloorRing K] [IsStrictOrderedRing K] [Field K] [LinearOrder K] in
theorem replicateL_total' {α : Type} {m : SM σ K α} {Q : α → Prop}
    (h : ∀ s, ∃ a s', m s = (.ok a, s') ∧ Q a) :
    ∀ (n : ℕ) (s : St σ K), ∃ as s', SM.replicateL m n s = (.ok as, s') ∧ as.length = n ∧ ∀ a ∈ as, Q a := by
  intro n
  induction n with
  | zero => intro s; exact ⟨[], s, rfl, rfl, by simp⟩
  | succ n ih =>
    intro s
    obtain ⟨a, s1, h1, ha⟩ := h s
    obtain ⟨as, s2, h2, hl, has⟩ := ih s1
    refine ⟨a :: as, s2, by simp [SM.replicateL, SM.bind, h1, h2, SM.pure], by simp [hl], ?_⟩
    intro c hc
    rcases List.mem_cons.1 hc with rfl | hc
    · exact ha
    · exact has c hc

omit [FloorRing K] [IsStrictOrderedRing K] [Field K] [LinearOrder K] in
theorem shape_len {m : ℕ} {z : Samples K} (h : Shape m z) : z.toList.length = m := by
  cases z with
  | scalar v => simpa [Samples.toList, Shape] using h.symm
  | arr vs => exact h.2

theorem mixtureRun_total {ι : Type} {E : Env σ K} (hE : E.Sane) {comp : ι → ℕ → SM σ K (Samples K)}
    {ws : List K} {vals : List ι} (hlen : ws.length = vals.length) (hne : vals ≠ [])
    (hpos : ∀ w ∈ ws, 0 < w) (hlo : 1 ≤ ws.sum) (hhi : ws.sum < 101 / 100)
    (hcomp : ∀ i ∈ vals, Always (comp i))
    (hshape : ∀ i n s x s', comp i n s = (.ok x, s') → Shape n x) : Always (mixtureRun E comp ws vals) := by
  intro n hn s
  have hwne : ws ≠ [] := by
    rintro rfl
    exact hne (List.length_eq_zero_iff.1 hlen.symm)
  have hproc : (processWeightsValues (fun _ => false) (.list (ws.map some)) .absent
      (.list (vals.map .plain)) false).result = .ok (ws, vals.map .plain) :=
    C07_reprocessing_is_identity ws vals hlen hne hpos (lt_of_lt_of_le (by norm_num) hlo) hhi
  have hitems : (vals.map VItem.plain).filterMap (VItem.plain? (K := K)) = vals := by
    rw [List.filterMap_map]
    exact List.filterMap_some
  have hunit : (Prim.uniform (0 : K) 1).Accepted := by simp [Prim.Accepted]
  have large : ∃ z s', mixtureLarge E comp ws vals n s = (.ok z, s') := by
    obtain ⟨pre, s1, h1, hpl, hp⟩ := mapL_total (f := fun i => comp i n) (Q := Shape n) vals
      (fun i hi s => hcomp i hi n hn s) s
    obtain ⟨us, s2, h2, hul, hu⟩ := drawSM_total hE.lawful hE.decides hunit n s1
    have hpick : ∃ vs, mapExcept (pickValue ws pre) us.zipIdx = .ok vs := by
      obtain ⟨vs, h3, -⟩ := mapExcept_total (f := pickValue ws pre) (R := fun _ => True)
        (P := fun p => (∃ u, p.1 = .flt u ∧ u < 1) ∧ p.2 < n) (by
          rintro ⟨v, j⟩ ⟨⟨u, hv, hu1⟩, hj⟩
          simp only at hv hj
          subst hv
          obtain ⟨hpk, hlt⟩ := C06_strategies_partial ws (fun w hw => (hpos w hw).le) hwne u (hu1.le.trans hlo)
          have hlt2 : pickSmall ws u < pre.length := by omega
          have hlt3 : j < (pre[pickSmall ws u]).toList.length := by
            rw [shape_len (hp _ (List.getElem_mem hlt2))]; exact hj
          refine ⟨(pre[pickSmall ws u]).toList[j], ?_, trivial⟩
          unfold pickValue
          simp only [hpk, List.getElem?_eq_getElem hlt2, List.getElem?_eq_getElem hlt3]) us.zipIdx (by
          rintro ⟨v, j⟩ hvj
          have hj := List.mem_zipIdx hvj
          obtain ⟨u, hu0, hu1⟩ := hu v (by rw [hj.2.2]; exact List.getElem_mem _)
          exact ⟨⟨u, hu0, hu1.2.2 zero_lt_one⟩, by simp only; omega⟩)
      exact ⟨vs, h3⟩
    obtain ⟨vs, h3⟩ := hpick
    refine ⟨Samples.simplify (.arr (npArray E.fmt vs)), s2, ?_⟩
    · simp only [mixtureLarge, SM.bind, h1, h2, SM.lift, h3]
      rfl
  have one : ∀ s, ∃ z s', mixtureOne E comp ws vals s = (.ok z, s') ∧ Shape 1 z := by
    intro s
    obtain ⟨us, s1, h1, hl, hu⟩ := drawSM_total hE.lawful hE.decides hunit 1 s
    obtain ⟨v, rfl⟩ := List.length_eq_one_iff.1 hl
    obtain ⟨u, rfl, -⟩ := hu v (by simp)
    have hlt : pickSmall ws u < vals.length := hlen ▸ C06_small_total ws (fun w hw => (hpos w hw).le) hwne u
    obtain ⟨z, s2, h2, hz⟩ := hcomp vals[pickSmall ws u] (List.getElem_mem _) 1 le_rfl s1
    exact ⟨z, s2, by simp only [mixtureOne, SM.bind, h1, List.getElem?_eq_getElem hlt, h2], hz⟩
  have small : ∃ z s', mixtureSmall E comp ws vals n s = (.ok z, s') := by
    obtain ⟨ss, s1, h1, hl, hss⟩ := replicateL_total' one n s
    have hg : ∃ z, gather E ss = .ok z := by
      have hsc : ∀ x : Samples K, Shape 1 x → ∃ b, (match x with
          | .scalar v => Except.ok v
          | .arr _ => .error .unmodelled : Except PyErr (Scalar K)) = .ok b ∧ True := by
        intro x hx
        cases x with
        | scalar v => exact ⟨v, rfl, trivial⟩
        | arr vs => exact absurd rfl hx.1
      obtain ⟨vs, h3, -⟩ := mapExcept_total hsc ss hss
      exact ⟨_, congrArg (fun e : Except PyErr (List (Scalar K)) =>
        (do let vs ← e; Except.ok (Samples.simplify (.arr (npArray E.fmt vs))) : Except PyErr (Samples K))) h3⟩
    obtain ⟨z, hz⟩ := hg
    match ss, h1, hl, hz with
    | [], _, hl, _ => simp at hl; omega
    | [x], h1, _, _ => exact ⟨x, s1, by simp only [mixtureSmall, SM.bind, h1]; rfl⟩
    | x :: y :: ss, h1, _, hz =>
      exact ⟨z, s1, by simp only [mixtureSmall, SM.bind, h1, SM.lift, hz]⟩
  have run : ∃ z s', mixtureRun E comp ws vals n s = (.ok z, s') := by
    by_cases h1 : ∃ i, vals = [i]
    · obtain ⟨i, rfl⟩ := h1
      obtain ⟨z, s', h, -⟩ := hcomp i (by simp) n hn s
      exact ⟨z, s', by unfold mixtureRun; rw [hproc]; exact h⟩
    · have hrun : mixtureRun E comp ws vals n s = (if n > 100 then mixtureLarge E comp ws vals n s
          else mixtureSmall E comp ws vals n s) := by
        unfold mixtureRun
        rw [hproc]
        simp only [hitems]
        match vals, hne, h1 with
        | [a], _, h1 => exact absurd ⟨a, rfl⟩ h1
        | _ :: _ :: _, _, _ => rfl
      rw [hrun]
      split_ifs
      · exact large
      · exact small
  obtain ⟨z, s', h⟩ := run
  exact ⟨z, s', h, mixtureRun_shape hE.lawful hshape h⟩

/-- **C75** (`discrete` of a list). `discrete` of any non-empty list of plain values can be constructed and
sampled, from every state of the generator and for every positive number of samples. Missing: items with
weights of their own, which are only checked when sampling. -/
theorem C75_discrete_partial (E : Env σ K) (hE : E.Sane) (vs : List (Scalar K)) (hne : vs ≠ []) (n : ℕ)
    (hn : 1 ≤ n) (s : St σ K) :
    ∃ o z s', construct (.discrete (.list (vs.map .plain))) = .ok o ∧
      sampleObj E o n none none s = (.ok z, s') ∧ Shape n z := by
  obtain ⟨ws, xs, hproc, hlen, hsum, hpos, -⟩ := C08_empirical (K := K) vs hne
  have hxs : xs ≠ [] := by
    rintro rfl
    rw [List.length_nil, List.length_eq_zero_iff] at hlen
    simp [hlen] at hsum
  obtain ⟨z, s', h1, h2⟩ := mixtureRun_total hE (comp := fun v m => SM.pure (constSamples v m)) hlen hxs hpos
    hsum.ge (by rw [hsum]; norm_num) (fun v _ m _ s => ⟨_, s, rfl, constSamples_shape v m⟩)
    (by
      intro v n s x s' h
      obtain ⟨rfl, -⟩ := SM.pure_ok.1 h
      exact constSamples_shape v n) n hn s
  have hitems : (xs.map VItem.plain).filterMap (VItem.plain? (K := K)) = xs := by
    rw [List.filterMap_map]
    exact List.filterMap_some
  have h3 : leafSample E (.categorical (.list (vs.map .plain))) n s = (.ok z, s') := by
    simp only [leafSample, SM.bind, SM.lift, hproc, hitems, h1]
  obtain ⟨w, hw⟩ := withClips_total (E := E) (own := (none, none))
    (raw := leafSample E (.categorical (.list (vs.map .plain)))) hn h3 (Or.inl rfl)
  refine ⟨.leaf (.categorical (.list (vs.map .plain))) none none, w, s', ?_, hw, ?_⟩
  · simp only [construct, List.length_map]
    rw [if_pos (List.length_pos_iff.2 hne)]
  · obtain ⟨-, l, r, x, hl, hr, hx, hc⟩ := withClips_ok.1 hw
    cases hl
    cases hr
    rw [h3] at hx
    cases hx
    exact applyClips_shape h2 hc

/-- **C75** (mixtures). A mixture whose weights are positive and sum to at least one, and whose components
can be sampled, can be sampled. Missing: weights whose sum is accepted although it is below one (C06). -/
theorem C75_mixture_partial (E : Env σ K) (hE : E.Sane) (k : ℕ) (hk : 0 < k) (ds : Fin k → Obj (St σ K) K)
    (hd : ∀ i, (ds i).Regular) (ws : List K) (hlen : ws.length = k) (hpos : ∀ w ∈ ws, 0 < w)
    (hlo : 1 ≤ ws.sum) (hhi : ws.sum < 101 / 100)
    (hcomp : ∀ i m, 1 ≤ m → ∀ s, ∃ z s', sampleObj E (ds i) m none none s = (.ok z, s'))
    (n : ℕ) (hn : 1 ≤ n) (s : St σ K) :
    ∃ z s', sampleObj E (.mix k ds ws none none) n none none s = (.ok z, s') ∧ Shape n z := by
  have h := mixtureRun_total hE (comp := fun i m => sampleObj E (ds i) m none none) (ws := ws)
    (vals := List.finRange k) (by simpa using hlen)
    (by intro h0; have := congrArg List.length h0; simp at this; omega) hpos hlo hhi
    (fun i _ m hm s => by
      obtain ⟨z, s', h⟩ := hcomp i m hm s
      exact ⟨z, s', h, (C11_count_partial E hE.lawful (ds i) (hd i) m none none s s' z h).2⟩)
    (fun i m s x s' h => (C11_count_partial E hE.lawful (ds i) (hd i) m none none s s' x h).2) n hn s
  obtain ⟨z, s', h1, h2⟩ := h
  obtain ⟨w, hw⟩ := withClips_total (E := E) (own := (none, none)) (raw := rawObj E (.mix k ds ws none none))
    (x := z) (s' := s') hn (by unfold rawObj; exact h1) (Or.inl rfl)
  exact ⟨w, s', hw, (C11_count_partial E hE.lawful (.mix k ds ws none none) hd n none none s s' w hw).2⟩

omit [IsStrictOrderedRing K] in
theorem drawInt_total {E : Env σ K} (hL : E.gen.Lawful) (hD : E.gen.Decides) {a b : ℤ} (hab : a < b)
    (s : St σ K) : ∃ z s', drawInt E a b s = (.ok z, s') := by
  obtain ⟨xs, s', h5, h6, h7⟩ := drawSM_total hL hD (p := .integers a b) hab 1 s
  obtain ⟨v, rfl⟩ := List.length_eq_one_iff.1 h6
  obtain ⟨z, rfl, -⟩ := h7 v (by simp)
  exact ⟨z, s', by simp [drawInt, SM.bind, h5, SM.pure]⟩

omit [Field K] [LinearOrder K] [FloorRing K] [IsStrictOrderedRing K] in
theorem explodeLoop_cases {next : St σ K → Except PyErr ℤ × St σ K} (hnext : ∀ s, ∃ z s', next s = (.ok z, s'))
    (l : List ℤ) : ∀ (f : ℕ) (r tot : ℤ) (s : St σ K),
      (∃ z s', explodeLoop next l f r tot s = (.ok z, s')) ∨
        (explodeLoop next l f r tot s).1 = .error .outOfFuel := by
  intro f
  induction f with
  | zero =>
    intro r tot s
    by_cases hr : r ∈ l
    · right; simp [explodeLoop, hr]
    · left; exact ⟨tot, s, by simp [explodeLoop, hr]⟩
  | succ f ih =>
    intro r tot s
    by_cases hr : r ∈ l
    · obtain ⟨z, s1, h1⟩ := hnext s
      simp only [explodeLoop, hr, if_true, h1]
      exact ih z _ s1
    · left; exact ⟨tot, s, by simp [explodeLoop, hr]⟩

/-- **C75** (exploding dice). Sampling a constructed die returns, unless some roll never ends: there is then a
state of the generator from which the die explodes for as long as one cares to wait. -/
theorem C75_die_partial (E : Env σ K) (hE : E.Sane) (hP : E.Patient) (sides : IntArg) (ex : ExplodeArg)
    (o : Obj (St σ K) K) (hc : construct (.die sides ex : DistCall K) = .ok o) (n : ℕ) (hn : 1 ≤ n) (s : St σ K) :
    (∃ z s', sampleObj E o n none none s = (.ok z, s')) ∨
    ∃ d : DieSpec, dieInit sides ex = .ok d ∧ ∃ s1 : St σ K, ∀ f,
      (singleRoll (drawInt E 1 (d.sides + 1)) d.explodeOn f s1).1 = .error .outOfFuel := by
  simp only [construct] at hc
  rcases C28_refused sides ex with ⟨d, h⟩ | h <;> rw [h] at hc <;> cases hc
  have h2 := ((C28_accepted_iff sides ex d).1 h).1
  have hnext : ∀ s, ∃ z s', drawInt E 1 (d.sides + 1) s = (.ok z, s') :=
    drawInt_total hE.lawful hE.decides (by omega)
  by_cases hend : ∀ s1 : St σ K, ∃ f,
      (singleRoll (drawInt E 1 (d.sides + 1)) d.explodeOn f s1).1 ≠ .error .outOfFuel
  · left
    obtain ⟨as, s', has⟩ := replicateL_total (m := rollDie E d) (by
      intro s1
      obtain ⟨f, hf⟩ := hend s1
      rw [rollDie_eq hP hf]
      obtain ⟨z, s2, h3⟩ := hnext s1
      simp only [singleRoll, h3] at hf ⊢
      cases hex : d.explodeOn with
      | none => exact ⟨z, s2, rfl⟩
      | some l =>
        rw [hex] at hf
        rcases explodeLoop_cases hnext l f z z s2 with h4 | h4
        · exact h4
        · exact absurd h4 hf) n s
    have h3 : leafSample E (.die d) n s = (.ok (Samples.simplify (.arr (as.map .int))), s') := by
      simp only [leafSample, SM.bind, has, SM.pure]
    obtain ⟨w, hw⟩ := withClips_total (E := E) (own := (none, none)) (raw := leafSample E (.die d)) hn h3
      (Or.inl rfl)
    exact ⟨w, s', hw⟩
  · push Not at hend
    exact .inr ⟨d, h, hend⟩

/-! ### The hypotheses are met -/

example : ∃ o z s', construct (.discrete (.list ([.int 1, .flt (1 / 2), .int 1].map .plain)) : DistCall ℚ) = .ok o ∧
    sampleObj strictEnv o 150 none none (demoSt 4) = (.ok z, s') ∧ Shape 150 z :=
  C75_discrete_partial strictEnv strictEnv_sane _ (by simp) 150 (by norm_num) _

example : ∃ z s', sampleObj strictEnv (.mix 2 (fun i => .leaf (.uniform 0 (i + 1)) none none) [1 / 4, 3 / 4] none none)
    150 none none (demoSt 4) = (.ok z, s') ∧ Shape 150 z :=
  C75_mixture_partial strictEnv strictEnv_sane 2 (by norm_num) (fun i => .leaf (.uniform 0 (i + 1)) none none) (fun _ => trivial) _ rfl
    (by intro w hw; simp only [List.mem_cons, List.not_mem_nil, or_false] at hw; rcases hw with rfl | rfl <;> norm_num)
    (by norm_num) (by norm_num)
    (fun i m hm s => C75_sampleable_partial strictEnv strictEnv_sane (.uniform 0 (i + 1)) _
      (if_pos (by positivity)) trivial (by simp [DistCall.bounds]) m hm s) 150 (by norm_num) _

/-- A die that explodes on six, with the loops carried out to their end. -/
example : strictEnv.patient.Patient ∧ strictEnv.patient.Sane ∧
    ∃ d, dieInit (some 6) (.list [some 6]) = .ok d ∧ d.explodeOn = some [6] :=
  ⟨Env.patient_patient _, ⟨strictGen_lawful, strictGen_decides, strictEnv_sane.ppf_pos, strictEnv_sane.sqrt,
    strictEnv_sane.log_mono⟩, ⟨6, some [6]⟩, (C28_accepted_iff _ _ _).2 (by simp [ExplodeArg.toList?]), rfl⟩

end Verif
