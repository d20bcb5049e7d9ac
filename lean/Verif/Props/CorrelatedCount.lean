import Verif.Props.SampleCount
import Verif.Props.JointDraw

/-!
# C33: the number of samples of expressions with correlated variables
-/

namespace Verif

variable {σ K : Type} [Field K] [LinearOrder K] [FloorRing K]

/-- All columns kept for later have `n` entries. -/
def LeftLen (n : ℕ) (s : St σ K) : Prop := ∀ g i xs, s.left g i = some xs → xs.length = n

/-- Expressions of correlated variables: correlated variables may be combined by operators and functions, but
Python functions and the components of mixtures contain none (they are sampled in other numbers). -/
inductive Obj.Steady : Obj (St σ K) K → Prop
  | plain {d : Obj (St σ K) K} (h1 : d.Regular) (h2 : ∀ g, d.Avoids g) : Obj.Steady d
  | un {f : UnFn} {a : Obj (St σ K) K} (h : Obj.Steady a) : Obj.Steady (.un f a)
  | bin {f : BinFn} {a b : Obj (St σ K) K} (h1 : Obj.Steady a) (h2 : Obj.Steady b) : Obj.Steady (.bin f a b)
  | userUn {isDist : Samples K → Bool} {val : Samples K → Except PyErr (Samples K)}
      {d : Samples K → Obj (St σ K) K} {a : Obj (St σ K) K} (h1 : Obj.Steady a) (h2 : ∀ x, Obj.Steady (d x))
      (h3 : ∀ n x y, Shape n x → val x = .ok y → Shape n y) : Obj.Steady (.userUn isDist val d a)
  | userBin {isDist : Samples K → Samples K → Bool}
      {val : Samples K → Samples K → Except PyErr (Samples K)}
      {d : Samples K → Samples K → Obj (St σ K) K} {a b : Obj (St σ K) K}
      (h1 : Obj.Steady a) (h2 : Obj.Steady b) (h3 : ∀ x y, Obj.Steady (d x y))
      (h4 : ∀ n x y z, Shape n x → Shape n y → val x y = .ok z → Shape n z) :
      Obj.Steady (.userBin isDist val d a b)
  | corr {g m : ℕ} {members : Fin m → Obj (St σ K) K} {i : Fin m} (h : ∀ j, Obj.Steady (members j)) :
      Obj.Steady (.corr g m members i)

/-- Keeps the columns at `n` entries, and a successful result satisfies `Q`. -/
def SM.Steady {α : Type} (n : ℕ) (Q : α → Prop) (m : SM σ K α) : Prop :=
  ∀ s, LeftLen n s → LeftLen n (m s).2 ∧ ∀ a, (m s).1 = .ok a → Q a

omit [Field K] [LinearOrder K] [FloorRing K] in
theorem SM.Steady.bind {α β : Type} {n : ℕ} {Q : α → Prop} {R : β → Prop} {m : SM σ K α} {f : α → SM σ K β}
    (hm : SM.Steady n Q m) (hf : ∀ a, Q a → SM.Steady n R (f a)) : SM.Steady n R (SM.bind m f) := by
  intro s hs
  obtain ⟨h1, h2⟩ := hm s hs
  unfold SM.bind
  rcases hms : m s with ⟨r, s1⟩
  rw [hms] at h1 h2
  cases r with
  | error e => exact ⟨h1, by simp⟩
  | ok a => exact hf a (h2 a rfl) s1 h1

omit [Field K] [LinearOrder K] [FloorRing K] in
theorem SM.Steady.lift {α : Type} {n : ℕ} {Q : α → Prop} {r : Except PyErr α} (h : ∀ a, r = .ok a → Q a) :
    SM.Steady (σ := σ) (K := K) n Q (SM.lift r) := fun s hs => ⟨hs, h⟩

omit [Field K] [LinearOrder K] [FloorRing K] in
theorem SM.Steady.mono {α : Type} {n : ℕ} {Q R : α → Prop} {m : SM σ K α} (h : SM.Steady n Q m)
    (hQ : ∀ a, Q a → R a) : SM.Steady n R m := fun s hs => ⟨(h s hs).1, fun a ha => hQ a ((h s hs).2 a ha)⟩

omit [Field K] [LinearOrder K] [FloorRing K] in
theorem SM.Steady.mapL {α β : Type} {n : ℕ} {Q : β → Prop} {f : α → SM σ K β} (as : List α)
    (hf : ∀ a, SM.Steady n Q (f a)) : SM.Steady n (fun bs => ∀ b ∈ bs, Q b) (SM.mapL f as) := by
  induction as with
  | nil => exact fun s hs => ⟨hs, by rintro _ ⟨⟩; simp⟩
  | cons a as ih =>
    refine (hf a).bind fun b hb => ih.bind fun bs hbs => ?_
    refine fun s hs => ⟨hs, ?_⟩
    rintro _ ⟨⟩
    simpa using ⟨hb, hbs⟩

theorem SM.Steady.withClips {E : Env σ K} {own : Option (Scalar K) × Option (Scalar K)}
    {raw : ℕ → SM σ K (Samples K)} {n : ℕ} (lc rc : Option (Scalar K)) (h : SM.Steady n (Shape n) (raw n)) :
    SM.Steady n (Shape n) (withClips E own raw n lc rc) := by
  unfold Verif.withClips
  split_ifs
  · exact fun s hs => ⟨hs, by simp [SM.throw]⟩
  · refine SM.Steady.bind (Q := fun _ => True) (.lift fun _ _ => trivial) fun l _ => ?_
    refine SM.Steady.bind (Q := fun _ => True) (.lift fun _ _ => trivial) fun r _ => ?_
    exact h.bind fun x hx => .lift fun z hz => applyClips_shape hx hz

theorem rawObj_steady {E : Env σ K} (hE : E.gen.Lawful) {n : ℕ} (hn : n ≠ 1)
    (hind : ∀ g a b, E.induce g a = .ok b → (∀ c ∈ a, c.length = n) → ∀ c ∈ b, c.length = n)
    {d : Obj (St σ K) K} (hd : d.Steady) : SM.Steady n (Shape n) (rawObj E d n) := by
  induction hd with
  | @plain d h1 h2 =>
    intro s hs
    refine ⟨fun g i xs h => hs g i xs ?_, fun z hz => rawObj_shape hE d h1 n s z _ (Prod.ext hz rfl)⟩
    rw [← rawObj_keeps E (h2 g) n s]
    exact h
  | un _ ih =>
    unfold rawObj
    exact (ih.withClips none none).bind fun x hx => .lift fun z hz => unSamples_shape hx hz
  | bin _ _ ih1 ih2 =>
    unfold rawObj
    exact (ih1.withClips none none).bind fun x hx => (ih2.withClips none none).bind fun y hy =>
      .lift fun z hz => binFnSamples_shape hx hy hz
  | userUn _ _ h3 ih1 ih2 =>
    unfold rawObj
    refine (ih1.withClips none none).bind fun x hx => ?_
    split_ifs
    · exact (ih2 x).withClips none none
    · exact .lift fun z hz => h3 n x z hx hz
  | userBin _ _ _ h4 ih1 ih2 ih3 =>
    unfold rawObj
    refine (ih1.withClips none none).bind fun x hx => (ih2.withClips none none).bind fun y hy => ?_
    split_ifs
    · exact (ih3 x y).withClips none none
    · exact .lift fun z hz => h4 n x y z hx hy hz
  | @corr g m members i _ ih =>
    unfold rawObj
    refine SM.Steady.bind (Q := fun kept => ∀ xs, kept = some xs → xs.length = n) ?_ fun kept hkept => ?_
    · intro s hs
      unfold takeLeft
      cases hl : s.left g i with
      | none => exact ⟨hs, by rintro _ ⟨⟩ xs ⟨⟩⟩
      | some xs =>
        refine ⟨fun g' j ys h => ?_, ?_⟩
        · dsimp only at h
          split_ifs at h
          exact hs g' j ys h
        · rintro _ ⟨⟩ ys ⟨⟩
          exact hs g i xs hl
    · cases kept with
      | some xs =>
        intro s hs
        refine ⟨hs, ?_⟩
        rintro _ ⟨⟩
        exact ⟨hn, hkept xs rfl⟩
      | none =>
        have hcols : SM.Steady n (fun cols : List (List K) => ∀ c ∈ cols, c.length = n)
            (SM.mapL (fun j => SM.bind (withClips E (members j).clips (rawObj E (members j)) n none none) fun x =>
              SM.lift (toColumn n x)) (List.finRange m)) := by
          refine SM.Steady.mapL _ fun j => ((ih j).withClips none none).bind fun x _ => .lift fun c hc => ?_
          unfold toColumn at hc
          obtain ⟨xs, -, hc⟩ := Except.bind_ok_iff.1 hc
          split_ifs at hc with hlen
          cases hc
          exact hlen
        refine SM.Steady.bind hcols fun cols hcols => SM.Steady.bind
          (SM.Steady.lift fun cols' h => hind g cols cols' h hcols) fun cols' hcols' => ?_
        intro s hs
        unfold storeOthers
        cases hi : cols'[(i : ℕ)]? with
        | none => exact ⟨hs, by rintro _ ⟨⟩⟩
        | some c =>
          refine ⟨fun g' j xs h => ?_, ?_⟩
          · dsimp only at h
            split_ifs at h
            · cases hj : cols'[j]? with
              | none => rw [hj] at h; exact hs g' j xs h
              | some c' =>
                rw [hj] at h
                cases h
                simpa using hcols' c' (List.mem_of_getElem? hj)
            · exact hs g' j xs h
          · rintro _ ⟨⟩
            exact ⟨hn, by simpa using hcols' c (List.mem_of_getElem? hi)⟩

/-- The results of several `sample` calls, one after the other; each is `(d, lclip, rclip)`. -/
def sampleAll (E : Env σ K) (n : ℕ) :
    List (Obj (St σ K) K × Option (Scalar K) × Option (Scalar K)) → St σ K → List (Except PyErr (Samples K))
  | [], _ => []
  | (d, lc, rc) :: rest, s =>
    (sampleObj E d n lc rc s).1 :: sampleAll E n rest (sampleObj E d n lc rc s).2

/-- **C33 (every call asks for the same `n ≥ 2`).** For any number of correlated groups and any calls on
expressions of their members, some of which may fail: every successful call returns exactly `n` samples. -/
theorem C33_expressions_partial {E : Env σ K} (hE : E.gen.Lawful) {n : ℕ} (hn : n ≠ 1)
    (hind : ∀ g a b, E.induce g a = .ok b → (∀ c ∈ a, c.length = n) → ∀ c ∈ b, c.length = n)
    (calls : List (Obj (St σ K) K × Option (Scalar K) × Option (Scalar K))) (hd : ∀ c ∈ calls, c.1.Steady)
    (s : St σ K) (hfresh : ∀ g i, s.left g i = none) :
    ∀ r ∈ sampleAll E n calls s, ∀ z, r = .ok z → Shape n z := by
  have hs : LeftLen n s := fun g i xs h => by rw [hfresh] at h; cases h
  clear hfresh
  induction calls generalizing s with
  | nil => simp [sampleAll]
  | cons c rest ih =>
    obtain ⟨d, lc, rc⟩ := c
    have h := (rawObj_steady hE hn hind (hd (d, lc, rc) List.mem_cons_self)).withClips (E := E) (own := d.clips) lc rc s hs
    intro r hr z hz
    rcases List.mem_cons.1 hr with rfl | hr
    · exact h.2 z hz
    · exact ih (fun c hc => hd c (by simp [hc])) _ h.1 r hr z hz

/-! ### The hypotheses are met -/

/-- `a + b * 2` for two correlated variables, then the spare `b`, then `-a` with a lower bound. -/
def pairCalls : List (Obj (St ℕ ℚ) ℚ × Option (Scalar ℚ) × Option (Scalar ℚ)) :=
  [(.bin (.op .add) (.corr 0 2 pairMembers 0) (.bin (.op .mul) (.corr 0 2 pairMembers 1) (.lit (.int 2))), none, none),
   (.corr 0 2 pairMembers 1, none, none),
   (.un .neg (.corr 0 2 pairMembers 0), some (.int (-2)), none)]

theorem pairMembers_steady (i : Fin 2) : (Obj.corr 0 2 pairMembers i : Obj (St ℕ ℚ) ℚ).Steady :=
  .corr fun _ => .plain trivial fun _ => .leaf _ _ _

example : ∀ r ∈ sampleAll demoEnv 3 pairCalls (demoSt 0), ∀ z, r = .ok z → Shape 3 z :=
  C33_expressions_partial demoGen_lawful (by decide) (by rintro g a b ⟨⟩ h; exact h) _
    (by
      intro c hc
      simp only [pairCalls, List.mem_cons, List.not_mem_nil, or_false] at hc
      rcases hc with rfl | rfl | rfl
      · exact .bin (pairMembers_steady 0) (.bin (pairMembers_steady 1) (.plain trivial fun _ => .lit _))
      · exact pairMembers_steady 1
      · exact .un (pairMembers_steady 0))
    _ (fun _ _ => rfl)

example : ∀ r ∈ sampleAll demoEnv 3 pairCalls (demoSt 0), ∃ z, r = .ok z ∧ z.toList.length = 3 := by
  have h : ((sampleAll demoEnv 3 pairCalls (demoSt 0)).all fun r => match r with
      | .ok z => z.toList.length == 3
      | .error _ => false) = true := by decide +kernel
  intro r hr
  have := List.all_eq_true.1 h r hr
  cases r with
  | error e => cases this
  | ok z => exact ⟨z, rfl, by simpa using this⟩

end Verif
