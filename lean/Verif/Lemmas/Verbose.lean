import Verif.Model.Verbose
import Mathlib.Tactic.Linarith

/-!
# Progress bars: what they do not change, when none are shown, and where they end
-/

namespace Verif

variable {σ K : Type}

/-! ## Forgetting the bars -/

/-- `m` does what `m'` does, apart from the bars. -/
def CM.Erases {α : Type} (m : CM σ K α) (m' : SM σ K α) : Prop := ∀ s o, (m s o).1 = m' s

namespace CM.Erases

theorem quiet {α : Type} (m : SM σ K α) : CM.Erases (CM.quiet m) m := fun _ _ => rfl

theorem bind {α β : Type} {m : CM σ K α} {m' : SM σ K α} {f : α → CM σ K β} {f' : α → SM σ K β}
    (hm : CM.Erases m m') (hf : ∀ a, CM.Erases (f a) (f' a)) : CM.Erases (CM.bind m f) (SM.bind m' f') := by
  intro s o
  have h := hm s o
  unfold CM.bind SM.bind
  rcases hx : m s o with ⟨⟨_ | a, s'⟩, o'⟩
  · rw [hx] at h; simp only at h; rw [← h]
  · rw [hx] at h; simp only at h; rw [← h]; exact hf a s' o'

theorem mapL {α β : Type} {f : α → CM σ K β} {f' : α → SM σ K β} (h : ∀ a, CM.Erases (f a) (f' a)) :
    ∀ l, CM.Erases (CM.mapL f l) (SM.mapL f' l)
  | [] => quiet _
  | a :: as => bind (h a) fun _ => bind (mapL h as) fun _ => quiet _

theorem replicateL {α : Type} {m : CM σ K α} {m' : SM σ K α} (h : CM.Erases m m') :
    ∀ n, CM.Erases (CM.replicateL m n) (SM.replicateL m' n)
  | 0 => quiet _
  | n + 1 => bind h fun _ => bind (replicateL h n) fun _ => quiet _

theorem tick_then {α : Type} (pbar : Option ℕ) (k : ℕ) {m : CM σ K α} {m' : SM σ K α}
    (h : CM.Erases m m') : CM.Erases (CM.bind (tickBar pbar k) fun _ => m) m' := by
  intro s o
  cases pbar <;> exact h s _

theorem then_tick {α : Type} (pbar : Option ℕ) (k : ℕ) {m : CM σ K α} {m' : SM σ K α}
    (h : CM.Erases m m') :
    CM.Erases (CM.bind m fun x => CM.bind (tickBar pbar k) fun _ => CM.quiet (SM.pure x)) m' := by
  intro s o
  have := h s o
  unfold CM.bind
  rcases hx : m s o with ⟨⟨_ | a, s'⟩, o'⟩
  · rw [hx] at this; exact this
  · rw [hx] at this; cases pbar <;> exact this

theorem withBar {α : Type} (verbose : Bool) (total : ℕ) {body : Option ℕ → CM σ K α} {m' : SM σ K α}
    (h : ∀ p, CM.Erases (body p) m') : CM.Erases (withBar verbose total body) m' := by
  intro s o
  have key : ∀ p o, (CM.bind (body p) (fun r => CM.bind (flushBar p) fun _ => CM.quiet (SM.pure r)) s o).1
      = m' s := by
    intro p o
    have := h p s o
    unfold CM.bind
    rcases hx : body p s o with ⟨⟨_ | a, s'⟩, o'⟩
    · rw [hx] at this; exact this
    · rw [hx] at this; cases p <;> exact this
  unfold Verif.withBar CM.bind initBar
  cases verbose
  · exact key none o
  · exact key (some o.length) _

end CM.Erases

/-- `[lift f(p) for p in l]` as one computation that may raise. -/
theorem mapL_lift {α β : Type} (f : α → Except PyErr β) :
    ∀ l, SM.mapL (σ := σ) (K := K) (fun p => SM.lift (f p)) l = SM.lift (mapExcept f l)
  | [] => rfl
  | a :: as => by
    funext s
    show SM.bind (SM.lift (f a)) (fun b => SM.bind (SM.mapL (fun p => SM.lift (f p)) as) fun bs =>
      SM.pure (b :: bs)) s = _
    rw [mapL_lift f as]
    unfold SM.bind SM.lift
    cases h : f a with
    | error e => simp [mapExcept, h, bind, Except.bind]
    | ok b =>
      cases h2 : mapExcept f as with
      | error e => simp [mapExcept, h, h2, SM.lift, bind, Except.bind]
      | ok bs => simp [mapExcept, h, h2, SM.lift, SM.pure, bind, Except.bind]

variable [Field K] [LinearOrder K] [FloorRing K]

theorem mixtureLargeV_erases {ι : Type} (E : Env σ K) (v : Shown) {comp : ι → ℕ → CM σ K (Samples K)}
    {comp' : ι → ℕ → SM σ K (Samples K)} (h : ∀ i m, CM.Erases (comp i m) (comp' i m)) (ws : List K)
    (vals : List ι) (n : ℕ) : CM.Erases (mixtureLargeV E v comp ws vals n) (mixtureLarge E comp' ws vals n) := by
  unfold mixtureLargeV mixtureLarge
  refine .bind (.withBar _ _ fun p => .mapL (fun i => .tick_then _ _ (h i n)) vals) fun pre => ?_
  refine .bind (.quiet _) fun us => ?_
  refine .withBar _ _ fun p => ?_
  have h1 : CM.Erases (CM.bind (CM.mapL (fun q => CM.bind (tickBar p v.tqdmCores) fun _ =>
      CM.quiet (SM.lift (pickValue ws pre q))) us.zipIdx) fun vs =>
      CM.quiet (SM.pure (Samples.simplify (.arr (npArray E.fmt vs)))))
      (SM.bind (SM.mapL (σ := σ) (K := K) (fun q => SM.lift (pickValue ws pre q)) us.zipIdx) fun vs =>
        SM.pure (Samples.simplify (.arr (npArray E.fmt vs)))) :=
    .bind (.mapL (fun q => .tick_then _ _ (.quiet _)) _) fun vs => .quiet _
  rw [mapL_lift] at h1
  intro s o
  rw [h1 s o]
  unfold SM.bind SM.lift
  cases h2 : mapExcept (pickValue ws pre) us.zipIdx <;> simp [bind, Except.bind, SM.pure]

theorem mixtureSmallV_erases {ι : Type} (E : Env σ K) (v : Shown) {comp : ι → ℕ → CM σ K (Samples K)}
    {comp' : ι → ℕ → SM σ K (Samples K)} (h : ∀ i m, CM.Erases (comp i m) (comp' i m)) (ws : List K)
    (vals : List ι) (n : ℕ) : CM.Erases (mixtureSmallV E v comp ws vals n) (mixtureSmall E comp' ws vals n) := by
  unfold mixtureSmallV mixtureSmall
  refine .withBar _ _ fun p => .bind (.replicateL ?_ n) fun ss => ?_
  · unfold mixtureOneV mixtureOne
    refine .bind (.quiet _) fun us => .tick_then _ _ ?_
    intro s o
    match us with
    | [.flt u] =>
      simp only
      cases vals[pickSmall ws u]? with
      | none => rfl
      | some i => exact h i 1 s o
    | [] => rfl
    | [.int _] => rfl
    | [.bool _] => rfl
    | [.str _] => rfl
    | [.none] => rfl
    | _ :: _ :: _ => simp [CM.quiet]
  · intro s o
    match ss with
    | [] => rfl
    | [_] => rfl
    | _ :: _ :: _ => rfl

theorem mixtureRunV_erases {ι : Type} (E : Env σ K) (v : Shown) {comp : ι → ℕ → CM σ K (Samples K)}
    {comp' : ι → ℕ → SM σ K (Samples K)} (h : ∀ i m, CM.Erases (comp i m) (comp' i m)) (ws : List K)
    (vals : List ι) (n : ℕ) : CM.Erases (mixtureRunV E v comp ws vals n) (mixtureRun E comp' ws vals n) := by
  intro s o
  unfold mixtureRunV mixtureRun
  cases (processWeightsValues (fun _ => false) (.list (ws.map some)) .absent
      (.list (vals.map .plain)) false).result with
  | error e => rfl
  | ok r =>
    obtain ⟨ws', items⟩ := r
    simp only
    rcases hv : items.filterMap VItem.plain? with _ | ⟨i, _ | ⟨j, l⟩⟩
    · simp only; split
      · exact mixtureLargeV_erases E v h ws' _ n s o
      · exact mixtureSmallV_erases E v h ws' _ n s o
    · exact h i n s o
    · simp only; split
      · exact mixtureLargeV_erases E v h ws' _ n s o
      · exact mixtureSmallV_erases E v h ws' _ n s o

theorem withClipsV_erases (E : Env σ K) (own : Option (Scalar K) × Option (Scalar K))
    {raw : Shown → ℕ → CM σ K (Samples K)} {raw' : ℕ → SM σ K (Samples K)}
    (h : ∀ v n, CM.Erases (raw v n) (raw' n)) (verbose : Option Bool) (tn tc n : ℕ)
    (lc rc : Option (Scalar K)) :
    CM.Erases (withClipsV E own raw verbose tn tc n lc rc) (withClips E own raw' n lc rc) := by
  unfold withClipsV withClips
  split
  · exact .quiet _
  · exact .bind (.quiet _) fun l => .bind (.quiet _) fun r => .bind (h _ _) fun s => .quiet _

theorem rawV_erases (E : Env σ K) (d : Obj (St σ K) K) : ∀ v n, CM.Erases (rawV E d v n) (rawObj E d n) := by
  induction d with
  | lit v => intro _ n; exact .quiet _
  | leaf l lc rc => intro _ n; exact .quiet _
  | call exn ret next ih =>
    intro v n
    refine .bind ?_ fun states => ?_
    · split
      · exact .withBar _ _ fun p => .replicateL (.then_tick _ _ (.quiet _)) n
      · exact .replicateL (.quiet _) n
    · refine .withBar _ _ fun p => .bind (.mapL (fun s => .then_tick _ _ ?_) states) fun ss => .quiet _
      split
      · exact .quiet _
      · exact withClipsV_erases E _ (ih s) _ _ _ _ _ _
  | mix k ds ws lc rc ih =>
    intro v n
    exact mixtureRunV_erases E v (fun i m => withClipsV_erases E _ (ih i) _ _ _ _ _ _) _ _ _
  | un f left ih =>
    intro v n
    exact .bind (withClipsV_erases E _ ih _ _ _ _ _ _) fun _ => .quiet _
  | bin f left right ih1 ih2 =>
    intro v n
    exact .bind (withClipsV_erases E _ ih1 _ _ _ _ _ _) fun _ =>
      .bind (withClipsV_erases E _ ih2 _ _ _ _ _ _) fun _ => .quiet _
  | userUn isDist val d left ihd ih =>
    intro v n
    refine .bind (withClipsV_erases E _ ih _ _ _ _ _ _) fun x => ?_
    split
    · exact withClipsV_erases E _ (ihd x) _ _ _ _ _ _
    · exact .quiet _
  | userBin isDist val d left right ihd ih1 ih2 =>
    intro v n
    refine .bind (withClipsV_erases E _ ih1 _ _ _ _ _ _) fun x =>
      .bind (withClipsV_erases E _ ih2 _ _ _ _ _ _) fun y => ?_
    split
    · exact withClipsV_erases E _ (ihd x y) _ _ _ _ _ _
    · exact .quiet _
  | corr g m members i ih =>
    intro v n
    unfold rawV rawObj
    refine .bind (.quiet _) fun kept => ?_
    intro s o
    cases kept with
    | some xs => rfl
    | none =>
      exact (CM.Erases.bind (.mapL (fun j => .bind (withClipsV_erases E _ (ih j) _ _ _ _ _ _) fun x => .quiet _)
        _) fun cols => .bind (.quiet _) fun cols' => .quiet _) s o

/-! ## Showing nothing -/

/-- `m` shows nothing. -/
def CM.Silent {α : Type} (m : CM σ K α) : Prop := ∀ s o, (m s o).2 = o

namespace CM.Silent

omit [Field K] [LinearOrder K] [FloorRing K]

theorem quiet {α : Type} (m : SM σ K α) : CM.Silent (CM.quiet m) := fun _ _ => rfl

theorem bind {α β : Type} {m : CM σ K α} {f : α → CM σ K β} (hm : CM.Silent m)
    (hf : ∀ a, CM.Silent (f a)) : CM.Silent (CM.bind m f) := by
  intro s o
  have h := hm s o
  unfold CM.bind
  rcases hx : m s o with ⟨⟨_ | a, s'⟩, o'⟩
  · rw [hx] at h; exact h
  · rw [hx] at h; simp only at h; subst h; exact hf a s' _

theorem mapL {α β : Type} {f : α → CM σ K β} (h : ∀ a, CM.Silent (f a)) : ∀ l, CM.Silent (CM.mapL f l)
  | [] => quiet _
  | a :: as => bind (h a) fun _ => bind (mapL h as) fun _ => quiet _

theorem replicateL {α : Type} {m : CM σ K α} (h : CM.Silent m) : ∀ n, CM.Silent (CM.replicateL m n)
  | 0 => quiet _
  | n + 1 => bind h fun _ => bind (replicateL h n) fun _ => quiet _

theorem tick (k : ℕ) : CM.Silent (tickBar (σ := σ) (K := K) none k) := fun _ _ => rfl

theorem withBar {α : Type} (total : ℕ) {body : Option ℕ → CM σ K α} (h : CM.Silent (body none)) :
    CM.Silent (withBar false total body) := by
  intro s o
  unfold Verif.withBar
  have : CM.bind (initBar (σ := σ) (K := K) false total) (fun pbar => CM.bind (body pbar) fun r =>
      CM.bind (flushBar pbar) fun _ => CM.quiet (SM.pure r)) s o
      = CM.bind (body none) (fun r => CM.bind (flushBar none) fun _ => CM.quiet (SM.pure r)) s o := rfl
  rw [this]
  exact (bind h fun r => bind (fun _ _ => rfl) fun _ => quiet _) s o

end CM.Silent

theorem mixtureRunV_silent {ι : Type} (E : Env σ K) {v : Shown} (hv : v.verbose = false)
    {comp : ι → ℕ → CM σ K (Samples K)} {n : ℕ} (h1 : ∀ i, CM.Silent (comp i 1))
    (hn : ∀ i, CM.Silent (comp i n)) (ws : List K) (vals : List ι) :
    CM.Silent (mixtureRunV E v comp ws vals n) := by
  have hl : ∀ ws' vals', CM.Silent (mixtureLargeV E v comp ws' vals' n) := by
    intro ws' vals'
    unfold mixtureLargeV
    rw [hv]
    exact .bind (.withBar _ (.mapL (fun i => .bind (.tick _) fun _ => hn i) _)) fun pre =>
      .bind (.quiet _) fun us => .withBar _
        (.bind (.mapL (fun q => .bind (.tick _) fun _ => .quiet _) _) fun vs => .quiet _)
  have hs : ∀ ws' vals', CM.Silent (mixtureSmallV E v comp ws' vals' n) := by
    intro ws' vals'
    unfold mixtureSmallV
    rw [hv]
    refine .withBar _ (.bind (.replicateL ?_ n) fun ss => ?_)
    · unfold mixtureOneV
      refine .bind (.quiet _) fun us => .bind (.tick _) fun _ => ?_
      split
      · split
        · exact h1 _
        · exact .quiet _
      · exact .quiet _
    · split <;> exact .quiet _
  unfold mixtureRunV
  split
  · exact .quiet _
  · split
    · exact hn _
    · split
      · exact hl _ _
      · exact hs _ _

theorem withClipsV_silent (E : Env σ K) (own : Option (Scalar K) × Option (Scalar K))
    {raw : Shown → ℕ → CM σ K (Samples K)} {verbose : Option Bool} {tn tc n : ℕ}
    (hv : resolveVerbose verbose n = false) (h : ∀ v : Shown, v.verbose = false → CM.Silent (raw v n))
    (lc rc : Option (Scalar K)) : CM.Silent (withClipsV E own raw verbose tn tc n lc rc) := by
  unfold withClipsV
  split
  · exact .quiet _
  · rw [hv]
    exact .bind (.quiet _) fun l => .bind (.quiet _) fun r => .bind (h _ rfl) fun s => .quiet _

theorem rawV_silent (E : Env σ K) (d : Obj (St σ K) K) : ∀ (v : Shown) (n : ℕ), v.verbose = false →
    n < 1000000 → CM.Silent (rawV E d v n) := by
  have hd : ∀ {n : ℕ}, n < 1000000 → resolveVerbose none n = false := by
    intro n hn; simp [resolveVerbose, hn]
  induction d with
  | lit v => intro _ n _ _; exact .quiet _
  | leaf l lc rc => intro _ n _ _; exact .quiet _
  | call exn ret next ih =>
    intro v n hv hn
    unfold rawV
    rw [hv]
    refine .bind ?_ fun states => ?_
    · split
      · exact .withBar _ (.replicateL (.bind (.quiet _) fun _ => .bind (.tick _) fun _ => .quiet _) n)
      · exact .replicateL (.quiet _) n
    · refine .withBar _ (.bind (.mapL (fun s => .bind ?_ fun _ => .bind (.tick _) fun _ => .quiet _) states)
        fun ss => .quiet _)
      split
      · exact .quiet _
      · exact withClipsV_silent E _ (hd (by norm_num)) (fun v' hv' => ih s v' 1 hv' (by norm_num)) _ _
  | mix k ds ws lc rc ih =>
    intro v n hv hn
    exact mixtureRunV_silent E hv
      (fun i => withClipsV_silent E _ (hd (by norm_num)) (fun v' hv' => ih i v' 1 hv' (by norm_num)) _ _)
      (fun i => withClipsV_silent E _ (hd hn) (fun v' hv' => ih i v' n hv' hn) _ _) _ _
  | un f left ih =>
    intro v n hv hn
    exact .bind (withClipsV_silent E _ (by simpa [resolveVerbose] using hv) (fun v' hv' => ih v' n hv' hn) _ _)
      fun _ => .quiet _
  | bin f left right ih1 ih2 =>
    intro v n hv hn
    exact .bind (withClipsV_silent E _ (by simpa [resolveVerbose] using hv) (fun v' hv' => ih1 v' n hv' hn) _ _)
      fun _ => .bind (withClipsV_silent E _ (by simpa [resolveVerbose] using hv)
        (fun v' hv' => ih2 v' n hv' hn) _ _) fun _ => .quiet _
  | userUn isDist val d left ihd ih =>
    intro v n hv hn
    refine .bind (withClipsV_silent E _ (by simpa [resolveVerbose] using hv)
      (fun v' hv' => ih v' n hv' hn) _ _) fun x => ?_
    split
    · exact withClipsV_silent E _ (hd hn) (fun v' hv' => ihd x v' n hv' hn) _ _
    · exact .quiet _
  | userBin isDist val d left right ihd ih1 ih2 =>
    intro v n hv hn
    refine .bind (withClipsV_silent E _ (by simpa [resolveVerbose] using hv)
      (fun v' hv' => ih1 v' n hv' hn) _ _) fun x => .bind (withClipsV_silent E _
      (by simpa [resolveVerbose] using hv) (fun v' hv' => ih2 v' n hv' hn) _ _) fun y => ?_
    split
    · exact withClipsV_silent E _ (hd hn) (fun v' hv' => ihd x y v' n hv' hn) _ _
    · exact .quiet _
  | corr g m members i ih =>
    intro v n hv hn
    unfold rawV
    refine .bind (.quiet _) fun kept => ?_
    split
    · exact .quiet _
    · exact .bind (.mapL (fun j => .bind (withClipsV_silent E _ (by simpa [resolveVerbose] using hv)
        (fun v' hv' => ih j v' n hv' hn) _ _) fun x => .quiet _) _) fun cols =>
        .bind (.quiet _) fun cols' => .quiet _

/-! ## Where the bars end -/

theorem modify_middle {α : Type} (f : α → α) (b : α) (rest : List α) :
    ∀ pre : List α, (pre ++ b :: rest).modify pre.length f = pre ++ f b :: rest
  | [] => rfl
  | a :: pre => by simpa using modify_middle f b rest pre

/-- `m` only adds new bars to the console, and if it succeeds, these satisfy `P`. -/
def CM.Fills {α : Type} (P : Bar → Prop) (m : CM σ K α) : Prop :=
  ∀ s o, ∃ new, (m s o).2 = o ++ new ∧ ∀ a s', (m s o).1 = (.ok a, s') → ∀ b ∈ new, P b

/-- `m` adds new bars and advances bar `i`; if it succeeds, by `k` in total, and the new bars satisfy `P`. -/
def CM.Counts {α : Type} (P : Bar → Prop) (i k : ℕ) (m : CM σ K α) : Prop :=
  ∀ s pre b rest, pre.length = i → (b.total = 0 → k = 0) →
    ∃ b' new, (m s (pre ++ b :: rest)).2 = pre ++ b' :: (rest ++ new) ∧
      ∀ a s', (m s (pre ++ b :: rest)).1 = (.ok a, s') →
        b' = { b with count := b.count + k } ∧ ∀ x ∈ new, P x

omit [Field K] [LinearOrder K] [FloorRing K] in
theorem CM.Fills.mono {α : Type} {P Q : Bar → Prop} (h : ∀ b, P b → Q b) {m : CM σ K α} (hm : m.Fills P) :
    m.Fills Q := by
  intro s o
  obtain ⟨new, h1, h2⟩ := hm s o
  exact ⟨new, h1, fun a s' ha b hb => h b (h2 a s' ha b hb)⟩

namespace CM.Fills

omit [Field K] [LinearOrder K] [FloorRing K]

variable {P : Bar → Prop}

theorem quiet {α : Type} (m : SM σ K α) : CM.Fills P (CM.quiet m) := fun _ o => ⟨[], by simp [CM.quiet], by simp⟩

theorem bind_of {α β : Type} {m : CM σ K α} {f : α → CM σ K β} (hm : CM.Fills P m)
    (hf : ∀ a, (∃ s o s', (m s o).1 = (.ok a, s')) → CM.Fills P (f a)) : CM.Fills P (CM.bind m f) := by
  intro s o
  obtain ⟨new, h1, h2⟩ := hm s o
  unfold CM.bind
  rcases hx : m s o with ⟨⟨_ | a, s'⟩, o'⟩
  · rw [hx] at h1; exact ⟨new, h1, by simp⟩
  · rw [hx] at h1 h2
    simp only at h1 h2
    subst h1
    obtain ⟨new2, h3, h4⟩ := hf a ⟨s, o, s', by rw [hx]⟩ s' (o ++ new)
    refine ⟨new ++ new2, by simp [h3], fun a' s'' ha b hb => ?_⟩
    rcases List.mem_append.1 hb with hb | hb
    · exact h2 a s' rfl b hb
    · exact h4 a' s'' ha b hb

theorem bind {α β : Type} {m : CM σ K α} {f : α → CM σ K β} (hm : CM.Fills P m)
    (hf : ∀ a, CM.Fills P (f a)) : CM.Fills P (CM.bind m f) := bind_of hm fun a _ => hf a

theorem mapL {α β : Type} {f : α → CM σ K β} (h : ∀ a, CM.Fills P (f a)) : ∀ l, CM.Fills P (CM.mapL f l)
  | [] => quiet _
  | a :: as => bind (h a) fun _ => bind (mapL h as) fun _ => quiet _

theorem replicateL {α : Type} {m : CM σ K α} (h : CM.Fills P m) : ∀ n, CM.Fills P (CM.replicateL m n)
  | 0 => quiet _
  | n + 1 => bind h fun _ => bind (replicateL h n) fun _ => quiet _

theorem tick (k : ℕ) : CM.Fills P (tickBar (σ := σ) (K := K) none k) :=
  fun _ o => ⟨[], by simp [tickBar], by simp⟩

theorem counts {α : Type} {m : CM σ K α} (h : CM.Fills P m) (i : ℕ) : CM.Counts P i 0 m := by
  intro s pre b rest _ _
  obtain ⟨new, h1, h2⟩ := h s (pre ++ b :: rest)
  exact ⟨b, new, by simpa using h1, fun a s' ha => ⟨rfl, h2 a s' ha⟩⟩

end CM.Fills

namespace CM.Counts

omit [Field K] [LinearOrder K] [FloorRing K]

variable {P : Bar → Prop} {i : ℕ}

theorem quiet {α : Type} (m : SM σ K α) : CM.Counts P i 0 (CM.quiet m) := (CM.Fills.quiet m).counts i

theorem tick (k : ℕ) : CM.Counts P i k (tickBar (σ := σ) (K := K) (some i) k) := by
  intro s pre b rest hi hk
  refine ⟨if 0 < b.total then { b with count := b.count + k } else b, [], ?_, fun a s' _ => ⟨?_, by simp⟩⟩
  · subst hi
    simpa [tickBar] using modify_middle _ b rest pre
  · split
    · rfl
    · rename_i h
      rw [hk (by omega)]
      rfl

theorem bind {α β : Type} {k1 k2 : ℕ} {m : CM σ K α} {f : α → CM σ K β} (hm : CM.Counts P i k1 m)
    (hf : ∀ a, CM.Counts P i k2 (f a)) : CM.Counts P i (k1 + k2) (CM.bind m f) := by
  intro s pre b rest hi hk
  obtain ⟨b1, new1, h1, h2⟩ := hm s pre b rest hi (fun h => by have := hk h; omega)
  unfold CM.bind
  rcases hx : m s (pre ++ b :: rest) with ⟨⟨_ | a, s'⟩, o'⟩
  · rw [hx] at h1
    simp only at h1
    subst h1
    exact ⟨b1, new1, rfl, by simp⟩
  · rw [hx] at h1 h2
    simp only at h1
    subst h1
    obtain ⟨hb, hn⟩ := h2 a s' rfl
    subst hb
    obtain ⟨b2, new2, h3, h4⟩ := hf a s' pre { b with count := b.count + k1 } (rest ++ new1) hi
      (fun h => by have := hk h; omega)
    refine ⟨b2, new1 ++ new2, by simp only [h3, List.append_assoc], fun a' s'' ha => ?_⟩
    obtain ⟨h5, h6⟩ := h4 a' s'' ha
    refine ⟨by rw [h5]; simp [Nat.add_assoc], fun x hx => ?_⟩
    rcases List.mem_append.1 hx with hx | hx
    · exact hn x hx
    · exact h6 x hx

theorem mapL {α β : Type} {k : ℕ} {f : α → CM σ K β} (h : ∀ a, CM.Counts P i k (f a)) :
    ∀ l, CM.Counts P i (l.length * k) (CM.mapL f l)
  | [] => by rw [List.length_nil, Nat.zero_mul]; exact quiet _
  | a :: as => by
    have := bind (h a) fun b => bind (mapL h as) fun bs => quiet (SM.pure (b :: bs))
    rw [List.length_cons, Nat.succ_mul, Nat.add_comm]
    exact this

theorem replicateL {α : Type} {k : ℕ} {m : CM σ K α} (h : CM.Counts P i k m) :
    ∀ n, CM.Counts P i (n * k) (CM.replicateL m n)
  | 0 => by rw [Nat.zero_mul]; exact quiet _
  | n + 1 => by
    have := bind h fun b => bind (replicateL h n) fun bs => quiet (SM.pure (b :: bs))
    rw [Nat.succ_mul, Nat.add_comm]
    exact this

end CM.Counts

omit [Field K] [LinearOrder K] [FloorRing K] in
theorem CM.Fills.withBar {α : Type} {P : Bar → Prop} {verbose : Bool} {total k : ℕ}
    {body : Option ℕ → CM σ K α} (h0 : CM.Fills P (body none)) (h1 : ∀ i, CM.Counts P i k (body (some i)))
    (hk : total = 0 → k = 0) (hP : P ⟨total, k, true⟩) : CM.Fills P (withBar verbose total body) := by
  cases verbose
  · refine CM.Fills.bind_of (fun s o => ⟨[], by simp [initBar], by simp⟩) fun p hp => ?_
    obtain ⟨s, o, s', hp⟩ := hp
    have : p = none := by simpa [initBar] using congrArg Prod.fst hp.symm
    subst this
    exact .bind h0 fun r => .bind (fun s o => ⟨[], by simp [flushBar], by simp⟩) fun _ => .quiet _
  · intro s o
    obtain ⟨b', new, e1, e2⟩ := h1 o.length s o ⟨total, 0, false⟩ [] rfl hk
    rw [List.nil_append] at e1
    show ∃ new, (CM.bind (body (some o.length)) (fun r => CM.bind (flushBar (some o.length)) fun _ =>
      CM.quiet (SM.pure r)) s (o ++ [⟨total, 0, false⟩])).2 = o ++ new ∧ ∀ a s', (CM.bind (body (some o.length))
      (fun r => CM.bind (flushBar (some o.length)) fun _ => CM.quiet (SM.pure r)) s
      (o ++ [⟨total, 0, false⟩])).1 = (.ok a, s') → ∀ b ∈ new, P b
    unfold CM.bind
    rcases hx : body (some o.length) s (o ++ [⟨total, 0, false⟩]) with ⟨⟨_ | a, s'⟩, o'⟩
    · rw [hx] at e1
      refine ⟨b' :: new, ?_, ?_⟩
      · simp only [hx]; exact e1
      · simp only [hx]; simp
    · rw [hx] at e1 e2
      simp only at e1
      subst e1
      obtain ⟨hb, hn⟩ := e2 a s' rfl
      subst hb
      refine ⟨⟨total, 0 + k, true⟩ :: new, ?_, fun _ _ _ b hb => ?_⟩
      · simp only [hx, flushBar, CM.quiet]
        exact modify_middle _ _ new o
      · rcases List.mem_cons.1 hb with rfl | hb
        · simpa using hP
        · exact hn b hb

/-- A bar that was closed exactly at its end, or, for several cores, one that counted the `n` samples of the
parent in steps of the number of cores. -/
def BarEnds (v : Shown) (n : ℕ) (b : Bar) : Prop :=
  b.closed = true ∧ (b.count = b.total ∨ v.tqdmCores ≠ 1 ∧ b.total = v.tqdmN ∧ b.count = n * v.tqdmCores)

theorem barEnds_total {v : Shown} {n : ℕ} : BarEnds v n ⟨v.total n, n * v.tqdmCores, true⟩ := by
  refine ⟨rfl, ?_⟩
  by_cases h : v.tqdmCores = 1
  · exact Or.inl (by simp [Shown.total, h])
  · exact Or.inr ⟨h, by simp [Shown.total, h], rfl⟩

theorem barEnds_of_one {v w : Shown} {n m : ℕ} (hw : w.tqdmCores = 1) {b : Bar} (h : BarEnds w m b) :
    BarEnds v n b := by
  obtain ⟨h1, h2 | h2⟩ := h
  · exact ⟨h1, Or.inl h2⟩
  · exact absurd hw h2.1

theorem mixtureRunV_fills {ι : Type} {E : Env σ K} (hE : E.gen.Lawful) {v : Shown} {n : ℕ}
    (hv : 0 < v.total n) {comp : ι → ℕ → CM σ K (Samples K)}
    (h1 : ∀ i, CM.Fills (BarEnds v n) (comp i 1)) (hn : ∀ i, CM.Fills (BarEnds v n) (comp i n)) (ws : List K)
    (vals : List ι) : CM.Fills (BarEnds v n) (mixtureRunV E v comp ws vals n) := by
  have hl : ∀ ws' vals', CM.Fills (BarEnds v n) (mixtureLargeV E v comp ws' vals' n) := by
    intro ws' vals'
    unfold mixtureLargeV
    refine .bind (.withBar (k := vals'.length * (1 + 0)) (.mapL (fun i => .bind (.tick _) fun _ => hn i) _)
      (fun i => .mapL (fun j => .bind (.tick _) fun _ => (hn j).counts i) _) (by simp)
      ⟨rfl, Or.inl (by simp)⟩) fun pre => ?_
    refine .bind_of (.quiet _) fun us hus => ?_
    have hlen : us.length = n := by
      obtain ⟨s, o, s', h⟩ := hus
      simp only [CM.quiet, drawSM] at h
      have h' : (E.gen.draw (.uniform 0 1) n s.rng).1 = .ok us := congrArg Prod.fst h
      exact (hE (.uniform 0 1) n s.rng us (E.gen.draw (.uniform 0 1) n s.rng).2 (Prod.ext h' rfl)).1
    refine .withBar (k := n * v.tqdmCores) (.bind (.mapL (fun q => .bind (.tick _) fun _ => .quiet _) _)
      fun _ => .quiet _) (fun i => ?_) (fun h => by omega) barEnds_total
    have := CM.Counts.bind (CM.Counts.mapL (P := BarEnds v n) (i := i) (fun q : Scalar K × ℕ =>
      CM.Counts.bind (.tick v.tqdmCores) fun _ =>
        CM.Counts.quiet (σ := σ) (K := K) (SM.lift (pickValue ws' pre q))) us.zipIdx) fun vs =>
      CM.Counts.quiet (SM.pure (Samples.simplify (.arr (npArray E.fmt vs))))
    simpa [hlen] using this
  have hs : ∀ ws' vals', CM.Fills (BarEnds v n) (mixtureSmallV E v comp ws' vals' n) := by
    intro ws' vals'
    unfold mixtureSmallV
    have hq : ∀ ss : List (Samples K), CM.Fills (σ := σ) (K := K) (BarEnds v n) (match ss with
      | [s] => CM.quiet (SM.pure s)
      | ss => CM.quiet (SM.lift (gather E ss))) := by
      intro ss; split <;> exact .quiet _
    have hm : ∀ us : List (Scalar K), CM.Fills (BarEnds v n) (match us with
      | [.flt u] => (match vals'[pickSmall ws' u]? with
        | some i => comp i 1
        | none => CM.quiet (SM.throw .indexError))
      | _ => CM.quiet (SM.throw .unmodelled)) := by
      intro us
      split
      · split
        · exact h1 _
        · exact .quiet _
      · exact .quiet _
    refine .withBar (k := n * v.tqdmCores)
      (.bind (.replicateL (.bind (.quiet _) fun us => .bind (.tick _) fun _ => hm us) n) hq) (fun i => ?_)
      (fun h => by omega) barEnds_total
    have := CM.Counts.bind (CM.Counts.replicateL (CM.Counts.bind (CM.Counts.quiet (P := BarEnds v n) (i := i)
      (drawSM E (.uniform 0 1) 1)) fun us => CM.Counts.bind (.tick v.tqdmCores) fun _ => (hm us).counts i) n)
      fun ss => (hq ss).counts i
    rw [show n * (0 + (v.tqdmCores + 0)) + 0 = n * v.tqdmCores by simp] at this
    exact this
  unfold mixtureRunV
  split
  · exact .quiet _
  · split
    · exact hn _
    · split
      · exact hl _ _
      · exact hs _ _

theorem withClipsV_fills {P : Bar → Prop} (E : Env σ K) (own : Option (Scalar K) × Option (Scalar K))
    {raw : Shown → ℕ → CM σ K (Samples K)} {verbose : Option Bool} {tn tc n : ℕ}
    (h : 1 ≤ n → CM.Fills P (raw ⟨resolveVerbose verbose n, tn, tc⟩ n))
    (lc rc : Option (Scalar K)) : CM.Fills P (withClipsV E own raw verbose tn tc n lc rc) := by
  unfold withClipsV
  split
  · exact .quiet _
  · rename_i hn
    exact .bind (.quiet _) fun l => .bind (.quiet _) fun r => .bind (h (by omega)) fun s => .quiet _

theorem rawV_fills {E : Env σ K} (hE : E.gen.Lawful) (d : Obj (St σ K) K) : ∀ (v : Shown) (n : ℕ), 1 ≤ n →
    0 < v.total n → CM.Fills (BarEnds v n) (rawV E d v n) := by
  have key : ∀ {d' : Obj (St σ K) K}, (∀ (v : Shown) (n : ℕ), 1 ≤ n → 0 < v.total n →
      CM.Fills (BarEnds v n) (rawV E d' v n)) → ∀ (v : Shown) (n m : ℕ) (verbose : Option Bool),
      CM.Fills (BarEnds v n) (withClipsV E d'.clips (rawV E d') verbose 1 1 m none none) := by
    intro d' ih v n m verbose
    refine withClipsV_fills E _ (fun hm => ?_) _ _
    exact (ih ⟨resolveVerbose verbose m, 1, 1⟩ m hm (by simp [Shown.total]; omega)).mono
      fun b hb => barEnds_of_one rfl hb
  induction d with
  | lit v => intro _ n _ _; exact .quiet _
  | leaf l lc rc => intro _ n _ _; exact .quiet _
  | call exn ret next ih =>
    intro v n hn hv
    refine .bind ?_ fun states => ?_
    · split
      · refine .withBar (k := n * v.tqdmCores)
          (.replicateL (.bind (.quiet _) fun _ => .bind (.tick _) fun _ => .quiet _) n) (fun i => ?_)
          (fun h => by omega) barEnds_total
        have := CM.Counts.replicateL (CM.Counts.bind (CM.Counts.quiet (P := BarEnds v n) (i := i)
          (callOnce exn next)) fun s => CM.Counts.bind (.tick v.tqdmCores) fun _ =>
          CM.Counts.quiet (SM.pure s)) n
        simpa using this
      · exact .replicateL (.quiet _) n
    · have hx : ∀ s, CM.Fills (BarEnds v n) (if (ret s).isLit then CM.quiet (SM.pure (.scalar (ret s).litVal))
          else withClipsV E (ret s).clips (rawV E (ret s)) none 1 1 1 none none) := by
        intro s
        split
        · exact .quiet _
        · exact key (ih s) v n 1 none
      refine .withBar (k := states.length * v.tqdmCores)
        (.bind (.mapL (fun s => .bind (hx s) fun _ => .bind (.tick _) fun _ => .quiet _) _) fun _ => .quiet _)
        (fun i => ?_) (fun h => h) ⟨rfl, Or.inl rfl⟩
      have := CM.Counts.bind (CM.Counts.mapL (fun s => CM.Counts.bind ((hx s).counts i) fun x =>
        CM.Counts.bind (.tick v.tqdmCores) fun _ => CM.Counts.quiet (SM.pure x)) states) fun ss =>
        CM.Counts.quiet (SM.lift (gather E ss))
      simpa using this
  | mix k ds ws lc rc ih =>
    intro v n hn hv
    exact mixtureRunV_fills hE hv (fun i => key (ih i) v n 1 none) (fun i => key (ih i) v n n none) _ _
  | un f left ih =>
    intro v n hn hv
    exact .bind (key ih v n n _) fun _ => .quiet _
  | bin f left right ih1 ih2 =>
    intro v n hn hv
    exact .bind (key ih1 v n n _) fun _ => .bind (key ih2 v n n _) fun _ => .quiet _
  | userUn isDist val d left ihd ih =>
    intro v n hn hv
    refine .bind (key ih v n n _) fun x => ?_
    split
    · exact key (ihd x) v n n _
    · exact .quiet _
  | userBin isDist val d left right ihd ih1 ih2 =>
    intro v n hn hv
    refine .bind (key ih1 v n n _) fun x => .bind (key ih2 v n n _) fun y => ?_
    split
    · exact key (ihd x y) v n n _
    · exact .quiet _
  | corr g m members i ih =>
    intro v n hn hv
    unfold rawV
    refine .bind (.quiet _) fun kept => ?_
    split
    · exact .quiet _
    · exact .bind (.mapL (fun j => .bind (key (ih j) v n n _) fun x => .quiet _) _) fun cols =>
        .bind (.quiet _) fun cols' => .quiet _

end Verif
