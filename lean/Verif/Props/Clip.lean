import Verif.Lemmas.Arith
import Verif.Lemmas.DemoGen

/-! # C12: clipping bounds -/

namespace Verif

variable {σ K : Type} [Field K] [LinearOrder K] [FloorRing K] [IsStrictOrderedRing K]

/-- The lower bounds that apply to a call: the `lclip` of the call and of the distribution. -/
def lowerBounds {S : Type} (d : Obj S K) (lc : Option (Scalar K)) : List (Scalar K) :=
  lc.toList ++ d.clips.1.toList

/-- The upper bounds that apply to a call. -/
def upperBounds {S : Type} (d : Obj S K) (rc : Option (Scalar K)) : List (Scalar K) :=
  rc.toList ++ d.clips.2.toList

/-- The same distribution without its own bounds (`lclip=None, rclip=None`). -/
def Obj.unclip {S : Type} : Obj S K → Obj S K
  | .leaf l _ _ => .leaf l none none
  | .mix k ds ws _ _ => .mix k ds ws none none
  | d => d

/-- Not a correlated variable (those are clipped before the joint reordering as well). -/
def Obj.notCorr {S : Type} : Obj S K → Prop
  | .corr _ _ _ _ => False
  | _ => True

theorem combineL_cases {a b l : Option (Scalar K)} (h : combineL a b = .ok l) :
    (a.toList ++ b.toList = [] ∧ l = none) ∨
    (∃ v, a.toList ++ b.toList = [v] ∧ l = some v) ∨
    (∃ v w u x y, a.toList ++ b.toList = [v, w] ∧ l = some u ∧ v.val? = some x ∧ w.val? = some y ∧
      u.val? = some (max x y)) := by
  cases a with
  | none =>
    cases b with
    | none => cases h; exact Or.inl ⟨rfl, rfl⟩
    | some b => cases h; exact Or.inr (Or.inl ⟨b, rfl, rfl⟩)
  | some a =>
    cases b with
    | none => cases h; exact Or.inr (Or.inl ⟨a, rfl, rfl⟩)
    | some b =>
      simp only [combineL, Except.bind_ok_iff] at h
      obtain ⟨u, h1, h2⟩ := h
      cases h2
      obtain ⟨x, y, hx, hy, hu⟩ := pyMax_ok h1
      exact Or.inr (Or.inr ⟨a, b, u, x, y, rfl, rfl, hx, hy, hu⟩)

theorem combineR_cases {a b l : Option (Scalar K)} (h : combineR a b = .ok l) :
    (a.toList ++ b.toList = [] ∧ l = none) ∨
    (∃ v, a.toList ++ b.toList = [v] ∧ l = some v) ∨
    (∃ v w u x y, a.toList ++ b.toList = [v, w] ∧ l = some u ∧ v.val? = some x ∧ w.val? = some y ∧
      u.val? = some (min x y)) := by
  cases a with
  | none =>
    cases b with
    | none => cases h; exact Or.inl ⟨rfl, rfl⟩
    | some b => cases h; exact Or.inr (Or.inl ⟨b, rfl, rfl⟩)
  | some a =>
    cases b with
    | none => cases h; exact Or.inr (Or.inl ⟨a, rfl, rfl⟩)
    | some b =>
      simp only [combineR, Except.bind_ok_iff] at h
      obtain ⟨u, h1, h2⟩ := h
      cases h2
      obtain ⟨x, y, hx, hy, hu⟩ := pyMin_ok h1
      exact Or.inr (Or.inr ⟨a, b, u, x, y, rfl, rfl, hx, hy, hu⟩)

theorem applyL_clamp {powf : K → K → Option K} {a b l : Option (Scalar K)} {x z : Samples K}
    (hc : combineL a b = .ok l) (h : applyL powf l x = .ok z) :
    (a.toList ++ b.toList = [] ∧ z = x) ∨
    List.Forall₂ (fun v0 v => ∃ (x : K) (ls : List K), v0.val? = some x ∧
      (a.toList ++ b.toList).map Scalar.val? = ls.map some ∧ v.val? = some (ls.foldl max x))
      x.toList z.toList := by
  rcases combineL_cases hc with ⟨h1, rfl⟩ | ⟨v, h1, rfl⟩ | ⟨v, w, u, p, q, h1, rfl, hp, hq, hu⟩
  · cases h; exact Or.inl ⟨h1, rfl⟩
  · refine Or.inr ((applyL_values h).imp ?_)
    rintro v0 v' ⟨x, y, hx, hy, hv⟩
    exact ⟨x, [y], hx, by simp [h1, hy], hv⟩
  · refine Or.inr ((applyL_values h).imp ?_)
    rintro v0 v' ⟨x, y, hx, hy, hv⟩
    rw [hu] at hy
    cases hy
    refine ⟨x, [p, q], hx, by simp [h1, hp, hq], ?_⟩
    simp only [List.foldl_cons, List.foldl_nil, max_assoc]
    exact hv

theorem applyR_clamp {powf : K → K → Option K} {a b l : Option (Scalar K)} {x z : Samples K}
    (hc : combineR a b = .ok l) (h : applyR powf l x = .ok z) :
    (a.toList ++ b.toList = [] ∧ z = x) ∨
    List.Forall₂ (fun v0 v => ∃ (x : K) (ls : List K), v0.val? = some x ∧
      (a.toList ++ b.toList).map Scalar.val? = ls.map some ∧ v.val? = some (ls.foldl min x))
      x.toList z.toList := by
  rcases combineR_cases hc with ⟨h1, rfl⟩ | ⟨v, h1, rfl⟩ | ⟨v, w, u, p, q, h1, rfl, hp, hq, hu⟩
  · cases h; exact Or.inl ⟨h1, rfl⟩
  · refine Or.inr ((applyR_values h).imp ?_)
    rintro v0 v' ⟨x, y, hx, hy, hv⟩
    exact ⟨x, [y], hx, by simp [h1, hy], hv⟩
  · refine Or.inr ((applyR_values h).imp ?_)
    rintro v0 v' ⟨x, y, hx, hy, hv⟩
    rw [hu] at hy
    cases hy
    refine ⟨x, [p, q], hx, by simp [h1, hp, hq], ?_⟩
    simp only [List.foldl_cons, List.foldl_nil, min_assoc]
    exact hv

theorem clamp_of_combine {powf : K → K → Option K} {a b c d l r : Option (Scalar K)}
    {x z : Samples K} (hl : combineL a b = .ok l) (hr : combineR c d = .ok r)
    (h : applyClips powf l r x = .ok z) :
    List.Forall₂ (ClampOf (a.toList ++ b.toList) (c.toList ++ d.toList)) x.toList z.toList := by
  simp only [applyClips, Except.bind_ok_iff] at h
  obtain ⟨y, h1, h2⟩ := h
  rcases applyL_clamp hl h1 with ⟨e1, rfl⟩ | f1
  · rcases applyR_clamp hr h2 with ⟨e2, rfl⟩ | f2
    · rw [e1, e2]
      exact List.forall₂_same.2 fun v _ => Or.inl ⟨rfl, rfl, rfl⟩
    · refine f2.imp ?_
      rintro v0 v ⟨x, hs, hx, hm, hv⟩
      exact Or.inr ⟨x, [], hs, hx, by simp [e1], hm, hv⟩
  · rcases applyR_clamp hr h2 with ⟨e2, rfl⟩ | f2
    · refine f1.imp ?_
      rintro v0 v ⟨x, ls, hx, hm, hv⟩
      exact Or.inr ⟨x, ls, [], hx, hm, by simp [e2], hv⟩
    · rw [List.forall₂_iff_get] at f1 f2 ⊢
      refine ⟨f1.1.trans f2.1, ?_⟩
      intro i hi1 hi2
      have hm : i < y.toList.length := by rw [← f1.1]; exact hi1
      obtain ⟨x, ls, hx, hls, hv⟩ := f1.2 i hi1 hm
      obtain ⟨x', hs, hx', hhs, hv'⟩ := f2.2 i hm hi2
      rw [hv] at hx'
      cases hx'
      exact Or.inr ⟨x, ls, hs, hx, hls, hhs, hv'⟩

/-- **C12.** A clipped draw is the elementwise clamp of the unclipped draw: whenever
`sample(d, n, lclip, rclip)` succeeds from generator state `s`, sampling the same distribution without
any bounds from `s` succeeds too, consumes the same randomness, and each returned value is the clamp
of the corresponding unclipped value to all bounds, of the call and of the distribution. -/
theorem C12_clamp_of_unclipped (E : Env σ K) (d : Obj (St σ K) K) (hd : d.notCorr) (n : ℕ)
    (lc rc : Option (Scalar K)) (s s' : St σ K) (z : Samples K)
    (h : sampleObj E d n lc rc s = (.ok z, s')) :
    ∃ z0, sampleObj E d.unclip n none none s = (.ok z0, s') ∧
      List.Forall₂ (ClampOf (lowerBounds d lc) (upperBounds d rc)) z0.toList z.toList := by
  obtain ⟨hn, l, r, x, h1, h2, h3, h4⟩ := withClips_ok.1 h
  refine ⟨x, ?_, clamp_of_combine h1 h2 h4⟩
  have hraw : rawObj E d.unclip n s = (.ok x, s') := by
    rw [← h3]; cases d <;> rfl
  have hcl : d.unclip.clips = (none, none) := by
    cases d <;> first | rfl | exact hd.elim
  unfold sampleObj
  rw [withClips_ok, hcl]
  exact ⟨hn, none, none, x, rfl, rfl, hraw, rfl⟩

theorem foldl_min_le (x : K) (hs : List K) : hs.foldl min x ≤ x ∧ ∀ h ∈ hs, hs.foldl min x ≤ h := by
  induction hs generalizing x with
  | nil => simp
  | cons a hs ih =>
    have := ih (min x a)
    simp only [List.foldl_cons]
    refine ⟨this.1.trans (min_le_left _ _), ?_⟩
    intro h hm
    rcases List.mem_cons.1 hm with rfl | hm
    · exact this.1.trans (min_le_right _ _)
    · exact this.2 h hm

theorem le_foldl_max (x : K) (ls : List K) : x ≤ ls.foldl max x ∧ ∀ l ∈ ls, l ≤ ls.foldl max x := by
  induction ls generalizing x with
  | nil => simp
  | cons a ls ih =>
    have := ih (max x a)
    simp only [List.foldl_cons]
    refine ⟨(le_max_left _ _).trans this.1, ?_⟩
    intro h hm
    rcases List.mem_cons.1 hm with rfl | hm
    · exact (le_max_right _ _).trans this.1
    · exact this.2 h hm

theorem le_foldl_min {x c : K} {hs : List K} (hx : c ≤ x) (hh : ∀ h ∈ hs, c ≤ h) :
    c ≤ hs.foldl min x := by
  induction hs generalizing x with
  | nil => exact hx
  | cons a hs ih =>
    exact ih (le_min hx (hh a (by simp))) fun h hm => hh h (by simp [hm])

theorem foldl_max_le {x c : K} {ls : List K} (hx : x ≤ c) (hh : ∀ l ∈ ls, l ≤ c) :
    ls.foldl max x ≤ c := by
  induction ls generalizing x with
  | nil => exact hx
  | cons a hs ih =>
    exact ih (max_le hx (hh a (by simp))) fun h hm => hh h (by simp [hm])

theorem mem_val_of_map {bs : List (Scalar K)} {ls : List K} (h : bs.map Scalar.val? = ls.map some)
    {b : Scalar K} (hb : b ∈ bs) : ∃ y ∈ ls, b.val? = some y := by
  have : b.val? ∈ ls.map some := h ▸ List.mem_map_of_mem hb
  obtain ⟨y, hy, he⟩ := List.mem_map.1 this
  exact ⟨y, hy, he.symm⟩

theorem mem_bound_of_map {bs : List (Scalar K)} {ls : List K} (h : bs.map Scalar.val? = ls.map some)
    {y : K} (hy : y ∈ ls) : ∃ b ∈ bs, b.val? = some y := by
  have : some y ∈ bs.map Scalar.val? := h ▸ List.mem_map_of_mem hy
  obtain ⟨b, hb, he⟩ := List.mem_map.1 this
  exact ⟨b, hb, he⟩

/-- **C12.** Every returned sample respects every upper bound that applies, and every lower bound too
unless some lower bound exceeds some upper bound (contradictory bounds).  This includes correlated
variables. -/
theorem C12_bounds (E : Env σ K) (d : Obj (St σ K) K) (n : ℕ)
    (lc rc : Option (Scalar K)) (s s' : St σ K) (z : Samples K)
    (h : sampleObj E d n lc rc s = (.ok z, s')) (v : Scalar K) (hv : v ∈ z.toList) :
    (∀ u ∈ upperBounds d rc, ScalarLe v u) ∧
    ((∀ l ∈ lowerBounds d lc, ∀ u ∈ upperBounds d rc, ScalarLe l u) →
      ∀ l ∈ lowerBounds d lc, ScalarLe l v) := by
  obtain ⟨hn, l, r, x, h1, h2, h3, h4⟩ := withClips_ok.1 h
  have hf := clamp_of_combine h1 h2 h4
  obtain ⟨i, hi, rfl⟩ := List.mem_iff_getElem.1 hv
  have hx : i < x.toList.length := by rw [hf.length_eq]; exact hi
  have hc := hf.get hx hi
  simp only [List.get_eq_getElem] at hc
  rcases hc with ⟨e1, e2, -⟩ | ⟨x0, ls, hs, hx0, hls, hhs, hval⟩
  · constructor
    · intro u hu
      unfold upperBounds at hu
      rw [e2] at hu; simp at hu
    · intro _ u hu
      unfold lowerBounds at hu
      rw [e1] at hu; simp at hu
  · constructor
    · intro u hu
      obtain ⟨y, hy, huy⟩ := mem_val_of_map hhs hu
      exact ⟨_, y, hval, huy, (foldl_min_le _ _).2 y hy⟩
    · intro hcons l hl
      obtain ⟨y, hy, hly⟩ := mem_val_of_map hls hl
      refine ⟨y, _, hly, hval, le_foldl_min ((le_foldl_max _ _).2 y hy) ?_⟩
      intro b hb
      obtain ⟨u, hu, huy⟩ := mem_bound_of_map hhs hb
      obtain ⟨p, q, hp, hq, hpq⟩ := hcons l hl u hu
      rw [hly] at hp; rw [huy] at hq
      cases hp; cases hq
      exact hpq

/-- `d` was built with `lclip = a` and `rclip = b`: a basic distribution or a mixture has the bounds it was
given, a correlated variable those of the distribution it was made from, and nothing else has bounds. -/
inductive BuiltWith {S : Type} : Obj S K → Option (Scalar K) → Option (Scalar K) → Prop
  | leaf (l : Leaf K) (a b) : BuiltWith (.leaf l a b) a b
  | mix (k : ℕ) (ds : Fin k → Obj S K) (ws : List K) (a b) : BuiltWith (.mix k ds ws a b) a b
  | corr (g m : ℕ) (members : Fin m → Obj S K) (i : Fin m) (a b) (h : BuiltWith (members i) a b) :
      BuiltWith (.corr g m members i) a b

omit [FloorRing K] [IsStrictOrderedRing K] in
theorem BuiltWith.clips_eq {S : Type} {d : Obj S K} {a b : Option (Scalar K)} (h : BuiltWith d a b) :
    d.clips = (a, b) := by
  induction h with
  | leaf l a b => rfl
  | mix k ds ws a b => rfl
  | corr g m members i a b h ih => exact ih

/-- **C12**, in terms of the bounds a distribution was built with: every sample is at most each upper bound, and
at least each lower bound if the bounds are in order. -/
theorem C12_built_with (E : Env σ K) (d : Obj (St σ K) K) (a b : Option (Scalar K)) (hd : BuiltWith d a b)
    (n : ℕ) (lc rc : Option (Scalar K)) (s s' : St σ K) (z : Samples K)
    (h : sampleObj E d n lc rc s = (.ok z, s')) (v : Scalar K) (hv : v ∈ z.toList) :
    (∀ u, rc = some u ∨ b = some u → ScalarLe v u) ∧
    ((∀ l u, (lc = some l ∨ a = some l) → (rc = some u ∨ b = some u) → ScalarLe l u) →
      ∀ l, lc = some l ∨ a = some l → ScalarLe l v) := by
  have hc := hd.clips_eq
  have hl : ∀ l, l ∈ lowerBounds d lc ↔ lc = some l ∨ a = some l := fun l => by
    simp [lowerBounds, hc]
  have hu : ∀ u, u ∈ upperBounds d rc ↔ rc = some u ∨ b = some u := fun u => by
    simp [upperBounds, hc]
  have := C12_bounds E d n lc rc s s' z h v hv
  simp only [hl, hu] at this
  exact ⟨this.1, fun h l hl => this.2 (fun l hl u hu => h l u hl hu) l hl⟩

/-- A mixture with a lower bound, as a member of a correlation group. -/
example : BuiltWith (.corr 0 1 (fun _ => .mix 1 (fun _ => .leaf (.normal 0 1) none none) [1] (some (.int 0)) none) 0 :
    Obj (St ℕ ℚ) ℚ) (some (.int 0)) none := .corr _ _ _ _ _ _ (.mix _ _ _ _ _)

/-- **C12.** A value that already satisfies all bounds is returned with its value unchanged. -/
theorem C12_inside_unchanged (lows highs : List (Scalar K)) (v0 v : Scalar K)
    (h : ClampOf lows highs v0 v) (hl : ∀ l ∈ lows, ScalarLe l v0)
    (hu : ∀ u ∈ highs, ScalarLe v0 u) : v = v0 ∨ (∃ x, v.val? = some x ∧ v0.val? = some x) := by
  rcases h with ⟨-, -, rfl⟩ | ⟨x, ls, hs, hx, hls, hhs, hv⟩
  · exact Or.inl rfl
  · refine Or.inr ⟨_, hv, ?_⟩
    rw [hx]
    congr 1
    have e1 : ls.foldl max x = x := by
      refine le_antisymm (foldl_max_le le_rfl ?_) (le_foldl_max _ _).1
      intro y hy
      obtain ⟨b, hb, hby⟩ := mem_bound_of_map hls hy
      obtain ⟨p, q, hp, hq, hpq⟩ := hl b hb
      rw [hby] at hp; rw [hx] at hq
      cases hp; cases hq; exact hpq
    rw [e1]
    refine le_antisymm (le_foldl_min le_rfl ?_) (foldl_min_le _ _).1
    intro y hy
    obtain ⟨b, hb, hby⟩ := mem_bound_of_map hhs hy
    obtain ⟨p, q, hp, hq, hpq⟩ := hu b hb
    rw [hby] at hq; rw [hx] at hp
    cases hp; cases hq; exact hpq

/-- The hypotheses are met: a normal distribution with its own `lclip=1/5` sampled three times with
`rclip=1/2`; the unclipped draw is 0, 3/10, 6/10. -/
example : (sampleObj demoEnv (.leaf (.normal 0 1) (some (.flt (1 / 5))) none) 3 none
      (some (.flt (1 / 2))) (demoSt 0)).1
    = .ok (.arr [.flt (1 / 5), .flt (3 / 10), .flt (1 / 2)]) := by decide +kernel

end Verif
