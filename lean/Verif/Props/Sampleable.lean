import Verif.Props.Constructors
import Verif.Props.Support
import Verif.Model.Params
import Verif.Lemmas.DemoGen

/-!
# C75: a constructed distribution can be sampled
-/

namespace Verif

variable {σ K : Type} [Field K] [LinearOrder K] [FloorRing K] [IsStrictOrderedRing K]

omit [LinearOrder K] [FloorRing K] [IsStrictOrderedRing K] [Field K] in
theorem mapExcept_total {α β : Type} {f : α → Except PyErr β} {P : α → Prop} {R : β → Prop}
    (h : ∀ a, P a → ∃ b, f a = .ok b ∧ R b) :
    ∀ (as : List α), (∀ a ∈ as, P a) → ∃ bs, mapExcept f as = .ok bs ∧ bs.length = as.length ∧
      ∀ b ∈ bs, R b := by
  intro as
  induction as with
  | nil => intro _; exact ⟨[], rfl, rfl, by simp⟩
  | cons a as ih =>
    intro ha
    obtain ⟨b, hb, hr⟩ := h a (ha a (by simp))
    obtain ⟨bs, hbs, hl, hrs⟩ := ih fun a h => ha a (by simp [h])
    refine ⟨b :: bs, ?_, by simp [hl], ?_⟩
    · simp only [mapExcept, hb, hbs]; rfl
    · intro c hc
      rcases List.mem_cons.1 hc with rfl | hc
      · exact hr
      · exact hrs c hc

omit [IsStrictOrderedRing K] in
theorem binSamples_total {powf : K → K → Option K} {o : BinOp} {P Q R : Scalar K → Prop}
    (hop : ∀ a b, P a → Q b →
      (∃ c, pyBin powf o a b = .ok c ∧ R c) ∧ ∃ c, npBin powf o a b = .ok c ∧ R c)
    {x y : Samples K} (hx : ∀ v ∈ x.toList, P v) (hy : ∀ v ∈ y.toList, Q v)
    (hlen : x.toList.length = y.toList.length ∨ y.toList.length = 1) :
    ∃ z, binSamples powf o x y = .ok z ∧ z.toList.length = x.toList.length ∧
      ∀ v ∈ z.toList, R v := by
  have hb : ∃ ps, broadcast x.toList y.toList = .ok ps ∧ ps.length = x.toList.length ∧
      ∀ p ∈ ps, P p.1 ∧ Q p.2 := by
    by_cases he : x.toList.length = y.toList.length
    · refine ⟨x.toList.zip y.toList, by simp [broadcast, he], by simp [he], ?_⟩
      intro p hp
      have := List.of_mem_zip hp
      exact ⟨hx _ this.1, hy _ this.2⟩
    · have h1 : y.toList.length = 1 := by tauto
      obtain ⟨b, hb⟩ := List.length_eq_one_iff.1 h1
      refine ⟨x.toList.map fun a => (a, b), ?_, by simp, ?_⟩
      · unfold broadcast
        rw [if_neg he, hb]
        rw [h1] at he
        cases hxl : x.toList with
        | nil => rfl
        | cons a as =>
          cases as with
          | nil => rw [hxl] at he; simp at he
          | cons c cs => rfl
      · intro p hp
        obtain ⟨a, ha, rfl⟩ := List.mem_map.1 hp
        exact ⟨hx a ha, hy b (by rw [hb]; simp)⟩
  obtain ⟨ps, h1, h2, h3⟩ := hb
  obtain ⟨bs, h4, h5, h6⟩ := mapExcept_total (f := fun p : Scalar K × Scalar K => npBin powf o p.1 p.2)
    (P := fun p => P p.1 ∧ Q p.2) (R := R) (fun p hp => (hop _ _ hp.1 hp.2).2) ps h3
  have key : (do
      let ps ← broadcast x.toList y.toList
      let rs ← mapExcept (fun p : Scalar K × Scalar K => npBin powf o p.1 p.2) ps
      Except.ok (Samples.arr rs)) = .ok (.arr bs) := by
    rw [h1]
    show (do let rs ← mapExcept (fun p : Scalar K × Scalar K => npBin powf o p.1 p.2) ps
             Except.ok (Samples.arr rs)) = _
    rw [h4]
    rfl
  cases x with
  | scalar a =>
    cases y with
    | scalar b =>
      obtain ⟨c, hc, hr⟩ := (hop a b (hx a (by simp [Samples.toList]))
        (hy b (by simp [Samples.toList]))).1
      refine ⟨.scalar c, ?_, rfl, by simpa [Samples.toList] using hr⟩
      simp only [binSamples, hc]
      rfl
    | arr bs' => exact ⟨.arr bs, key, by simp [Samples.toList, h5, h2], h6⟩
  | arr as => exact ⟨.arr bs, key, by simpa [Samples.toList] using h5.trans h2, h6⟩

/-- A number. -/
def IsNum (v : Scalar K) : Prop := ∃ x, v.num? = some x

/-- A positive float. -/
def IsPos (v : Scalar K) : Prop := ∃ x, v = .flt x ∧ 0 < x

omit [IsStrictOrderedRing K] [FloorRing K] [LinearOrder K] [Field K] in
theorem isNum_of_val {v : Scalar K} {x : K} (h : v = .flt x) : IsNum v := ⟨.F x, by simp [h, Scalar.num?]⟩

omit [IsStrictOrderedRing K] in
theorem npBin_max_total {powf : K → K → Option K} {a b : Scalar K} (ha : IsNum a) (hb : IsNum b) :
    ∃ c, npBin powf .max a b = .ok c ∧ IsNum c := by
  obtain ⟨x, hx⟩ := ha
  obtain ⟨y, hy⟩ := hb
  cases a <;> cases b <;> simp [Scalar.num?] at hx hy <;>
    simp [npBin, pyBin, Scalar.num?, IsNum]

omit [IsStrictOrderedRing K] in
theorem npBin_min_total {powf : K → K → Option K} {a b : Scalar K} (ha : IsNum a) (hb : IsNum b) :
    ∃ c, npBin powf .min a b = .ok c ∧ IsNum c := by
  obtain ⟨x, hx⟩ := ha
  obtain ⟨y, hy⟩ := hb
  cases a <;> cases b <;> simp [Scalar.num?] at hx hy <;>
    simp [npBin, pyBin, Scalar.num?, IsNum]

omit [IsStrictOrderedRing K] in
theorem pyBin_max_total {powf : K → K → Option K} {a b : Scalar K} (ha : IsNum a) (hb : IsNum b) :
    ∃ c, pyBin powf .max a b = .ok c ∧ IsNum c := by
  obtain ⟨x, hx⟩ := ha
  obtain ⟨y, hy⟩ := hb
  cases a <;> cases b <;> simp [Scalar.num?] at hx hy <;>
    simp [pyBin, Scalar.num?, IsNum]

omit [IsStrictOrderedRing K] in
theorem pyBin_min_total {powf : K → K → Option K} {a b : Scalar K} (ha : IsNum a) (hb : IsNum b) :
    ∃ c, pyBin powf .min a b = .ok c ∧ IsNum c := by
  obtain ⟨x, hx⟩ := ha
  obtain ⟨y, hy⟩ := hb
  cases a <;> cases b <;> simp [Scalar.num?] at hx hy <;>
    simp [pyBin, Scalar.num?, IsNum]

omit [IsStrictOrderedRing K] in
theorem lt_total {a b : Scalar K} (ha : IsNum a) (hb : IsNum b) : ∃ c, a.lt b = .ok c := by
  obtain ⟨x, hx⟩ := ha
  obtain ⟨y, hy⟩ := hb
  exact ⟨decide (x.val < y.val), by simp only [Scalar.lt, hx, hy]⟩

omit [IsStrictOrderedRing K] in
theorem applyL_total {powf : K → K → Option K} {l : Option (Scalar K)} {x : Samples K}
    (hl : ∀ b ∈ l, IsNum b) (hx : ∀ v ∈ x.toList, IsNum v) (hne : x.toList ≠ []) :
    ∃ z, applyL powf l x = .ok z ∧ (∀ v ∈ z.toList, IsNum v) ∧ z.toList ≠ [] := by
  cases l with
  | none => exact ⟨x, rfl, hx, hne⟩
  | some b =>
    have hb := hl b rfl
    simp only [applyL]
    split_ifs with hlen
    · obtain ⟨z, h1, h2, h3⟩ := binSamples_total (powf := powf) (o := .max) (P := IsNum)
        (Q := IsNum) (R := IsNum) (fun a b ha hb => ⟨pyBin_max_total ha hb, npBin_max_total ha hb⟩)
        (x := x) (y := .scalar b) hx (by simpa [Samples.toList] using hb) (Or.inr rfl)
      refine ⟨z, h1, h3, ?_⟩
      intro h0
      rw [h0] at h2
      exact hne (List.length_eq_zero_iff.1 h2.symm)
    · cases x with
      | scalar v =>
        have hv := hx v (by simp [Samples.toList])
        obtain ⟨c, hc⟩ := lt_total hv hb
        refine ⟨.scalar (if c then b else v), by simp only [hc]; rfl, ?_, by simp [Samples.toList]⟩
        intro w hw
        simp only [Samples.toList, List.mem_singleton] at hw
        subst hw
        cases c <;> assumption
      | arr vs =>
        match vs, hx, hne, hlen with
        | [], _, hne, _ => exact absurd rfl hne
        | [v], hx, _, _ =>
          have hv := hx v (by simp [Samples.toList])
          obtain ⟨c, hc⟩ := lt_total hv hb
          refine ⟨if c then .scalar b else .arr [v], by simp only [hc]; rfl, ?_, ?_⟩
          · intro w hw
            cases c
            · simp [Samples.toList] at hw; subst hw; exact hv
            · simp [Samples.toList] at hw; subst hw; exact hb
          · cases c <;> simp [Samples.toList]
        | v :: w :: vs, _, _, hlen => simp [Samples.safeLen] at hlen

omit [IsStrictOrderedRing K] in
theorem applyR_total {powf : K → K → Option K} {l : Option (Scalar K)} {x : Samples K}
    (hl : ∀ b ∈ l, IsNum b) (hx : ∀ v ∈ x.toList, IsNum v) (hne : x.toList ≠ []) :
    ∃ z, applyR powf l x = .ok z ∧ (∀ v ∈ z.toList, IsNum v) ∧ z.toList ≠ [] := by
  cases l with
  | none => exact ⟨x, rfl, hx, hne⟩
  | some b =>
    have hb := hl b rfl
    simp only [applyR]
    split_ifs with hlen
    · obtain ⟨z, h1, h2, h3⟩ := binSamples_total (powf := powf) (o := .min) (P := IsNum)
        (Q := IsNum) (R := IsNum) (fun a b ha hb => ⟨pyBin_min_total ha hb, npBin_min_total ha hb⟩)
        (x := x) (y := .scalar b) hx (by simpa [Samples.toList] using hb) (Or.inr rfl)
      refine ⟨z, h1, h3, ?_⟩
      intro h0
      rw [h0] at h2
      exact hne (List.length_eq_zero_iff.1 h2.symm)
    · cases x with
      | scalar v =>
        have hv := hx v (by simp [Samples.toList])
        obtain ⟨c, hc⟩ := lt_total hb hv
        refine ⟨.scalar (if c then b else v), by simp only [hc]; rfl, ?_, by simp [Samples.toList]⟩
        intro w hw
        simp only [Samples.toList, List.mem_singleton] at hw
        subst hw
        cases c <;> assumption
      | arr vs =>
        match vs, hx, hne, hlen with
        | [], _, hne, _ => exact absurd rfl hne
        | [v], hx, _, _ =>
          have hv := hx v (by simp [Samples.toList])
          obtain ⟨c, hc⟩ := lt_total hb hv
          refine ⟨if c then .scalar b else .arr [v], by simp only [hc]; rfl, ?_, ?_⟩
          · intro w hw
            cases c
            · simp [Samples.toList] at hw; subst hw; exact hv
            · simp [Samples.toList] at hw; subst hw; exact hb
          · cases c <;> simp [Samples.toList]
        | v :: w :: vs, _, _, hlen => simp [Samples.safeLen] at hlen

omit [IsStrictOrderedRing K] in
/-- Clipping numbers with numbers never fails. -/
theorem withClips_total {E : Env σ K} {own : Option (Scalar K) × Option (Scalar K)}
    {raw : ℕ → SM σ K (Samples K)} {n : ℕ} (hn : 1 ≤ n) {s s' : St σ K} {x : Samples K}
    (h : raw n s = (.ok x, s'))
    (hb : own = (none, none) ∨ (∀ b ∈ own.1, IsNum b) ∧ (∀ b ∈ own.2, IsNum b) ∧
      (∀ v ∈ x.toList, IsNum v) ∧ x.toList ≠ []) :
    ∃ z, withClips E own raw n none none s = (.ok z, s') := by
  have hc : ∃ z, applyClips E.powf own.1 own.2 x = .ok z := by
    rcases hb with rfl | ⟨h1, h2, h3, h4⟩
    · exact ⟨x, rfl⟩
    · obtain ⟨z1, e1, e2, e3⟩ := applyL_total (powf := E.powf) h1 h3 h4
      obtain ⟨z2, e4, -, -⟩ := applyR_total (powf := E.powf) h2 e2 e3
      refine ⟨z2, ?_⟩
      simp only [applyClips, e1]
      exact e4
  obtain ⟨z, hz⟩ := hc
  exact ⟨z, withClips_ok.2 ⟨by omega, own.1, own.2, x, rfl, rfl, h, hz⟩⟩

omit [IsStrictOrderedRing K] in
theorem drawSM_total {E : Env σ K} (hL : E.gen.Lawful) (hD : E.gen.Decides) {p : Prim K}
    (hp : p.Accepted) (n : ℕ) (s : St σ K) :
    ∃ xs s', drawSM E p n s = (.ok xs, s') ∧ xs.length = n ∧ ∀ v ∈ xs, p.support v := by
  obtain ⟨xs, r', h⟩ := (hD p n s.rng).1 hp
  have hl := hL p n s.rng xs r' h
  exact ⟨xs, { s with rng := r' }, by simp [drawSM, h], hl.1, hl.2⟩

omit [IsStrictOrderedRing K] in
theorem drawSimple_total {E : Env σ K} (hL : E.gen.Lawful) (hD : E.gen.Decides) {p : Prim K}
    (hp : p.Accepted) (n : ℕ) (s : St σ K) :
    ∃ x s', drawSimple E p n s = (.ok x, s') ∧ x.toList.length = n ∧
      ∀ v ∈ x.toList, p.support v := by
  obtain ⟨xs, s', h1, h2, h3⟩ := drawSM_total hL hD hp n s
  refine ⟨Samples.simplify (.arr xs), s', ?_, ?_, ?_⟩
  · simp [drawSimple, SM.bind, h1, SM.pure]
  · rw [toList_simplify]; exact h2
  · rw [toList_simplify]; exact h3

omit [IsStrictOrderedRing K] in
theorem mapFlt_total {f : K → K} {x : Samples K} (hx : ∀ v ∈ x.toList, IsNum v) :
    ∃ z, mapFlt f x = .ok z ∧ z.toList.length = x.toList.length ∧ ∀ v ∈ z.toList, IsNum v := by
  have key : ∀ (g : Scalar K → Except PyErr (Scalar K)),
      (∀ v q, v.num? = some q → g v = .ok (.flt (f q.val))) → ∀ v, IsNum v →
      ∃ c, g v = .ok c ∧ IsNum c := by
    intro g hg v ⟨q, hq⟩
    exact ⟨_, hg v q hq, ⟨.F _, rfl⟩⟩
  cases x with
  | scalar v =>
    obtain ⟨q, hq⟩ := hx v (by simp [Samples.toList])
    refine ⟨.scalar (.flt (f q.val)), by simp only [mapFlt, hq]; rfl, rfl, ?_⟩
    intro w hw
    simp only [Samples.toList, List.mem_singleton] at hw
    subst hw
    exact ⟨.F _, rfl⟩
  | arr vs =>
    have main : ∀ (g : Scalar K → Except PyErr (Scalar K)),
        (∀ v q, v.num? = some q → g v = .ok (.flt (f q.val))) →
        ∃ z, (do let rs ← mapExcept g vs; Except.ok (Samples.arr rs)) = .ok z ∧
          z.toList.length = vs.length ∧ ∀ v ∈ z.toList, IsNum v := by
      intro g hg
      obtain ⟨bs, h1, h2, h3⟩ := mapExcept_total (key g hg) vs
        (by simpa [Samples.toList] using hx)
      refine ⟨.arr bs, ?_, by simp [Samples.toList, h2], by simpa [Samples.toList] using h3⟩
      rw [h1]
      rfl
    exact main _ (fun v q hq => by simp only [hq])

/-- Requirements on the external functions: `norm.ppf` is positive above the median, and square roots
of positive floats are positive floats. -/
structure Env.Sane (E : Env σ K) : Prop where
  lawful : E.gen.Lawful
  decides : E.gen.Decides
  ppf_pos : ∀ p, 1 / 2 < p → p < 1 → 0 < E.ppf p
  sqrt : ∀ x, 0 < x → ∃ y, 0 < y ∧ E.powf x (1 / 2) = some y
  log_mono : ∀ x y, 0 < x → x < y → E.log x < E.log y

theorem tInterval_total {E : Env σ K} (hE : E.Sane) {low high t cred : K} (hlh : low < high)
    (ht : 0 < t) (hc0 : 0 < cred) (hc1 : cred < 100) (n : ℕ) (s : St σ K) :
    ∃ x s', tInterval E low high t cred n s = (.ok x, s') ∧ x.toList.length = n ∧
      ∀ v ∈ x.toList, IsNum v := by
  have hppf : 0 < E.ppf (1 / 2 + 1 / 2 * (cred / 100)) := by
    apply hE.ppf_pos
    · have : 0 < cred / 100 := by positivity
      linarith
    · have : cred / 100 < 1 := by rw [div_lt_one (by norm_num)]; exact hc1
      linarith
  have hacc : (Prim.normal ((high + low) / 2)
      ((high - (high + low) / 2) / E.ppf (1 / 2 + 1 / 2 * (cred / 100)))).Accepted := by
    refine div_nonneg ?_ hppf.le
    linarith
  obtain ⟨z, s1, h1, hz1, hz2⟩ := drawSimple_total hE.lawful hE.decides hacc n s
  obtain ⟨c, s2, h2, hc2, hc3⟩ := drawSimple_total hE.lawful hE.decides
    (p := .chisquare t) ht n s1
  obtain ⟨r, h3, hr1, hr2⟩ := binSamples_total (powf := E.powf) (o := .truediv)
    (P := IsPos) (Q := IsPos) (R := IsPos) (x := c) (y := .scalar (.flt t)) (by
      rintro a b ⟨x, rfl, hx⟩ ⟨y, rfl, hy⟩
      have : (Scalar.flt (x / y)) = Scalar.flt (x / y) ∧ 0 < x / y := ⟨rfl, div_pos hx hy⟩
      constructor <;>
        exact ⟨.flt (x / y), by simp [npBin, pyBin, Scalar.num?, Num.val, hy.ne'], x / y, this⟩)
    (fun v hv => hc3 v hv) (by intro v hv; simp [Samples.toList] at hv; exact ⟨t, hv, ht⟩)
    (Or.inr rfl)
  obtain ⟨q, h4, hq1, hq2⟩ := binSamples_total (powf := E.powf) (o := .pow)
    (P := IsPos) (Q := fun v => v = .flt (1 / 2)) (R := IsPos) (x := r)
    (y := .scalar (.flt (1 / 2))) (by
      rintro a b ⟨x, rfl, hx⟩ rfl
      obtain ⟨y, hy, hp⟩ := hE.sqrt x hx
      have hp' : E.powf x 2⁻¹ = some y := by rw [← hp]; norm_num
      constructor <;>
        exact ⟨.flt y, by simp [npBin, pyBin, Scalar.num?, Num.val, hx.ne', hp'], y, rfl, hy⟩)
    hr2 (by intro v hv; simpa [Samples.toList] using hv) (Or.inr rfl)
  obtain ⟨x, h5, hx1, hx2⟩ := binSamples_total (powf := E.powf) (o := .truediv)
    (P := fun v => ∃ x, v = .flt x) (Q := IsPos) (R := IsNum) (x := z) (y := q) (by
      rintro a b ⟨x, rfl⟩ ⟨y, rfl, hy⟩
      constructor <;>
        exact ⟨.flt (x / y), by simp [npBin, pyBin, Scalar.num?, Num.val, hy.ne'],
          .F (x / y), rfl⟩)
    (fun v hv => hz2 v hv) hq2 (Or.inl (by omega))
  refine ⟨x.simplify, s2, ?_, ?_, ?_⟩
  · unfold tInterval
    simp only [SM.bind, h1, h2, SM.lift, h3]
    show ((do
        let q ← binSamples E.powf .pow r (.scalar (.flt (1 / 2)))
        let x ← binSamples E.powf .truediv z q
        Except.ok x.simplify), s2) = _
    rw [h4]
    show ((do
        let x ← binSamples E.powf .truediv z q
        Except.ok x.simplify), s2) = _
    rw [h5]
    rfl
  · rw [toList_simplify']; omega
  · rw [toList_simplify']; exact hx2

omit [IsStrictOrderedRing K] in
theorem support_num {p : Prim K} {v : Scalar K} (h : p.support v) : IsNum v := by
  cases p <;> (obtain ⟨x, rfl, _⟩ := h) <;> first | exact ⟨.F x, rfl⟩ | exact ⟨.I x, rfl⟩

/-- A leaf can be sampled when the requests it makes are accepted. -/
theorem simple_total {E : Env σ K} (hE : E.Sane) {p : Prim K} (hp : p.Accepted) {n : ℕ}
    (hn : 1 ≤ n) (s : St σ K) :
    ∃ x s', drawSimple E p n s = (.ok x, s') ∧ (∀ v ∈ x.toList, IsNum v) ∧ x.toList ≠ [] := by
  obtain ⟨x, s', h1, h2, h3⟩ := drawSimple_total hE.lawful hE.decides hp n s
  refine ⟨x, s', h1, fun v hv => support_num (h3 v hv), ?_⟩
  intro h0
  rw [h0] at h2
  simp at h2
  omega

omit [IsStrictOrderedRing K] in
theorem replicateL_total {α : Type} {m : SM σ K α} (h : ∀ s, ∃ a s', m s = (.ok a, s')) :
    ∀ (n : ℕ) (s : St σ K), ∃ as s', SM.replicateL m n s = (.ok as, s') := by
  intro n
  induction n with
  | zero => intro s; exact ⟨[], s, rfl⟩
  | succ n ih =>
    intro s
    obtain ⟨a, s1, h1⟩ := h s
    obtain ⟨as, s2, h2⟩ := ih s1
    exact ⟨a :: as, s2, by simp [SM.replicateL, SM.bind, h1, h2, SM.pure]⟩

/-- **C75**, with the conditions that are not checked at construction made explicit
(`SampleableArgs`): if the constructor accepts the arguments and these hold, sampling any positive
number of values returns without an exception, whatever the state of the generator.  Missing: the
unconditional statement, which is false (below); `discrete`, whose items may be rejected, and exploding
dice, which need not terminate, are excluded. -/
theorem C75_sampleable_partial (E : Env σ K) (hE : E.Sane) (c : DistCall K) (o : Obj (St σ K) K)
    (hc : construct c = .ok o) (hs : SampleableArgs c)
    (hb : (∀ b ∈ c.bounds.1, IsNum b) ∧ ∀ b ∈ c.bounds.2, IsNum b) (n : ℕ) (hn : 1 ≤ n)
    (s : St σ K) : ∃ z s', sampleObj E o n none none s = (.ok z, s') := by
  have hv : ValidArgs c := (C72_construct (S := St σ K) c).1 ⟨o, hc⟩
  have finish : ∀ (l : Leaf K) (lc rc : Option (Scalar K)), o = .leaf l lc rc →
      ((lc = none ∧ rc = none) ∨ (lc, rc) = c.bounds) →
      (∃ x s', leafSample E l n s = (.ok x, s') ∧ ((∀ v ∈ x.toList, IsNum v) ∧ x.toList ≠ [])) →
      ∃ z s', sampleObj E o n none none s = (.ok z, s') := by
    rintro l lc rc rfl hcl ⟨x, s', h1, h2⟩
    obtain ⟨z, hz⟩ := withClips_total (E := E) (own := (lc, rc)) (raw := leafSample E l) hn h1 (by
      rcases hcl with ⟨rfl, rfl⟩ | h
      · exact Or.inl rfl
      · right; rw [h]; exact ⟨hb.1, hb.2, h2.1, h2.2⟩)
    exact ⟨z, s', hz⟩
  have finish' : ∀ (l : Leaf K), o = .leaf l none none →
      (∃ x s', leafSample E l n s = (.ok x, s')) →
      ∃ z s', sampleObj E o n none none s = (.ok z, s') := by
    rintro l rfl ⟨x, s', h1⟩
    obtain ⟨z, hz⟩ := withClips_total (E := E) (own := (none, none)) (raw := leafSample E l) hn h1
      (Or.inl rfl)
    exact ⟨z, s', hz⟩
  have lists : ∀ (x : Samples K), x.toList.length = n → x.toList ≠ [] := by
    intro x h1 h0
    rw [h0] at h1
    simp at h1
    omega
  cases c with
  | const v => cases hc; exact finish' _ rfl ⟨_, _, rfl⟩
  | uniform x y =>
    simp only [construct] at hc; split_ifs at hc with h; cases hc
    exact finish _ _ _ rfl (Or.inl ⟨rfl, rfl⟩) (simple_total hE (p := .uniform x y) h.le hn s)
  | binomial k p =>
    simp only [construct] at hc; split_ifs at hc with h; cases hc
    exact finish _ _ _ rfl (Or.inl ⟨rfl, rfl⟩)
      (simple_total hE (p := .binomial k p) ⟨hs, hv.1.le, hv.2.le⟩ hn s)
  | beta a b =>
    cases hc
    exact finish _ _ _ rfl (Or.inl ⟨rfl, rfl⟩) (simple_total hE (p := .beta a b) hs hn s)
  | bernoulli p =>
    obtain ⟨q, rfl, -⟩ := hv
    simp only [construct] at hc; split_ifs at hc with h; cases hc
    refine finish' _ rfl ?_
    obtain ⟨xs, s', h1, h2, h3⟩ := drawSM_total hE.lawful hE.decides (p := .uniform 0 1)
      (by simp [Prim.Accepted]) n s
    have hf : ∀ v : Scalar K, (∃ u, v = .flt u) → ∃ b, (match v with
        | .flt u => Except.ok (Scalar.int (if u < q then 1 else 0))
        | _ => .error .unmodelled : Except PyErr (Scalar K)) = .ok b ∧ True := by
      rintro v ⟨u, rfl⟩
      exact ⟨_, rfl, trivial⟩
    obtain ⟨bs, h4, -, -⟩ := mapExcept_total hf xs (fun v hv => by
      obtain ⟨u, hu, -⟩ := h3 v hv
      exact ⟨u, hu⟩)
    refine ⟨Samples.simplify (.arr bs), s', ?_⟩
    simp only [leafSample, SM.bind, h1, SM.lift]
    exact congrArg (fun e : Except PyErr (List (Scalar K)) =>
      ((do let vs ← e; Except.ok (Samples.simplify (.arr vs))), s')) h4
  | discrete items => exact hs.elim
  | tdist x y t cred lc rc =>
    simp only [construct] at hc
    rcases tBounds_cases x y with h | h <;> rw [h] at hc <;> cases hc
    refine finish _ _ _ rfl (Or.inr rfl) ?_
    simp only [leafSample]
    rcases hv with ⟨rfl, rfl⟩ | ⟨a, b, rfl, rfl, hab⟩
    · rcases hs with ⟨-, hs⟩ | ⟨ht, -, -⟩
      · exact absurd rfl hs
      · obtain ⟨xs, s', h1, h2, h3⟩ := drawSM_total hE.lawful hE.decides (p := .standardT t) ht n s
        refine ⟨.arr xs, s', by simp [SM.bind, h1, SM.pure], fun v hv => support_num (h3 v hv),
          lists _ h2⟩
    · simp only [if_neg (not_lt.2 hab)]
      by_cases he : a = b
      · rw [if_pos he]
        exact ⟨_, _, rfl, by intro v hv; simp [Samples.toList] at hv; exact isNum_of_val hv,
          by simp [Samples.toList]⟩
      · rw [if_neg he]
        rcases hs with ⟨hs, -⟩ | ⟨ht, h0, h1⟩
        · cases hs; exact absurd rfl he
        · obtain ⟨x, s', h3, h4, h5⟩ := tInterval_total hE (lt_of_le_of_ne hab he) ht h0 h1 n s
          exact ⟨x, s', h3, h5, lists _ h4⟩
  | logTdist x y t cred lc rc =>
    have ho : o = .leaf (.logtdist x y t cred) lc rc := by
      simp only [construct] at hc
      rcases tBounds_cases x y with h | h <;> rw [h] at hc
      · simp only [bind, Except.bind] at hc
        cases x with
        | none => cases hc; rfl
        | some a => simp only at hc; split_ifs at hc; cases hc; rfl
      · cases hc
    refine finish _ _ _ ho (Or.inr rfl) ?_
    simp only [leafSample]
    rcases hv with ⟨rfl, rfl⟩ | ⟨a, b, rfl, rfl, ha, hab⟩
    · rcases hs with ⟨-, hs⟩ | ⟨ht, -, -⟩
      · exact absurd rfl hs
      · obtain ⟨xs, s', h1, h2, h3⟩ := drawSM_total hE.lawful hE.decides (p := .standardT t) ht 1 s
        obtain ⟨z, h4, h5, h6⟩ := mapFlt_total (f := E.exp) (x := .arr xs)
          (fun v hv => support_num (h3 v hv))
        refine ⟨z.simplify, s', ?_, ?_, ?_⟩
        · simp only [SM.bind, h1, SM.lift, h4]; rfl
        · rw [toList_simplify']; exact h6
        · rw [toList_simplify']
          intro h0
          rw [h0] at h5
          simp [Samples.toList, h2] at h5
    · simp only [if_neg (not_lt.2 hab), if_neg (not_lt.2 ha.le)]
      by_cases he : a = b
      · rw [if_pos he]
        exact ⟨_, _, rfl, by intro v hv; simp [Samples.toList] at hv; exact isNum_of_val hv,
          by simp [Samples.toList]⟩
      · rw [if_neg he]
        rcases hs with ⟨hs, -⟩ | ⟨ht, h0, h1⟩
        · cases hs; exact absurd rfl he
        · obtain ⟨x, s', h3, h4, h5⟩ := tInterval_total hE
            (hE.log_mono a b ha (lt_of_le_of_ne hab he)) ht h0 h1 n s
          obtain ⟨z, h6, h7, h8⟩ := mapFlt_total (f := E.exp) h5
          refine ⟨z, s', ?_, h8, lists _ (h7.trans h4)⟩
          simp only [SM.bind, h3, SM.lift, h6]
  | triangular l m r lc rc =>
    have ho : o = .leaf (.triangular l m r) none none := by
      simp only [construct] at hc; split_ifs at hc; cases hc; rfl
    exact finish _ _ _ ho (Or.inl ⟨rfl, rfl⟩)
      (simple_total hE (p := .triangular l m r) ⟨hv.1, hv.2.1, hv.2.2.ne⟩ hn s)
  | pert l m r lam lc rc =>
    have ho : o = .leaf (.pert l m r lam) lc rc := by
      simp only [construct] at hc; split_ifs at hc; cases hc; rfl
    refine finish _ _ _ ho (Or.inr rfl) ?_
    obtain ⟨h1, h2, h3, h4⟩ := hv
    have hw : 0 < r - l := sub_pos.2 h3
    obtain ⟨x, s', h5, h6, h7⟩ := simple_total hE
      (p := .beta (1 + lam * (m - l) / (r - l)) (1 + lam * (r - m) / (r - l)))
      ⟨by have : 0 ≤ lam * (m - l) / (r - l) :=
            div_nonneg (mul_nonneg h4 (sub_nonneg.2 h1)) hw.le
          linarith,
        by have : 0 ≤ lam * (r - m) / (r - l) :=
            div_nonneg (mul_nonneg h4 (sub_nonneg.2 h2)) hw.le
           linarith⟩ hn s
    obtain ⟨z, h8, h9, h10⟩ := mapFlt_total (f := fun x => l + x * (r - l)) h6
    refine ⟨z, s', ?_, h10, ?_⟩
    · simp only [leafSample, SM.bind, h5, SM.lift, h8]
    · intro h0
      rw [h0] at h9
      exact h7 (List.length_eq_zero_iff.1 h9.symm)
  | poisson lam lc rc =>
    cases hc
    exact finish _ _ _ rfl (Or.inr rfl) (simple_total hE (p := .poisson lam) hs hn s)
  | chisquare df =>
    simp only [construct] at hc; split_ifs at hc with h; cases hc
    exact finish _ _ _ rfl (Or.inl ⟨rfl, rfl⟩) (simple_total hE (p := .chisquare df) hv hn s)
  | exponential sc lc rc =>
    have ho : o = .leaf (.exponential sc) lc rc := by
      simp only [construct] at hc; split_ifs at hc; cases hc; rfl
    exact finish _ _ _ ho (Or.inr rfl) (simple_total hE (p := .exponential sc) hv.1.le hn s)
  | gamma sh sc lc rc =>
    cases hc
    exact finish _ _ _ rfl (Or.inr rfl) (simple_total hE (p := .gamma sh sc) hs hn s)
  | pareto sh =>
    cases hc
    refine finish _ _ _ rfl (Or.inl ⟨rfl, rfl⟩) ?_
    obtain ⟨xs, s', h1, h2, h3⟩ := drawSM_total hE.lawful hE.decides (p := .pareto sh) hs n s
    obtain ⟨z, h4, h5, h6⟩ := mapFlt_total (f := fun x => x + 1) (x := .arr xs)
      (fun v hv => support_num (h3 v hv))
    refine ⟨z.simplify, s', ?_, ?_, ?_⟩
    · simp only [leafSample, SM.bind, h1, SM.lift, h4]; rfl
    · rw [toList_simplify']; exact h6
    · rw [toList_simplify']
      exact lists _ (h5.trans h2)
  | geometric p =>
    simp only [construct] at hc; split_ifs at hc with h; cases hc
    exact finish _ _ _ rfl (Or.inl ⟨rfl, rfl⟩)
      (simple_total hE (p := .geometric p) ⟨lt_of_le_of_ne hv.1 (Ne.symm hs), hv.2⟩ hn s)
  | die sides ex =>
    simp only [construct] at hc
    rcases C28_refused sides ex with ⟨d, h⟩ | h <;> rw [h] at hc <;> cases hc
    refine finish' _ rfl ?_
    obtain ⟨h2, -, h4, -⟩ := (C28_accepted_iff sides ex d).1 h
    have hno : d.explodeOn = none := by
      have : ex.toList? = none := hs
      rw [this] at h4
      cases hd : d.explodeOn with
      | none => rfl
      | some l => rw [hd] at h4; cases h4
    obtain ⟨as, s', has⟩ := replicateL_total
      (m := rollDie E d) (by
        intro s
        obtain ⟨xs, s', h5, h6, h7⟩ := drawSM_total hE.lawful hE.decides
          (p := .integers 1 (d.sides + 1)) (by simp [Prim.Accepted]; omega) 1 s
        obtain ⟨v, rfl⟩ := List.length_eq_one_iff.1 h6
        obtain ⟨z, hz, -⟩ := h7 v (by simp)
        refine ⟨z, s', ?_⟩
        simp [rollDie, singleRoll, drawInt, SM.bind, h5, hz, SM.pure, hno]) n s
    exact ⟨Samples.simplify (.arr (as.map .int)), s', by simp only [leafSample, SM.bind, has, SM.pure]⟩
  | coin =>
    cases hc
    refine finish' _ rfl ?_
    obtain ⟨xs, s', h1, -, -⟩ := drawSM_total hE.lawful hE.decides (p := .integers 0 2)
      (by simp [Prim.Accepted]) n s
    exact ⟨_, s', by simp only [leafSample, SM.bind, h1, SM.pure]; rfl⟩

/-- **C75 fails without those conditions**: each of these calls returns a distribution object, and
every attempt to sample it raises ValueError, with every generator that refuses what numpy refuses. -/
theorem C75_sampleable_fails (E : Env σ K) (hD : E.gen.Decides) (c : DistCall K)
    (hc : c ∈ [DistCall.beta 0 1, .binomial (-1) (1 / 2), .poisson (-1) none none,
      .gamma (-1) 1 none none, .pareto 0, .geometric 0, .tdist none none 0 90 none none])
    (n : ℕ) (hn : 1 ≤ n) (s : St σ K) :
    ∃ o s', construct c = .ok o ∧ sampleObj E o n none none s = (.error .valueError, s') := by
  have leaf : ∀ (l : Leaf K) (p : Prim K), ¬ p.Accepted →
      (∀ s, leafSample E l n s = drawSimple E p n s ∨
        (∃ f, leafSample E l n s = SM.bind (drawSM E p n) f s)) →
      ∃ s', sampleObj E (.leaf l none none : Obj (St σ K) K) n none none s =
        (.error .valueError, s') := by
    intro l p hp hl
    obtain ⟨r', h⟩ := (hD p n s.rng).2 hp
    refine ⟨{ s with rng := r' }, ?_⟩
    have h1 : leafSample E l n s = (.error .valueError, { s with rng := r' }) := by
      rcases hl s with h2 | ⟨f, h2⟩ <;> rw [h2] <;>
        simp [drawSimple, SM.bind, drawSM, h]
    show withClips E (none, none) (leafSample E l) n none none s = _
    unfold withClips
    rw [if_neg (by omega)]
    show SM.bind (leafSample E l n) _ s = _
    simp [SM.bind, h1]
  simp only [List.mem_cons, List.not_mem_nil, or_false] at hc
  rcases hc with rfl | rfl | rfl | rfl | rfl | rfl | rfl
  · obtain ⟨s', h⟩ := leaf (.beta 0 1) (.beta 0 1) (by simp [Prim.Accepted]) (fun s => .inl rfl)
    exact ⟨_, s', rfl, h⟩
  · obtain ⟨s', h⟩ := leaf (.binomial (-1) (1 / 2)) (.binomial (-1) (1 / 2))
      (by simp [Prim.Accepted]) (fun s => .inl rfl)
    refine ⟨_, s', ?_, h⟩
    simp only [construct]
    rw [if_neg (by push Not; constructor <;> norm_num)]
  · obtain ⟨s', h⟩ := leaf (.poisson (-1)) (.poisson (-1))
      (by simp [Prim.Accepted]) (fun s => .inl rfl)
    exact ⟨_, s', rfl, h⟩
  · obtain ⟨s', h⟩ := leaf (.gamma (-1) 1) (.gamma (-1) 1)
      (by simp [Prim.Accepted]) (fun s => .inl rfl)
    exact ⟨_, s', rfl, h⟩
  · obtain ⟨s', h⟩ := leaf (.pareto 0) (.pareto 0) (by simp [Prim.Accepted])
      (fun s => .inr ⟨_, rfl⟩)
    exact ⟨_, s', rfl, h⟩
  · obtain ⟨s', h⟩ := leaf (.geometric 0) (.geometric 0) (by simp [Prim.Accepted])
      (fun s => .inl rfl)
    refine ⟨_, s', ?_, h⟩
    simp only [construct]
    rw [if_neg (by push Not; constructor <;> norm_num)]
  · obtain ⟨s', h⟩ := leaf (.tdist none none 0 90) (.standardT 0) (by simp [Prim.Accepted])
      (fun s => .inr ⟨_, rfl⟩)
    exact ⟨_, s', rfl, h⟩

/-! A generator that refuses exactly what numpy refuses. -/

instance (p : Prim ℚ) : Decidable p.Accepted := by
  cases p <;> simp only [Prim.Accepted] <;> infer_instance

/-- The demo generator, refusing the requests that numpy refuses. -/
def strictGen : Gen ℕ ℚ where
  draw p n k := if p.Accepted then demoGen.draw p n k else (.error .valueError, k)

theorem strictGen_lawful : strictGen.Lawful := by
  intro p n s xs s' h
  simp only [strictGen] at h
  split_ifs at h
  · exact demoGen_lawful p n s xs s' h
  · cases h

theorem strictGen_decides : strictGen.Decides := by
  intro p n s
  refine ⟨fun h => ?_, fun h => ⟨s, by simp [strictGen, h]⟩⟩
  have hv : ∀ k, ∃ v, demoValue p k = some v := by
    intro k
    cases p <;> simp only [Prim.Accepted] at h <;> simp only [demoValue] <;>
      first
        | exact ⟨_, rfl⟩
        | exact ⟨_, if_pos h⟩
        | exact ⟨_, if_pos h.1⟩
        | exact ⟨_, if_pos (h.1.trans h.2.1)⟩
  have hf : ∀ (g : ℕ → Except PyErr (Scalar ℚ)), (∀ k v, demoValue p k = some v → g k = .ok v) →
      ∀ ks, ∃ xs, mapExcept g ks = .ok xs := by
    intro g hg ks
    obtain ⟨xs, h1, -⟩ := mapExcept_total (P := fun _ => True) (R := fun _ => True) (f := g)
      (fun k _ => by
        obtain ⟨v, hv⟩ := hv k
        exact ⟨v, hg k v hv, trivial⟩) ks (by simp)
    exact ⟨xs, h1⟩
  obtain ⟨xs, hx⟩ : ∃ xs, demoValues p n s = .ok xs :=
    hf _ (fun k v h => by simp only [h]) _
  exact ⟨xs, s + n, by simp [strictGen, h, demoGen, hx]⟩

/-- The environment with the strict generator. -/
def strictEnv : Env ℕ ℚ := { demoEnv with gen := strictGen }

theorem strictEnv_sane : strictEnv.Sane where
  lawful := strictGen_lawful
  decides := strictGen_decides
  ppf_pos p h _ := by show (0 : ℚ) < p; linarith
  sqrt x hx := ⟨x, hx, by simp [strictEnv, demoEnv]⟩
  log_mono x y _ h := by show x - 1 < y - 1; linarith

/-- The hypotheses of `C75_sampleable_partial` are met by a clipped t-distribution … -/
example : SampleableArgs (DistCall.tdist (some 1) (some (5 : ℚ)) 3 90 (some (.int 0)) none) :=
  Or.inr (by norm_num)

example : (sampleObj strictEnv (.leaf (.tdist (some 1) (some 5) 3 90) (some (.int 0)) none :
    Obj (St ℕ ℚ) ℚ) 2 none none (demoSt 4)).1.isOk = true := by decide +kernel

/-- … and the failures are observable. -/
example : (sampleObj strictEnv (.leaf (.geometric 0) none none : Obj (St ℕ ℚ) ℚ) 2 none none
    (demoSt 4)).1 = .error .valueError := by decide +kernel

end Verif
