import Verif.Lemmas.PrintingTree

/-! Printed expressions determine the expression up to `PrintsAlike`. -/

namespace Verif

open Spec

set_option linter.unusedSectionVars false

set_option linter.unusedSectionVars false

variable {σ K : Type} [Field K] [LinearOrder K] [FloorRing K] [IsStrictOrderedRing K] (F : StrEnv σ K)

theorem sym_flat {f : BinFn} (hf : f.infix = true) :
    ∀ c ∈ f.name.toList, isSpace c = false ∧ isComma c = false ∧ c ≠ '(' ∧ c ≠ ')' := by
  cases f with
  | op o => cases o <;> first | (exact absurd hf (by decide)) | decide
  | _ => exact absurd hf (by decide)

theorem sym_inj {f g : BinFn} (hf : f.infix = true) (hg : g.infix = true) (h : f.name = g.name) : f = g := by
  cases f with
  | op o =>
    cases g with
    | op o' =>
      cases o <;> cases o' <;> first
        | rfl
        | (exact absurd hf (by decide))
        | (exact absurd hg (by decide))
        | (exact absurd h (by decide))
    | _ => exact absurd hg (by decide)
  | _ => exact absurd hf (by decide)

theorem bal_bare {p : Char → Bool} {l : List Char} (hp : ∀ c, p c = true → c = ' ' ∨ c = ',') (h : Bare l) : Bal p 0 l := by
  refine bal_flat fun c hc => ?_
  obtain ⟨h1, h2, h3, h4, -⟩ := h c hc
  refine ⟨?_, h3, h4⟩
  by_contra hn
  rcases hp c (by simpa using hn) with h | h
  · exact h1 h
  · exact h2 h

theorem isSep_or (c : Char) (h : isSep c = true) : c = ' ' ∨ c = ',' := by
  simp only [isSep, Bool.or_eq_true, beq_iff_eq] at h
  exact h.symm

theorem isComma_or (c : Char) (h : isComma c = true) : c = ' ' ∨ c = ',' := by
  simp only [isComma, beq_iff_eq] at h
  exact Or.inr h

theorem sep_comma {l : List Char} (h : Bal isSep 0 l) : Bal isComma 0 l :=
  bal_mono (fun c hc => by simp only [isComma, beq_iff_eq] at hc; simp [isSep, hc]) l 0 h

theorem sep_space {l : List Char} (h : Bal isSep 0 l) : Bal isSpace 0 l :=
  bal_mono (fun c hc => by simp only [isSpace, beq_iff_eq] at hc; simp [isSep, hc]) l 0 h

theorem tailChars_bal (ps : List (BinFn × Obj (St σ K) K)) (h : ∀ p ∈ ps, p.1.infix = true ∧ Bal isSep 0 (chars F p.2)) :
    Bal isComma 0 (tailChars F ps) := by
  induction ps with
  | nil => rfl
  | cons p ps ih =>
    obtain ⟨f, b⟩ := p
    obtain ⟨hf, hb⟩ := h (f, b) (by simp)
    refine ⟨by decide, by decide, ?_⟩
    rw [if_neg (by decide)]
    refine bal_append ?_ _ 0 (bal_flat fun c hc => (sym_flat hf c hc).2)
    refine ⟨by decide, by decide, ?_⟩
    rw [if_neg (by decide)]
    exact bal_append (ih fun p hp => h p (by simp [hp])) _ 0 (sep_comma hb)

section
variable {F} (hnum : PrintsNumbers F.num)
include hnum

theorem plain_bal (d : Obj (St σ K) K) (hd : Plain d) : Bal isSep 0 (chars F (firstTerm d)) ∧
    (∀ p ∈ restTerms d, p.1.infix = true ∧ Bal isSep 0 (chars F p.2)) ∧ Bal isComma 0 (chars F d) := by
  have hall : ∀ d : Obj (St σ K) K, Bal isSep 0 (chars F (firstTerm d)) →
      (∀ p ∈ restTerms d, p.1.infix = true ∧ Bal isSep 0 (chars F p.2)) → Bal isComma 0 (chars F d) := by
    intro d h1 h2
    rw [chars_reading]
    exact bal_append (tailChars_bal F _ h2) _ 0 (sep_comma h1)
  have hcall : ∀ t : Obj (St σ K) K, IsTerm t → IsCall t → (∀ a ∈ (termForm F t).2, Bal isComma 0 a.toList) →
      Bal isSep 0 (chars F t) := by
    intro t ht hc ha
    rw [call_chars F t ht hc]
    refine callStr_bal (goodName_bare (names_good _ (call_name F t ht hc))) fun a h => ?_
    obtain ⟨b, hb, rfl⟩ := List.mem_map.1 h
    exact ha b hb
  induction d with
  | lit v =>
    have h1 : Bal isSep 0 (chars F (.lit v : Obj (St σ K) K)) := by
      simp only [chars, strObj]
      exact bal_bare isSep_or (pstr_bare hnum hd)
    exact ⟨h1, (fun p hp => by cases hp), sep_comma h1⟩
  | leaf l lc rc =>
    have h1 : Bal isSep 0 (chars F (.leaf l lc rc : Obj (St σ K) K)) :=
      hcall _ hd trivial fun a ha => bal_bare isComma_or (leaf_args_bare hnum hd a ha)
    exact ⟨h1, (fun p hp => by cases hp), sep_comma h1⟩
  | bin f l r ihl ihr =>
    have hp : Plain l ∧ Plain r := hd
    obtain ⟨a1, a2, a3⟩ := ihl hp.1
    obtain ⟨b1, b2, b3⟩ := ihr hp.2
    by_cases hf : f.infix = true
    · have h1 : Bal isSep 0 (chars F (firstTerm (.bin f l r : Obj (St σ K) K))) := by
        rw [firstTerm_infix hf]; exact a1
      have h2 : ∀ p ∈ restTerms (.bin f l r : Obj (St σ K) K), p.1.infix = true ∧ Bal isSep 0 (chars F p.2) := by
        rw [restTerms_bin hf]
        intro p hp
        rcases List.mem_append.1 hp with h | h
        · exact a2 p h
        · rcases List.mem_cons.1 h with rfl | h
          · exact ⟨hf, b1⟩
          · exact b2 p h
      exact ⟨h1, h2, hall _ h1 h2⟩
    · have h1 : Bal isSep 0 (chars F (.bin f l r : Obj (St σ K) K)) := by
        refine hcall _ ⟨by simpa using hf, hp⟩ trivial fun a ha => ?_
        simp only [termForm, List.mem_cons, List.not_mem_nil, or_false] at ha
        rcases ha with rfl | rfl
        · exact a3
        · exact b3
      rw [firstTerm_call hf, restTerms_call hf]
      exact ⟨h1, (fun p hp => by cases hp), sep_comma h1⟩
  | un f l ih =>
    cases f with
    | neg =>
      have hp : Plain l ∧ ¬ startsWithNumber l := hd
      obtain ⟨a1, a2, a3⟩ := ih hp.1
      have h1 : Bal isSep 0 (chars F (firstTerm (.un .neg l : Obj (St σ K) K))) := by
        show Bal isSep 0 (chars F (.un .neg (firstTerm l)))
        rw [chars_neg]
        exact ⟨by decide, by decide, by simpa using a1⟩
      exact ⟨h1, a2, hall _ h1 a2⟩
    | floor =>
      have h1 := hcall (.un .floor l) hd (by simp [IsCall]) fun a ha => by
        simp only [termForm, List.mem_cons, List.not_mem_nil, or_false] at ha
        subst ha
        exact (ih hd).2.2
      exact ⟨h1, (fun p hp => by cases hp), sep_comma h1⟩
    | ceil =>
      have h1 := hcall (.un .ceil l) hd (by simp [IsCall]) fun a ha => by
        simp only [termForm, List.mem_cons, List.not_mem_nil, or_false] at ha
        subst ha
        exact (ih hd).2.2
      exact ⟨h1, (fun p hp => by cases hp), sep_comma h1⟩
    | exp =>
      have h1 := hcall (.un .exp l) hd (by simp [IsCall]) fun a ha => by
        simp only [termForm, List.mem_cons, List.not_mem_nil, or_false] at ha
        subst ha
        exact (ih hd).2.2
      exact ⟨h1, (fun p hp => by cases hp), sep_comma h1⟩
    | round0 =>
      have h1 := hcall (.un .round0 l) hd (by simp [IsCall]) fun a ha => by
        simp only [termForm, List.mem_cons, List.not_mem_nil, or_false] at ha
        subst ha
        exact (ih hd).2.2
      exact ⟨h1, (fun p hp => by cases hp), sep_comma h1⟩
    | clipNone =>
      have h1 := hcall (.un .clipNone l) hd (by simp [IsCall]) fun a ha => by
        simp only [termForm, List.mem_cons, List.not_mem_nil, or_false] at ha
        subst ha
        exact (ih hd).2.2
      exact ⟨h1, (fun p hp => by cases hp), sep_comma h1⟩
  | corr g m ms i ih =>
    obtain ⟨a1, a2, a3⟩ := ih i hd
    refine ⟨a1, a2, ?_⟩
    have : chars F (.corr g m ms i : Obj (St σ K) K) = chars F (ms i) := by simp [chars, strObj]
    rw [this]; exact a3
  | _ => exact hd.elim

theorem term_bal (t : Obj (St σ K) K) (ht : IsTerm t) : Bal isSep 0 (chars F t) := by
  have h := (plain_bal hnum t (isTerm_plain t ht)).1
  have : firstTerm t = t := by
    clear h
    induction t with
    | un f x ih =>
      cases f with
      | neg => simp only [firstTerm]; rw [ih ht.1]
      | _ => rfl
    | bin f x y => exact firstTerm_call (by rw [ht.1]; decide) x y
    | corr => exact ht.elim
    | _ => rfl
  rwa [this] at h

/-- Readings with the same characters have the same operators and terms with the same characters. -/
theorem tail_unique : ∀ (ps qs : List (BinFn × Obj (St σ K) K)), (∀ p ∈ ps, p.1.infix = true ∧ IsTerm p.2) →
    (∀ p ∈ qs, p.1.infix = true ∧ IsTerm p.2) → tailChars F ps = tailChars F qs →
    List.Forall₂ (fun p q => p.1 = q.1 ∧ chars F p.2 = chars F q.2) ps qs := by
  intro ps
  induction ps with
  | nil =>
    intro qs _ _ h
    cases qs with
    | nil => exact .nil
    | cons q qs => cases h
  | cons p ps ih =>
    intro qs hp hq h
    cases qs with
    | nil => cases h
    | cons q qs =>
      obtain ⟨f, b⟩ := p
      obtain ⟨g, c⟩ := q
      obtain ⟨hf, hb⟩ := hp (f, b) (by simp)
      obtain ⟨hg, hc⟩ := hq (g, c) (by simp)
      simp only [tailChars, List.cons.injEq, true_and] at h
      obtain ⟨h1, h2⟩ := bal_unique (p := isSpace)
        (bal_flat fun x hx => ⟨(sym_flat hf x hx).1, (sym_flat hf x hx).2.2⟩)
        (bal_flat fun x hx => ⟨(sym_flat hg x hx).1, (sym_flat hg x hx).2.2⟩)
        (r := ' ' :: (chars F b ++ tailChars F ps)) (r' := ' ' :: (chars F c ++ tailChars F qs))
        (show isSpace ' ' = true from rfl) (show isSpace ' ' = true from rfl) h
      simp only [List.cons.injEq, true_and] at h2
      have hstop : ∀ rs : List (BinFn × Obj (St σ K) K), Stops isSpace (tailChars F rs) := by
        intro rs
        cases rs with
        | nil => trivial
        | cons r rs => exact (rfl : isSpace ' ' = true)
      obtain ⟨h3, h4⟩ := bal_unique (sep_space (term_bal hnum b hb)) (sep_space (term_bal hnum c hc)) (hstop _) (hstop _) h2
      exact .cons ⟨sym_inj hf hg (String.toList_inj.1 h1), h3⟩
        (ih qs (fun p h => hp p (by simp [h])) (fun p h => hq p (by simp [h])) h4)

end

/-- Number of nodes. -/
def osize : Obj (St σ K) K → ℕ
  | .bin _ l r => osize l + osize r + 1
  | .un _ l => osize l + 1
  | .corr _ _ ms i => osize (ms i) + 1
  | _ => 1

theorem osize_terms (d : Obj (St σ K) K) : osize (firstTerm d) ≤ osize d ∧ ∀ p ∈ restTerms d, osize p.2 ≤ osize d := by
  induction d with
  | bin f l r ihl ihr =>
    by_cases hf : f.infix = true
    · rw [firstTerm_infix hf, restTerms_bin hf]
      refine ⟨by have := ihl.1; simp only [osize]; omega, fun p hp => ?_⟩
      rcases List.mem_append.1 hp with h | h
      · have := ihl.2 p h; simp only [osize]; omega
      · rcases List.mem_cons.1 h with rfl | h
        · have := ihr.1; simp only [osize]; omega
        · have := ihr.2 p h; simp only [osize]; omega
    · rw [firstTerm_call hf, restTerms_call hf]
      exact ⟨le_refl _, fun p hp => by cases hp⟩
  | un f l ih =>
    cases f with
    | neg =>
      refine ⟨by have := ih.1; simp only [firstTerm, osize]; omega, fun p hp => ?_⟩
      have := ih.2 p hp; simp only [osize]; omega
    | _ => exact ⟨le_refl _, fun p hp => by cases hp⟩
  | corr g m ms i ih =>
    refine ⟨by have := (ih i).1; simp only [firstTerm, osize]; omega, fun p hp => ?_⟩
    have := (ih i).2 p hp; simp only [osize]; omega
  | _ => exact ⟨le_refl _, fun p hp => by cases hp⟩

theorem unName_inj {f g : UnFn} (hf : f ≠ .neg) (hg : g ≠ .neg) (h : f.name = g.name) : f = g := by
  cases f <;> cases g <;> first | rfl | exact absurd rfl hf | exact absurd rfl hg | exact absurd h (by decide)

theorem binName_inj {f g : BinFn} (hf : f.infix = false) (hg : g.infix = false) (h : f.name = g.name) : f = g := by
  cases f with
  | op o =>
    cases o <;> first | (exact absurd hf (by decide)) | skip
    all_goals
      cases g with
      | op o' => cases o' <;> first | rfl | (exact absurd hg (by decide)) | (exact absurd h (by decide))
      | _ => exact absurd h (by decide)
  | _ =>
    cases g with
    | op o' => cases o' <;> first | (exact absurd hg (by decide)) | (exact absurd h (by decide))
    | _ => first | rfl | exact absurd h (by decide)

section
variable {F} (hnum : PrintsNumbers F.num)
include hnum

theorem term_unique (t t' : Obj (St σ K) K) (ht : IsTerm t) (ht' : IsTerm t')
    (ih : ∀ x y : Obj (St σ K) K, osize x < osize t → Plain x → Plain y → chars F x = chars F y → PrintsAlike x y)
    (h : chars F t = chars F t') : PrintsAlike t t' := by
  have hcall : ∀ t : Obj (St σ K) K, IsTerm t → IsCall t → ∀ a ∈ (termForm F t).2, Bal isComma 0 a.toList := by
    intro t ht hc a ha
    cases t with
    | leaf l lc rc => exact bal_bare isComma_or (leaf_args_bare hnum ht a ha)
    | un f x =>
      have hx : Plain x := by
        cases f with
        | neg => exact absurd rfl hc
        | _ => exact ht
      simp only [termForm, List.mem_cons, List.not_mem_nil, or_false] at ha
      subst ha
      exact (plain_bal hnum x hx).2.2
    | bin f x y =>
      simp only [termForm, List.mem_cons, List.not_mem_nil, or_false] at ha
      rcases ha with rfl | rfl
      · exact (plain_bal hnum x ht.2.1).2.2
      · exact (plain_bal hnum y ht.2.2).2.2
    | _ => exact hc.elim
  have hlit : ∀ v : Scalar K, IsNumber v → ∀ u : Obj (St σ K) K, IsTerm u → ¬ (∃ w, u = .lit w) →
      chars F (.lit v) ≠ chars F u := by
    intro v hv u hu hnl e
    have hN : Numeric (chars F (.lit v : Obj (St σ K) K)) := by
      simp only [chars, strObj]
      exact pstr_numeric hnum hv
    rw [e] at hN
    rcases term_cases u hu with hl | ⟨x, rfl⟩ | hc
    · exact hnl hl
    · obtain ⟨c, r, h1, h2⟩ := nonNumber_head F x hu.1 hu.2
      rw [chars_neg, h1] at hN
      rcases hN with hN | ⟨-, c', r', e', hN⟩
      · exact absurd hN (by decide)
      · simp only [List.cons.injEq] at e'
        rw [← e'.1, h2] at hN
        cases hN
    · obtain ⟨c, r, h1, h2, h3⟩ := call_head F u hu hc
      rw [h1] at hN
      rcases hN with hN | ⟨hN, -⟩
      · rw [h2] at hN; cases hN
      · exact h3 hN
  have hneg : ∀ x u : Obj (St σ K) K, IsTerm u → IsCall u → chars F (.un .neg x) ≠ chars F u := by
    intro x u hu hc e
    obtain ⟨c, r, h1, h2, h3⟩ := call_head F u hu hc
    rw [chars_neg, h1] at e
    simp only [List.cons.injEq] at e
    exact h3 e.1.symm
  rcases term_cases t ht with ⟨v, rfl⟩ | ⟨x, rfl⟩ | hc
  · by_cases hl : ∃ w, t' = .lit w
    · obtain ⟨w, rfl⟩ := hl
      simp only [chars, strObj] at h
      rw [pstr_inj hnum ht ht' h]
      exact .refl _
    · exact absurd h (hlit v ht t' ht' hl)
  · rcases term_cases t' ht' with ⟨w, rfl⟩ | ⟨y, rfl⟩ | hc'
    · exact absurd h.symm (hlit w ht' _ ht (by rintro ⟨w, hw⟩; cases hw))
    · rw [chars_neg, chars_neg] at h
      simp only [List.cons.injEq, true_and] at h
      exact .un .neg (ih x y (by simp only [osize]; omega) (isTerm_plain x ht.1) (isTerm_plain y ht'.1) h)
    · exact absurd h (hneg x t' ht' hc')
  · rcases term_cases t' ht' with ⟨w, rfl⟩ | ⟨y, rfl⟩ | hc'
    · exact absurd h.symm (hlit w ht' _ ht (by rintro ⟨w, rfl⟩; exact hc))
    · exact absurd h.symm (hneg y t ht hc)
    · have hn := call_name F t ht hc
      have hn' := call_name F t' ht' hc'
      have hform : termForm F t = termForm F t' := by
        have h0 := h
        rw [call_chars F t ht hc, call_chars F t' ht' hc'] at h0
        have hopen : ∀ s ∈ leafNames ++ fnNames, '(' ∉ s.toList := fun s hs hm =>
          (goodName_bare (names_good s hs) _ hm).2.2.1 rfl
        have := callStr_inj (hopen _ hn) (hopen _ hn')
          (fun a ha => by obtain ⟨b, hb, rfl⟩ := List.mem_map.1 ha; exact hcall t ht hc b hb)
          (fun a ha => by obtain ⟨b, hb, rfl⟩ := List.mem_map.1 ha; exact hcall t' ht' hc' b hb) h0
        rw [Prod.mk.injEq] at this
        refine Prod.ext (String.toList_inj.1 this.1) ?_
        exact List.map_injective_iff.2 (fun a b hab => String.toList_inj.1 hab) this.2
      have hname := congrArg Prod.fst hform
      have hargs := congrArg Prod.snd hform
      have hdisj : ∀ s ∈ leafNames, s ∉ fnNames := by decide +kernel
      have hfn : ∀ u : Obj (St σ K) K, IsTerm u → IsCall u → (∀ l lc rc, u ≠ .leaf l lc rc) → (termForm F u).1 ∈ fnNames := by
        intro u hu hcu hnl
        cases u with
        | leaf l lc rc => exact absurd rfl (hnl l lc rc)
        | un f x =>
          cases f with
          | neg => exact absurd rfl hcu
          | _ => simp [termForm, UnFn.name, fnNames]
        | bin f x y =>
          have hf := hu.1
          cases f with
          | op o => cases o <;> first | (exact absurd hf (by decide)) | simp [termForm, BinFn.name, fnNames]
          | _ => simp [termForm, BinFn.name, fnNames]
        | _ => exact hcu.elim
      cases t with
      | leaf l lc rc =>
        cases t' with
        | leaf l' lc' rc' => exact leaf_alike hnum ht ht' hform
        | un g y =>
          have hm := hfn _ ht' hc' (by simp)
          rw [← hname] at hm
          exact absurd hm (hdisj _ (leaf_name F.num ht))
        | bin g x' y' =>
          have hm := hfn _ ht' hc' (by simp)
          rw [← hname] at hm
          exact absurd hm (hdisj _ (leaf_name F.num ht))
        | _ => exact hc'.elim
      | un f x =>
        have hx : Plain x := by
          cases f with
          | neg => exact absurd rfl hc
          | _ => exact ht
        cases t' with
        | leaf l' lc' rc' =>
          have hm := hfn _ ht hc (by simp)
          rw [hname] at hm
          exact absurd hm (hdisj _ (leaf_name F.num ht'))
        | un g y =>
          have hy : Plain y := by
            cases g with
            | neg => exact absurd rfl hc'
            | _ => exact ht'
          obtain rfl := unName_inj hc hc' hname
          simp only [termForm, List.cons.injEq, and_true] at hargs
          exact .un f (ih x y (by simp only [osize]; omega) hx hy (by unfold chars; rw [hargs]))
        | bin g x' y' => simp [termForm] at hargs
        | _ => exact hc'.elim
      | bin f x x2 =>
        cases t' with
        | leaf l' lc' rc' =>
          have hm := hfn _ ht hc (by simp)
          rw [hname] at hm
          exact absurd hm (hdisj _ (leaf_name F.num ht'))
        | un g y => simp [termForm] at hargs
        | bin g y y2 =>
          obtain rfl := binName_inj ht.1 ht'.1 hname
          simp only [termForm, List.cons.injEq, and_true] at hargs
          exact .bin f (ih x y (by simp only [osize]; omega) ht.2.1 ht'.2.1 (by unfold chars; rw [hargs.1]))
            (ih x2 y2 (by simp only [osize]; omega) ht.2.2 ht'.2.2 (by unfold chars; rw [hargs.2]))
        | _ => exact hc'.elim
      | _ => exact hc.elim

theorem rebuild_congr {a a' : Obj (St σ K) K} {ps qs : List (BinFn × Obj (St σ K) K)} (ha : PrintsAlike a a')
    (h : List.Forall₂ (fun p q => p.1 = q.1 ∧ PrintsAlike p.2 q.2) ps qs) :
    PrintsAlike (rebuild a ps) (rebuild a' qs) := by
  induction h generalizing a a' with
  | nil => exact ha
  | @cons p q ps qs hpq _ ih =>
    obtain ⟨f, b⟩ := p
    obtain ⟨g, c⟩ := q
    obtain ⟨rfl, hbc⟩ := hpq
    exact .bin _ ha (ih hbc)

theorem print_unique : ∀ (n : ℕ) (d e : Obj (St σ K) K), osize d ≤ n → Plain d → Plain e → chars F d = chars F e →
    PrintsAlike d e := by
  intro n
  induction n with
  | zero =>
    intro d e hd
    exact absurd hd (by cases d <;> simp [osize])
  | succ n ih =>
    intro d e hn hd he h
    have hih : ∀ t : Obj (St σ K) K, osize t ≤ osize d → ∀ x y : Obj (St σ K) K, osize x < osize t → Plain x → Plain y →
        chars F x = chars F y → PrintsAlike x y := fun t ht x y hx => ih x y (by omega)
    obtain ⟨d1, d2⟩ := plain_terms d hd
    obtain ⟨e1, e2⟩ := plain_terms e he
    obtain ⟨s1, s2⟩ := osize_terms d
    rw [chars_reading F d, chars_reading F e] at h
    have hstop : ∀ rs : List (BinFn × Obj (St σ K) K), Stops isSpace (tailChars F rs) := by
      intro rs
      cases rs with
      | nil => trivial
      | cons r rs => exact (rfl : isSpace ' ' = true)
    obtain ⟨h1, h2⟩ := bal_unique (sep_space (term_bal hnum _ d1)) (sep_space (term_bal hnum _ e1)) (hstop _) (hstop _) h
    have h3 := tail_unique hnum (restTerms d) (restTerms e) (fun p hp => ⟨restTerms_infix d p hp, d2 p hp⟩)
      (fun p hp => ⟨restTerms_infix e p hp, e2 p hp⟩) h2
    refine .trans (rebuild_alike d) (.trans ?_ (.symm (rebuild_alike e)))
    refine rebuild_congr hnum (term_unique hnum _ _ d1 e1 (hih _ s1) h1) ?_
    have hmem : ∀ (ps qs : List (BinFn × Obj (St σ K) K)), (∀ p ∈ ps, IsTerm p.2 ∧ osize p.2 ≤ osize d) →
        (∀ p ∈ qs, IsTerm p.2) → List.Forall₂ (fun p q => p.1 = q.1 ∧ chars F p.2 = chars F q.2) ps qs →
        List.Forall₂ (fun p q => p.1 = q.1 ∧ PrintsAlike p.2 q.2) ps qs := by
      intro ps qs hp hq hpq
      induction hpq with
      | nil => exact .nil
      | @cons p q ps qs hpq _ ihl =>
        refine .cons ⟨hpq.1, ?_⟩ (ihl (fun p h => hp p (by simp [h])) fun p h => hq p (by simp [h]))
        obtain ⟨k1, k2⟩ := hp p (by simp)
        exact term_unique hnum _ _ k1 (hq q (by simp)) (hih _ k2) hpq.2
    exact hmem _ _ (fun p hp => ⟨d2 p hp, s2 p hp⟩) e2 h3

end

end Verif
