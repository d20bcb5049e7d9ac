import Verif.Lemmas.Printing

/-! Reading printed numbers and basic distributions back. -/

namespace Verif

open Spec

set_option linter.unusedSectionVars false

variable {σ K : Type} [Field K] [LinearOrder K] [FloorRing K]

/-- No spaces, commas, parentheses. -/
def Bare (l : List Char) : Prop := ∀ c ∈ l, c ≠ ' ' ∧ c ≠ ',' ∧ c ≠ '(' ∧ c ≠ ')' ∧ c ≠ '\n'

/-- Starts like a number. -/
def Numeric : List Char → Prop
  | [] => False
  | c :: r => c.isDigit = true ∨ (c = '-' ∧ ∃ c' r', r = c' :: r' ∧ c'.isDigit = true)

theorem nat_repr_digits (n : ℕ) : ∀ c ∈ n.repr.toList, c.isDigit = true := by
  intro c hc
  rw [Nat.toList_repr] at hc
  exact Nat.isDigit_of_mem_toDigits (by omega) (by omega) hc

theorem nat_repr_ne_nil (n : ℕ) : n.repr.toList ≠ [] := by
  rw [Nat.toList_repr]
  exact Nat.toDigits_ne_nil

theorem digit_bare {c : Char} (h : c.isDigit = true) : c ≠ ' ' ∧ c ≠ ',' ∧ c ≠ '(' ∧ c ≠ ')' ∧ c ≠ '\n' := by
  refine ⟨?_, ?_, ?_, ?_, ?_⟩ <;> rintro rfl <;> exact absurd h (by decide)

theorem int_toString (z : ℤ) : (∃ n : ℕ, (toString z).toList = n.repr.toList) ∨
    ∃ n : ℕ, (toString z).toList = '-' :: n.repr.toList := by
  cases z with
  | ofNat n => exact Or.inl ⟨n, rfl⟩
  | negSucc n =>
    refine Or.inr ⟨n + 1, ?_⟩
    show ("-" ++ (n + 1).repr).toList = _
    simp

theorem int_toString_inj {z w : ℤ} (h : toString z = toString w) : z = w := Int.repr_injective h

theorem int_bare (z : ℤ) : Bare (toString z).toList := by
  intro c hc
  rcases int_toString z with ⟨n, h⟩ | ⟨n, h⟩
  · rw [h] at hc; exact digit_bare (nat_repr_digits n c hc)
  · rw [h] at hc
    rcases List.mem_cons.1 hc with rfl | hc
    · decide
    · exact digit_bare (nat_repr_digits n c hc)

theorem int_numeric (z : ℤ) : Numeric (toString z).toList := by
  rcases int_toString z with ⟨n, h⟩ | ⟨n, h⟩
  · rw [h]
    have h1 := nat_repr_ne_nil n
    have h2 := nat_repr_digits n
    cases hn : n.repr.toList with
    | nil => exact absurd hn h1
    | cons c r => exact Or.inl (h2 c (by rw [hn]; simp))
  · rw [h]
    have h1 := nat_repr_ne_nil n
    have h2 := nat_repr_digits n
    cases hn : n.repr.toList with
    | nil => exact absurd hn h1
    | cons c r => exact Or.inr ⟨rfl, c, r, rfl, h2 c (by rw [hn]; simp)⟩

section
variable {num : K → String} (hnum : PrintsNumbers num)
include hnum

theorem num_bare (x : K) : Bare (num x).toList := hnum.chars x

theorem num_inj {x y : K} : (num x).toList = (num y).toList ↔ x = y :=
  ⟨fun h => hnum.inj x y (String.toList_inj.1 h), fun h => by rw [h]⟩

theorem pstr_bare {v : Scalar K} (hv : IsNumber v) : Bare (v.pstr num).toList := by
  cases v with
  | int z => exact int_bare z
  | flt x => exact hnum.chars x
  | _ => exact hv.elim

theorem pstr_numeric {v : Scalar K} (hv : IsNumber v) : Numeric (v.pstr num).toList := by
  cases v with
  | int z => exact int_numeric z
  | flt x =>
    rcases hnum.starts x with ⟨c, r, h, hc⟩ | ⟨c, r, h, hc⟩
    · simp only [Scalar.pstr]; rw [h]; exact Or.inl hc
    · simp only [Scalar.pstr]; rw [h]; exact Or.inr ⟨rfl, c, r, rfl, hc⟩
  | _ => exact hv.elim

theorem pstr_inj {v w : Scalar K} (hv : IsNumber v) (hw : IsNumber w)
    (h : (v.pstr num).toList = (w.pstr num).toList) : v = w := by
  rw [String.toList_inj] at h
  cases v with
  | int z =>
    cases w with
    | int z' => rw [int_toString_inj h]
    | flt x => exact absurd h.symm (hnum.notInt x z)
    | _ => exact hw.elim
  | flt x =>
    cases w with
    | int z' => exact absurd h (hnum.notInt x z')
    | flt y => rw [hnum.inj x y h]
    | _ => exact hw.elim
  | _ => exact hv.elim

end

/-- `name`, or `name(args)`. -/
def callStr : List Char × List (List Char) → List Char
  | (n, []) => n
  | (n, a :: as) => n ++ '(' :: (joinArgs (a :: as) ++ [')'])

theorem callStr_inj {f g : List Char × List (List Char)} (hf : '(' ∉ f.1) (hg : '(' ∉ g.1)
    (ha : ∀ a ∈ f.2, Bal isComma 0 a) (hb : ∀ b ∈ g.2, Bal isComma 0 b) (h : callStr f = callStr g) : f = g := by
  obtain ⟨n, as⟩ := f
  obtain ⟨m, bs⟩ := g
  cases as with
  | nil =>
    cases bs with
    | nil => exact Prod.ext h rfl
    | cons b bs =>
      have h : n = m ++ '(' :: (joinArgs (b :: bs) ++ [')']) := h
      exact absurd (show '(' ∈ n by rw [h]; simp) hf
  | cons a as =>
    cases bs with
    | nil =>
      have h : n ++ '(' :: (joinArgs (a :: as) ++ [')']) = m := h
      exact absurd (show '(' ∈ m by rw [← h]; simp) hg
    | cons b bs =>
      obtain ⟨h3, h4⟩ := call_inj hf hg ha hb (List.cons_ne_nil _ _) (List.cons_ne_nil _ _) h
      exact Prod.ext h3 h4

theorem callStr_bal {f : List Char × List (List Char)} (hf : Bare f.1) (ha : ∀ a ∈ f.2, Bal isComma 0 a) :
    Bal isSep 0 (callStr f) := by
  have hn : ∀ c ∈ f.1, isSep c = false ∧ c ≠ '(' ∧ c ≠ ')' := by
    intro c hc
    obtain ⟨h1, h2, h3, h4, -⟩ := hf c hc
    exact ⟨by simp [isSep, h1, h2], h3, h4⟩
  obtain ⟨n, as⟩ := f
  cases as with
  | nil => exact bal_flat hn
  | cons a as => exact bal_call (by decide) hn (joinArgs_bal ha)

/-- The printed bounds. -/
def clipArgs (num : K → String) (lc rc : Option (Scalar K)) : List String :=
  (match lc with | some v => ["lclip=" ++ v.pstr num] | none => []) ++
  (match rc with | some v => ["rclip=" ++ v.pstr num] | none => [])

/-- The printed arguments of `t` distributions. -/
def tArgs (num : K → String) (x y : Option K) (t cred : K) : List String :=
  match x with
  | some x => ["x=" ++ num x, "y=" ++ (match y with | some y => num y | none => "None"), "t=" ++ num t] ++
      (if cred = 90 then [] else ["credibility=" ++ num cred])
  | none => ["t=" ++ num t]

/-- Name and arguments of a printed basic distribution. -/
def Leaf.form (num : K → String) (lc rc : Option (Scalar K)) : Leaf K → String × List String
  | .const v => ("const", [v.pstr num])
  | .uniform x y => ("uniform", [num x, num y])
  | .normal m s => ("norm", ["mean=" ++ num (round2 m), "sd=" ++ num (round2 s)] ++ clipArgs num lc rc)
  | .binomial n p => ("binomial", ["n=" ++ toString n, "p=" ++ num p])
  | .beta a b => ("beta", ["a=" ++ num a, "b=" ++ num b])
  | .bernoulli p => ("bernoulli", ["p=" ++ num p])
  | .triangular l m r => ("triangular", [num l, num m, num r])
  | .pert l m r lam => ("PERT", [num l, num m, num r, "lam=" ++ num lam] ++ clipArgs num lc rc)
  | .tdist x y t cred => ("tdist", tArgs num x y t cred ++ clipArgs num lc rc)
  | .logtdist x y t cred => ("log_tdist", tArgs num x y t cred ++ clipArgs num lc rc)
  | .poisson lam => ("poisson", [num lam] ++ clipArgs num lc rc)
  | .chisquare df => ("chisquare", [num df])
  | .exponential sc => ("exponential", [num sc] ++ clipArgs num lc rc)
  | .gamma sh sc => ("gamma", ["shape=" ++ num sh, "scale=" ++ num sc] ++ clipArgs num lc rc)
  | .pareto sh => ("pareto", [num sh])
  | .geometric p => ("geometric", ["p=" ++ num p])
  | .die d => ("Die", [toString d.sides])
  | .coin => ("Coin", [])
  | _ => ("", [])

/-- The characters of a call. -/
def formChars (f : String × List String) : List Char := callStr (f.1.toList, f.2.map String.toList)

theorem joinArgs_snoc : ∀ (as : List (List Char)) (b : List Char), as ≠ [] →
    joinArgs (as ++ [b]) = joinArgs as ++ (',' :: ' ' :: b)
  | [], _, h => absurd rfl h
  | [_], _, _ => rfl
  | a :: a' :: as, b, _ => by
    have ih := joinArgs_snoc (a' :: as) b (by simp)
    simp only [List.cons_append] at ih
    simp only [List.cons_append, joinArgs, ih, List.append_assoc]

theorem joinArgs_clips (num : K → String) (lc rc : Option (Scalar K)) {as : List String} (h : as ≠ []) :
    joinArgs ((as ++ clipArgs num lc rc).map String.toList)
      = joinArgs (as.map String.toList) ++ (clipStr num lc rc).toList := by
  have h' : as.map String.toList ≠ [] := by simpa using h
  cases lc with
  | none =>
    cases rc with
    | none => simp [clipArgs, clipStr]
    | some w =>
      simp only [clipArgs, clipStr, List.nil_append, List.map_append, List.map_cons, List.map_nil]
      rw [joinArgs_snoc _ _ h']
      simp
  | some v =>
    cases rc with
    | none =>
      simp only [clipArgs, clipStr, List.append_nil, List.map_append, List.map_cons, List.map_nil]
      rw [joinArgs_snoc _ _ h']
      simp
    | some w =>
      simp only [clipArgs, clipStr, List.map_append, List.map_cons, List.map_nil]
      rw [← List.append_assoc, joinArgs_snoc _ _ (by simp), joinArgs_snoc _ _ h']
      simp

theorem joinArgs_t (num : K → String) (x y : Option K) (t cred : K) :
    joinArgs ((tArgs num x y t cred).map String.toList) = (tStr num x y t cred).toList := by
  cases x with
  | none => simp [tArgs, tStr, joinArgs]
  | some x =>
    by_cases hc : cred = 90
    · cases y <;> simp [tArgs, tStr, joinArgs, hc]
    · cases y <;> simp [tArgs, tStr, joinArgs, hc]

theorem tArgs_ne_nil (num : K → String) (x y : Option K) (t cred : K) : tArgs num x y t cred ≠ [] := by
  cases x with
  | none => exact List.cons_ne_nil _ _
  | some x => exact List.cons_ne_nil _ _

theorem formChars_clips (num : K → String) (lc rc : Option (Scalar K)) (n : String) {as : List String}
    (h : as ≠ []) : formChars (n, as ++ clipArgs num lc rc)
      = n.toList ++ '(' :: (joinArgs (as.map String.toList) ++ (clipStr num lc rc).toList ++ [')']) := by
  cases as with
  | nil => exact absurd rfl h
  | cons a as =>
    rw [← joinArgs_clips num lc rc h]
    rfl

theorem leaf_form (num : K → String) {l : Leaf K} {lc rc : Option (Scalar K)} (hl : PlainLeaf l lc rc) :
    ∃ s, l.str? num lc rc = some s ∧ s.toList = formChars (l.form num lc rc) := by
  obtain ⟨-, -, h⟩ := hl
  cases l with
  | lognormal => exact h.elim
  | invlognormal => exact h.elim
  | categorical => exact h.elim
  | die d =>
    refine ⟨"Die(" ++ toString d.sides ++ ")", ?_, ?_⟩
    · have h' : d.explodeOn = none := h.1
      simp only [Leaf.str?, h']
    · simp only [Leaf.form, formChars, List.map_cons, List.map_nil, callStr, joinArgs]
      simp
  | tdist x y t cred =>
    refine ⟨_, rfl, ?_⟩
    simp only [Leaf.form]
    rw [formChars_clips num lc rc _ (tArgs_ne_nil _ _ _ _ _), joinArgs_t]
    simp
  | logtdist x y t cred =>
    refine ⟨_, rfl, ?_⟩
    simp only [Leaf.form]
    rw [formChars_clips num lc rc _ (tArgs_ne_nil _ _ _ _ _), joinArgs_t]
    simp
  | coin => exact ⟨_, rfl, rfl⟩
  | normal =>
    refine ⟨_, rfl, ?_⟩
    simp only [Leaf.form]
    rw [formChars_clips num lc rc _ (List.cons_ne_nil _ _)]
    simp only [List.map_cons, List.map_nil, joinArgs]
    simp
  | pert =>
    refine ⟨_, rfl, ?_⟩
    simp only [Leaf.form]
    rw [formChars_clips num lc rc _ (List.cons_ne_nil _ _)]
    simp only [List.map_cons, List.map_nil, joinArgs]
    simp
  | poisson =>
    refine ⟨_, rfl, ?_⟩
    simp only [Leaf.form]
    rw [formChars_clips num lc rc _ (List.cons_ne_nil _ _)]
    simp only [List.map_cons, List.map_nil, joinArgs]
    simp
  | exponential =>
    refine ⟨_, rfl, ?_⟩
    simp only [Leaf.form]
    rw [formChars_clips num lc rc _ (List.cons_ne_nil _ _)]
    simp only [List.map_cons, List.map_nil, joinArgs]
    simp
  | gamma =>
    refine ⟨_, rfl, ?_⟩
    simp only [Leaf.form]
    rw [formChars_clips num lc rc _ (List.cons_ne_nil _ _)]
    simp only [List.map_cons, List.map_nil, joinArgs]
    simp
  | _ =>
    refine ⟨_, rfl, ?_⟩
    simp only [Leaf.form, formChars, List.map_cons, List.map_nil, callStr, joinArgs]
    simp

theorem label_ne {a b s t : String} (h : a.toList.head? ≠ b.toList.head?) (ha : a.toList ≠ []) (hb : b.toList ≠ []) :
    a ++ s ≠ b ++ t := by
  intro e
  have := congrArg (fun x => x.toList.head?) e
  simp only [String.toList_append, List.head?_append_of_ne_nil _ ha, List.head?_append_of_ne_nil _ hb] at this
  exact h this

section
variable {num : K → String} (hnum : PrintsNumbers num)
include hnum

theorem pstr_inj' {v w : Scalar K} (hv : IsNumber v) (hw : IsNumber w) (h : v.pstr num = w.pstr num) : v = w :=
  pstr_inj hnum hv hw (by rw [h])

theorem clipArgs_inj {lc rc lc' rc' : Option (Scalar K)}
    (h1 : ∀ v, lc = some v → IsNumber v) (h2 : ∀ v, rc = some v → IsNumber v)
    (h1' : ∀ v, lc' = some v → IsNumber v) (h2' : ∀ v, rc' = some v → IsNumber v)
    (h : clipArgs num lc rc = clipArgs num lc' rc') : lc = lc' ∧ rc = rc' := by
  have hne : ∀ s t : String, "lclip=" ++ s ≠ "rclip=" ++ t := fun s t => label_ne (by decide) (by decide) (by decide)
  have hl : ∀ {v w : Scalar K}, IsNumber v → IsNumber w → "lclip=" ++ v.pstr num = "lclip=" ++ w.pstr num → v = w :=
    fun hv hw e => pstr_inj' hnum hv hw (String.append_right_inj _ |>.1 e)
  have hr : ∀ {v w : Scalar K}, IsNumber v → IsNumber w → "rclip=" ++ v.pstr num = "rclip=" ++ w.pstr num → v = w :=
    fun hv hw e => pstr_inj' hnum hv hw (String.append_right_inj _ |>.1 e)
  cases lc with
  | none =>
    cases lc' with
    | none =>
      cases rc with
      | none => cases rc' with
        | none => exact ⟨rfl, rfl⟩
        | some w' => simp [clipArgs] at h
      | some w => cases rc' with
        | none => simp [clipArgs] at h
        | some w' =>
          simp only [clipArgs, List.nil_append, List.cons.injEq, and_true] at h
          exact ⟨rfl, by rw [hr (h2 w rfl) (h2' w' rfl) h]⟩
    | some v' =>
      cases rc with
      | none => cases rc' <;> simp [clipArgs] at h
      | some w =>
        simp only [clipArgs, List.nil_append, List.cons_append, List.cons.injEq] at h
        exact absurd h.1.symm (hne _ _)
  | some v =>
    cases lc' with
    | none =>
      cases rc' with
      | none => cases rc <;> simp [clipArgs] at h
      | some w =>
        simp only [clipArgs, List.nil_append, List.cons_append, List.cons.injEq] at h
        exact absurd h.1 (hne _ _)
    | some v' =>
      simp only [clipArgs, List.nil_append, List.cons_append, List.cons.injEq] at h
      obtain ⟨ha, hb⟩ := h
      refine ⟨by rw [hl (h1 v rfl) (h1' v' rfl) ha], ?_⟩
      cases rc with
      | none => cases rc' with
        | none => rfl
        | some w' => simp at hb
      | some w => cases rc' with
        | none => simp at hb
        | some w' =>
          simp only [List.cons.injEq, and_true] at hb
          rw [hr (h2 w rfl) (h2' w' rfl) hb]

/-- Same printed arguments of `t` distributions. -/
theorem tArgs_inj {x y x' y' : Option K} {t cred t' cred' : K} {lc rc lc' rc' : Option (Scalar K)}
    (hxy : x = none ↔ y = none) (hxy' : x' = none ↔ y' = none)
    (h1 : ∀ v, lc = some v → IsNumber v) (h2 : ∀ v, rc = some v → IsNumber v)
    (h1' : ∀ v, lc' = some v → IsNumber v) (h2' : ∀ v, rc' = some v → IsNumber v)
    (h : tArgs num x y t cred ++ clipArgs num lc rc = tArgs num x' y' t' cred' ++ clipArgs num lc' rc') :
    x = x' ∧ y = y' ∧ t = t' ∧ (x ≠ none → cred = cred') ∧ lc = lc' ∧ rc = rc' := by
  have hlab : ∀ {a : String} {u w : K}, a ++ num u = a ++ num w → u = w :=
    fun e => hnum.inj _ _ (String.append_right_inj _ |>.1 e)
  have hxt : ∀ s t : String, "x=" ++ s ≠ "t=" ++ t := fun s t => label_ne (by decide) (by decide) (by decide)
  have hcl : ∀ (s : String) (lc rc : Option (Scalar K)), "credibility=" ++ s ∉ clipArgs num lc rc := by
    intro s lc rc hm
    have e1 : ∀ t, "credibility=" ++ s ≠ "lclip=" ++ t := fun t => label_ne (by decide) (by decide) (by decide)
    have e2 : ∀ t, "credibility=" ++ s ≠ "rclip=" ++ t := fun t => label_ne (by decide) (by decide) (by decide)
    unfold clipArgs at hm
    rcases List.mem_append.1 hm with hm | hm
    · cases lc with
      | none => cases hm
      | some v => exact e1 _ (List.mem_singleton.1 hm)
    · cases rc with
      | none => cases hm
      | some v => exact e2 _ (List.mem_singleton.1 hm)
  cases x with
  | none =>
    obtain rfl : y = none := hxy.1 rfl
    cases x' with
    | none =>
      obtain rfl : y' = none := hxy'.1 rfl
      simp only [tArgs, List.cons_append, List.nil_append, List.cons.injEq] at h
      obtain ⟨e1, e2⟩ := clipArgs_inj hnum h1 h2 h1' h2' h.2
      exact ⟨rfl, rfl, hlab h.1, fun h => absurd rfl h, e1, e2⟩
    | some x' =>
      simp only [tArgs, List.cons_append, List.nil_append, List.cons.injEq] at h
      exact absurd h.1.symm (hxt _ _)
  | some x =>
    cases x' with
    | none =>
      simp only [tArgs, List.cons_append, List.nil_append, List.cons.injEq] at h
      exact absurd h.1 (hxt _ _)
    | some x' =>
      cases y with
      | none => exact absurd (hxy.2 rfl) (by simp)
      | some y =>
        cases y' with
        | none => exact absurd (hxy'.2 rfl) (by simp)
        | some y' =>
          simp only [tArgs, List.cons_append, List.nil_append, List.cons.injEq] at h
          obtain ⟨ha, hb, hc, hd⟩ := h
          rw [hlab ha, hlab hb, hlab hc]
          refine ⟨rfl, rfl, rfl, ?_⟩
          by_cases c1 : cred = 90
          · by_cases c2 : cred' = 90
            · simp only [c1, c2, if_true, List.nil_append] at hd
              obtain ⟨e1, e2⟩ := clipArgs_inj hnum h1 h2 h1' h2' hd
              exact ⟨fun _ => c1.trans c2.symm, e1, e2⟩
            · simp only [c1, c2, if_true, if_false, List.nil_append, List.cons_append] at hd
              exact absurd (by rw [hd]; simp) (hcl (num cred') lc rc)
          · by_cases c2 : cred' = 90
            · simp only [c1, c2, if_true, if_false, List.nil_append, List.cons_append] at hd
              exact absurd (by rw [← hd]; simp) (hcl (num cred) lc' rc')
            · simp only [c1, c2, if_false, List.nil_append, List.cons_append, List.cons.injEq] at hd
              obtain ⟨e1, e2⟩ := clipArgs_inj hnum h1 h2 h1' h2' hd.2
              exact ⟨fun _ => hlab hd.1, e1, e2⟩

end

end Verif
