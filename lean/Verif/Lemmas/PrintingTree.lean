import Verif.Lemmas.PrintingLeaf
import Verif.Lemmas.Round

/-! Reading printed expressions back. -/

namespace Verif

open Spec

set_option linter.unusedSectionVars false

variable {σ K : Type} [Field K] [LinearOrder K] [FloorRing K] [IsStrictOrderedRing K]

theorem roundEven_spec (x : K) : IsHundredths x (roundEven (x * 100)) := by
  have h1 := Int.floor_le (x * 100)
  have h2 := Int.lt_floor_add_one (x * 100)
  refine ⟨?_, ?_⟩
  · have := abs_roundEven_sub_le (x * 100)
    rw [abs_sub_comm] at this
    rwa [mul_comm]
  · unfold roundEven
    simp only
    split_ifs with h3 h4 h5
    · intro h
      rw [mul_comm, abs_of_nonneg (by linarith)] at h
      linarith
    · intro h
      push_cast at h
      rw [mul_comm, abs_of_nonpos (by linarith)] at h
      linarith
    · intro _
      exact Int.even_iff.2 h5
    · intro _
      rw [Int.even_iff]
      omega

theorem hundredths_unique {x : K} {k l : ℤ} (hk : IsHundredths x k) (hl : IsHundredths x l) : k = l := by
  have key : ∀ k l : ℤ, IsHundredths x k → IsHundredths x l → ¬ k < l := by
    intro k l hk hl hlt
    have h1 := abs_le.1 hk.1
    have h2 := abs_le.1 hl.1
    have h3 : (k : K) + 1 ≤ l := by exact_mod_cast hlt
    have h4 : 100 * x - k = 1 / 2 := by linarith
    have h5 : 100 * x - l = -(1 / 2) := by linarith
    have e1 := hk.2 (by rw [h4]; exact abs_of_pos (by norm_num))
    have e2 := hl.2 (by rw [h5, abs_neg]; exact abs_of_pos (by norm_num))
    have h6 : (l : K) = ((k + 1 : ℤ) : K) := by push_cast; linarith
    have h7 : l = k + 1 := by exact_mod_cast h6
    rw [Int.even_iff] at e1 e2
    omega
  exact le_antisymm (not_lt.1 (key l k hl hk)) (not_lt.1 (key k l hk hl))

theorem round2_eq_iff {x y : K} : round2 x = round2 y ↔ SameHundredths x y := by
  unfold round2
  rw [div_left_inj' (by norm_num : (100 : K) ≠ 0), Int.cast_inj]
  constructor
  · intro h
    exact ⟨_, roundEven_spec x, h ▸ roundEven_spec y⟩
  · rintro ⟨k, h1, h2⟩
    rw [hundredths_unique (roundEven_spec x) h1, hundredths_unique (roundEven_spec y) h2]

/-- The printed names of basic distributions. -/
def leafNames : List String :=
  ["const", "uniform", "norm", "binomial", "beta", "bernoulli", "triangular", "PERT", "tdist", "log_tdist",
    "poisson", "chisquare", "exponential", "gamma", "pareto", "geometric", "Die", "Coin"]

theorem leaf_name (num : K → String) {l : Leaf K} {lc rc : Option (Scalar K)} (hl : PlainLeaf l lc rc) :
    (l.form num lc rc).1 ∈ leafNames := by
  obtain ⟨-, -, h⟩ := hl
  cases l with
  | lognormal => exact h.elim
  | invlognormal => exact h.elim
  | categorical => exact h.elim
  | _ => simp [Leaf.form, leafNames]

section
variable {num : K → String} (hnum : PrintsNumbers num)
include hnum

theorem bare_label {a : String} (ha : Bare a.toList) {b : String} (hb : Bare b.toList) : Bare (a ++ b).toList := by
  intro c hc
  rw [String.toList_append] at hc
  rcases List.mem_append.1 hc with h | h
  · exact ha c h
  · exact hb c h

theorem clipArgs_bare {lc rc : Option (Scalar K)} (h1 : ∀ v, lc = some v → IsNumber v)
    (h2 : ∀ v, rc = some v → IsNumber v) : ∀ s ∈ clipArgs num lc rc, Bare s.toList := by
  intro s hs
  unfold clipArgs at hs
  rcases List.mem_append.1 hs with hs | hs
  · cases lc with
    | none => cases hs
    | some v =>
      rw [List.mem_singleton.1 hs]
      exact bare_label hnum (by unfold Bare; decide) (pstr_bare hnum (h1 v rfl))
  · cases rc with
    | none => cases hs
    | some v =>
      rw [List.mem_singleton.1 hs]
      exact bare_label hnum (by unfold Bare; decide) (pstr_bare hnum (h2 v rfl))

theorem tArgs_bare (x y : Option K) (t cred : K) : ∀ s ∈ tArgs num x y t cred, Bare s.toList := by
  have hn := fun u => num_bare hnum (x := u)
  intro s hs
  cases x with
  | none =>
    rw [List.mem_singleton.1 hs]
    exact bare_label hnum (by unfold Bare; decide) (hn _)
  | some x =>
    simp only [tArgs, List.cons_append, List.nil_append, List.mem_cons] at hs
    rcases hs with rfl | rfl | rfl | hs
    · exact bare_label hnum (by unfold Bare; decide) (hn _)
    · cases y with
      | none => exact bare_label hnum (by unfold Bare; decide) (b := "None") (by unfold Bare; decide)
      | some y => exact bare_label hnum (by unfold Bare; decide) (hn _)
    · exact bare_label hnum (by unfold Bare; decide) (hn _)
    · split_ifs at hs
      · cases hs
      · rw [List.mem_singleton.1 hs]
        exact bare_label hnum (by unfold Bare; decide) (hn _)

theorem leaf_args_bare {l : Leaf K} {lc rc : Option (Scalar K)} (hl : PlainLeaf l lc rc) :
    ∀ s ∈ (l.form num lc rc).2, Bare s.toList := by
  have hn := fun u => num_bare hnum (x := u)
  have hb : ∀ {a : String}, Bare a.toList → ∀ u, Bare (a ++ num u).toList := fun ha u => bare_label hnum ha (hn u)
  obtain ⟨h1, h2, h⟩ := hl
  have hc := clipArgs_bare hnum h1 h2
  intro s hs
  cases l with
  | lognormal => exact h.elim
  | invlognormal => exact h.elim
  | categorical => exact h.elim
  | const v => simp only [Leaf.form, List.mem_singleton] at hs; subst hs; exact pstr_bare hnum h.1
  | die d => simp only [Leaf.form, List.mem_singleton] at hs; subst hs; exact int_bare _
  | coin => cases hs
  | tdist x y t cred =>
    rcases List.mem_append.1 hs with hs | hs
    · exact tArgs_bare hnum _ _ _ _ s hs
    · exact hc s hs
  | logtdist x y t cred =>
    rcases List.mem_append.1 hs with hs | hs
    · exact tArgs_bare hnum _ _ _ _ s hs
    · exact hc s hs
  | binomial n p =>
    simp only [Leaf.form, List.mem_cons, List.not_mem_nil, or_false] at hs
    rcases hs with rfl | rfl
    · exact bare_label hnum (by unfold Bare; decide) (int_bare _)
    · exact hb (by unfold Bare; decide) _
  | uniform x y =>
    simp only [Leaf.form, List.mem_cons, List.mem_append, List.not_mem_nil, or_false, or_assoc] at hs
    rcases hs with rfl | rfl
    · exact hn _
    · exact hn _
  | normal m s =>
    simp only [Leaf.form, List.mem_cons, List.mem_append, List.not_mem_nil, or_false, or_assoc] at hs
    rcases hs with rfl | rfl | hs
    · exact hb (by unfold Bare; decide) _
    · exact hb (by unfold Bare; decide) _
    · exact hc _ hs
  | beta a b =>
    simp only [Leaf.form, List.mem_cons, List.mem_append, List.not_mem_nil, or_false, or_assoc] at hs
    rcases hs with rfl | rfl
    · exact hb (by unfold Bare; decide) _
    · exact hb (by unfold Bare; decide) _
  | bernoulli p =>
    simp only [Leaf.form, List.mem_cons, List.mem_append, List.not_mem_nil, or_false, or_assoc] at hs
    subst hs
    exact hb (by unfold Bare; decide) _
  | triangular l m r =>
    simp only [Leaf.form, List.mem_cons, List.mem_append, List.not_mem_nil, or_false, or_assoc] at hs
    rcases hs with rfl | rfl | rfl
    · exact hn _
    · exact hn _
    · exact hn _
  | pert l m r lam =>
    simp only [Leaf.form, List.mem_cons, List.mem_append, List.not_mem_nil, or_false, or_assoc] at hs
    rcases hs with rfl | rfl | rfl | rfl | hs
    · exact hn _
    · exact hn _
    · exact hn _
    · exact hb (by unfold Bare; decide) _
    · exact hc _ hs
  | poisson lam =>
    simp only [Leaf.form, List.mem_cons, List.mem_append, List.not_mem_nil, or_false, or_assoc] at hs
    rcases hs with rfl | hs
    · exact hn _
    · exact hc _ hs
  | chisquare df =>
    simp only [Leaf.form, List.mem_cons, List.mem_append, List.not_mem_nil, or_false, or_assoc] at hs
    subst hs
    exact hn _
  | exponential sc =>
    simp only [Leaf.form, List.mem_cons, List.mem_append, List.not_mem_nil, or_false, or_assoc] at hs
    rcases hs with rfl | hs
    · exact hn _
    · exact hc _ hs
  | gamma sh sc =>
    simp only [Leaf.form, List.mem_cons, List.mem_append, List.not_mem_nil, or_false, or_assoc] at hs
    rcases hs with rfl | rfl | hs
    · exact hb (by unfold Bare; decide) _
    · exact hb (by unfold Bare; decide) _
    · exact hc _ hs
  | pareto sh =>
    simp only [Leaf.form, List.mem_cons, List.mem_append, List.not_mem_nil, or_false, or_assoc] at hs
    subst hs
    exact hn _
  | geometric p =>
    simp only [Leaf.form, List.mem_cons, List.mem_append, List.not_mem_nil, or_false, or_assoc] at hs
    subst hs
    exact hb (by unfold Bare; decide) _

/-- Basic distributions with the same printed form. -/
theorem leaf_alike {l l' : Leaf K} {lc rc lc' rc' : Option (Scalar K)} (hl : PlainLeaf l lc rc)
    (hl' : PlainLeaf l' lc' rc') (h : l.form num lc rc = l'.form num lc' rc') :
    PrintsAlike (σ := σ) (.leaf l lc rc) (.leaf l' lc' rc') := by
  have hlab : ∀ {a : String} {u w : K}, a ++ num u = a ++ num w → u = w :=
    fun e => hnum.inj _ _ (String.append_right_inj _ |>.1 e)
  have hn : ∀ {u w : K}, num u = num w → u = w := fun e => hnum.inj _ _ e
  obtain ⟨h1, h2, hl⟩ := hl
  obtain ⟨h1', h2', hl'⟩ := hl'
  have hcl : clipArgs num lc rc = clipArgs num lc' rc' → lc = lc' ∧ rc = rc' := clipArgs_inj hnum h1 h2 h1' h2'
  have hname := congrArg Prod.fst h
  have hargs := congrArg Prod.snd h
  clear h
  cases l with
  | lognormal => exact hl.elim
  | invlognormal => exact hl.elim
  | categorical => exact hl.elim
  | const v =>
    cases l' <;> first | exact hl'.elim | (exfalso; simp [Leaf.form] at hname; done) | skip
    rename_i w
    simp only [Leaf.form, List.cons.injEq, and_true] at hargs
    rw [pstr_inj' hnum hl.1 hl'.1 hargs, hl.2.1, hl.2.2, hl'.2.1, hl'.2.2]
    exact .refl _
  | normal m s =>
    cases l' <;> first | exact hl'.elim | (exfalso; simp [Leaf.form] at hname; done) | skip
    simp only [Leaf.form, List.cons_append, List.nil_append, List.cons.injEq] at hargs
    obtain ⟨ha, hb, hc⟩ := hargs
    obtain ⟨rfl, rfl⟩ := hcl hc
    exact .normal _ _ (round2_eq_iff.1 (hlab ha)) (round2_eq_iff.1 (hlab hb))
  | tdist x y t cred =>
    cases l' <;> first | exact hl'.elim | (exfalso; simp [Leaf.form] at hname; done) | skip
    obtain ⟨rfl, rfl, rfl, hc, rfl, rfl⟩ := tArgs_inj hnum hl hl' h1 h2 h1' h2' hargs
    cases x with
    | none => obtain rfl : y = none := hl.1 rfl; exact .tdist _ _ _ _ _
    | some x => rw [hc (by simp)]; exact .refl _
  | logtdist x y t cred =>
    cases l' <;> first | exact hl'.elim | (exfalso; simp [Leaf.form] at hname; done) | skip
    obtain ⟨rfl, rfl, rfl, hc, rfl, rfl⟩ := tArgs_inj hnum hl hl' h1 h2 h1' h2' hargs
    cases x with
    | none => obtain rfl : y = none := hl.1 rfl; exact .logtdist _ _ _ _ _
    | some x => rw [hc (by simp)]; exact .refl _
  | die d =>
    cases l' <;> first | exact hl'.elim | (exfalso; simp [Leaf.form] at hname; done) | skip
    rename_i d'
    simp only [Leaf.form, List.cons.injEq, and_true] at hargs
    have e1 : d = d' := by
      have ha : d.explodeOn = none := hl.1
      have hb : d'.explodeOn = none := hl'.1
      cases d; cases d'
      simp only at ha hb hargs
      rw [ha, hb, int_toString_inj hargs]
    rw [e1, hl.2.1, hl.2.2, hl'.2.1, hl'.2.2]
    exact .refl _
  | coin =>
    cases l' <;> first | exact hl'.elim | (exfalso; simp [Leaf.form] at hname; done) | skip
    rw [hl.1, hl.2, hl'.1, hl'.2]
    exact .refl _
  | binomial n p =>
    cases l' <;> first | exact hl'.elim | (exfalso; simp [Leaf.form] at hname; done) | skip
    simp only [Leaf.form, List.cons.injEq, and_true] at hargs
    obtain ⟨ha, hb⟩ := hargs
    rw [int_toString_inj (String.append_right_inj _ |>.1 ha), hlab hb, hl.1, hl.2, hl'.1, hl'.2]
    exact .refl _
  | uniform x y =>
    cases l' <;> first | exact hl'.elim | (exfalso; simp [Leaf.form] at hname; done) | skip
    simp only [Leaf.form, List.cons_append, List.nil_append, List.cons.injEq, and_true] at hargs
    obtain ⟨e0, e1⟩ := hargs
    obtain rfl := hn e0
    obtain rfl := hn e1
    rw [hl.1, hl.2, hl'.1, hl'.2]
    exact .refl _
  | beta a b =>
    cases l' <;> first | exact hl'.elim | (exfalso; simp [Leaf.form] at hname; done) | skip
    simp only [Leaf.form, List.cons_append, List.nil_append, List.cons.injEq, and_true] at hargs
    obtain ⟨e0, e1⟩ := hargs
    obtain rfl := hlab e0
    obtain rfl := hlab e1
    rw [hl.1, hl.2, hl'.1, hl'.2]
    exact .refl _
  | bernoulli p =>
    cases l' <;> first | exact hl'.elim | (exfalso; simp [Leaf.form] at hname; done) | skip
    simp only [Leaf.form, List.cons_append, List.nil_append, List.cons.injEq, and_true] at hargs
    have e0 := hargs
    obtain rfl := hlab e0
    rw [hl.1, hl.2, hl'.1, hl'.2]
    exact .refl _
  | triangular l m r =>
    cases l' <;> first | exact hl'.elim | (exfalso; simp [Leaf.form] at hname; done) | skip
    simp only [Leaf.form, List.cons_append, List.nil_append, List.cons.injEq, and_true] at hargs
    obtain ⟨e0, e1, e2⟩ := hargs
    obtain rfl := hn e0
    obtain rfl := hn e1
    obtain rfl := hn e2
    rw [hl.1, hl.2, hl'.1, hl'.2]
    exact .refl _
  | pert l m r lam =>
    cases l' <;> first | exact hl'.elim | (exfalso; simp [Leaf.form] at hname; done) | skip
    simp only [Leaf.form, List.cons_append, List.nil_append, List.cons.injEq, and_true] at hargs
    obtain ⟨e0, e1, e2, e3, hc⟩ := hargs
    obtain rfl := hn e0
    obtain rfl := hn e1
    obtain rfl := hn e2
    obtain rfl := hlab e3
    obtain ⟨rfl, rfl⟩ := hcl hc
    exact .refl _
  | poisson lam =>
    cases l' <;> first | exact hl'.elim | (exfalso; simp [Leaf.form] at hname; done) | skip
    simp only [Leaf.form, List.cons_append, List.nil_append, List.cons.injEq, and_true] at hargs
    obtain ⟨e0, hc⟩ := hargs
    obtain rfl := hn e0
    obtain ⟨rfl, rfl⟩ := hcl hc
    exact .refl _
  | chisquare df =>
    cases l' <;> first | exact hl'.elim | (exfalso; simp [Leaf.form] at hname; done) | skip
    simp only [Leaf.form, List.cons_append, List.nil_append, List.cons.injEq, and_true] at hargs
    have e0 := hargs
    obtain rfl := hn e0
    rw [hl.1, hl.2, hl'.1, hl'.2]
    exact .refl _
  | exponential sc =>
    cases l' <;> first | exact hl'.elim | (exfalso; simp [Leaf.form] at hname; done) | skip
    simp only [Leaf.form, List.cons_append, List.nil_append, List.cons.injEq, and_true] at hargs
    obtain ⟨e0, hc⟩ := hargs
    obtain rfl := hn e0
    obtain ⟨rfl, rfl⟩ := hcl hc
    exact .refl _
  | gamma sh sc =>
    cases l' <;> first | exact hl'.elim | (exfalso; simp [Leaf.form] at hname; done) | skip
    simp only [Leaf.form, List.cons_append, List.nil_append, List.cons.injEq, and_true] at hargs
    obtain ⟨e0, e1, hc⟩ := hargs
    obtain rfl := hlab e0
    obtain rfl := hlab e1
    obtain ⟨rfl, rfl⟩ := hcl hc
    exact .refl _
  | pareto sh =>
    cases l' <;> first | exact hl'.elim | (exfalso; simp [Leaf.form] at hname; done) | skip
    simp only [Leaf.form, List.cons_append, List.nil_append, List.cons.injEq, and_true] at hargs
    have e0 := hargs
    obtain rfl := hn e0
    rw [hl.1, hl.2, hl'.1, hl'.2]
    exact .refl _
  | geometric p =>
    cases l' <;> first | exact hl'.elim | (exfalso; simp [Leaf.form] at hname; done) | skip
    simp only [Leaf.form, List.cons_append, List.nil_append, List.cons.injEq, and_true] at hargs
    have e0 := hargs
    obtain rfl := hlab e0
    rw [hl.1, hl.2, hl'.1, hl'.2]
    exact .refl _

end

/-! ### Expressions -/

variable (F : StrEnv σ K)

/-- The printed characters inside a larger expression. -/
def chars (d : Obj (St σ K) K) : List Char := (strObj F true d).toList

/-- Printed name of a one-argument function. -/
def UnFn.name : UnFn → String
  | .neg => "-" | .floor => "floor" | .ceil => "ceil" | .exp => "exp" | .round0 => "round" | .clipNone => "lclip"

/-- Printed name of a two-argument function. -/
def BinFn.name : BinFn → String
  | .op .max => "max" | .op .min => "min" | .op o => o.sym
  | .lclip => "lclip" | .rclip => "rclip" | .round => "round" | .log => "log"

/-- Is the function written between its arguments? -/
def BinFn.infix : BinFn → Bool
  | .op .max => false
  | .op .min => false
  | .op _ => true
  | _ => false

theorem infix_iff {o : BinOp} : (BinFn.op o).infix = true ↔ Infix o := by
  unfold Infix
  cases o <;> simp [BinFn.infix]

theorem alike_str {d e : Obj (St σ K) K} (h : PrintsAlike d e) : ∀ b, strObj F b d = strObj F b e := by
  have hop : ∀ {o : BinOp}, Infix o → ∀ (a b : Obj (St σ K) K) (s : Bool),
      strObj F s (.bin (.op o) a b) = distPrefix s ++ (strObj F true a ++ " " ++ o.sym ++ " " ++ strObj F true b) := by
    intro o ho a b s
    unfold Infix at ho
    cases o <;> simp_all [strObj]
  induction h with
  | refl => intro b; rfl
  | symm _ ih => intro b; exact (ih b).symm
  | trans _ _ ih1 ih2 => intro b; exact (ih1 b).trans (ih2 b)
  | regroup ho ho' a b c =>
    intro s
    rw [hop ho', hop ho, hop ho, hop ho']
    simp [distPrefix, String.append_assoc]
  | negFirst ho a b =>
    intro s
    have hneg : ∀ (x : Obj (St σ K) K) (b : Bool), strObj F b (.un .neg x) = distPrefix b ++ ("-" ++ strObj F true x) := by
      intro x b
      simp only [strObj]
    rw [hop ho, hneg, hop ho, hneg]
    simp [distPrefix, String.append_assoc]
  | normal lc rc hm hs => intro s; simp [strObj, Leaf.str?, round2_eq_iff.2 hm, round2_eq_iff.2 hs]
  | mix ws lc rc lc' rc' _ ih => intro s; simp [strObj, ih]
  | corr g m ms i => intro s; simp [strObj]
  | tdist t c c' lc rc => intro s; simp [strObj, Leaf.str?, tStr]
  | logtdist t c c' lc rc => intro s; simp [strObj, Leaf.str?, tStr]
  | un f _ ih => intro s; cases f <;> simp [strObj, ih true]
  | bin f _ _ ih1 ih2 =>
    intro s
    cases f with
    | op o => cases o <;> simp [strObj, ih1 true, ih2 true]
    | _ => simp [strObj, ih1 true, ih2 true]

theorem chars_infix {f : BinFn} (hf : f.infix = true) (a b : Obj (St σ K) K) :
    chars F (.bin f a b) = chars F a ++ ' ' :: (f.name.toList ++ ' ' :: chars F b) := by
  cases f with
  | op o => cases o <;> first | (exact absurd hf (by decide)) | simp [chars, strObj, distPrefix, BinFn.name]
  | _ => exact absurd hf (by decide)

/-- The first operand, in reading order. -/
def firstTerm : Obj (St σ K) K → Obj (St σ K) K
  | .bin f l r => if f.infix then firstTerm l else .bin f l r
  | .un .neg l => .un .neg (firstTerm l)
  | .corr _ _ ms i => firstTerm (ms i)
  | d => d

/-- The following operators and operands, in reading order. -/
def restTerms : Obj (St σ K) K → List (BinFn × Obj (St σ K) K)
  | .bin f l r => if f.infix then restTerms l ++ (f, firstTerm r) :: restTerms r else []
  | .un .neg l => restTerms l
  | .corr _ _ ms i => restTerms (ms i)
  | _ => []

/-- Operators grouped to the right. -/
def rebuild (a : Obj (St σ K) K) : List (BinFn × Obj (St σ K) K) → Obj (St σ K) K
  | [] => a
  | (f, b) :: ps => .bin f a (rebuild b ps)

theorem firstTerm_infix {f : BinFn} (hf : f.infix = true) (l r : Obj (St σ K) K) :
    firstTerm (.bin f l r) = firstTerm l := by
  rw [firstTerm, if_pos hf]

theorem restTerms_bin {f : BinFn} (hf : f.infix = true) (l r : Obj (St σ K) K) :
    restTerms (.bin f l r) = restTerms l ++ (f, firstTerm r) :: restTerms r := by
  rw [restTerms, if_pos hf]

theorem firstTerm_call {f : BinFn} (hf : ¬ f.infix = true) (l r : Obj (St σ K) K) :
    firstTerm (.bin f l r) = .bin f l r := by
  rw [firstTerm, if_neg hf]

theorem restTerms_call {f : BinFn} (hf : ¬ f.infix = true) (l r : Obj (St σ K) K) :
    restTerms (.bin f l r) = [] := by
  rw [restTerms, if_neg hf]

theorem rebuild_append (a b : Obj (St σ K) K) {f : BinFn} (hf : f.infix = true) (ps qs : List (BinFn × Obj (St σ K) K))
    (hps : ∀ p ∈ ps, p.1.infix = true) :
    PrintsAlike (rebuild a (ps ++ (f, b) :: qs)) (.bin f (rebuild a ps) (rebuild b qs)) := by
  induction ps generalizing a with
  | nil => exact .refl _
  | cons p ps ih =>
    obtain ⟨g, c⟩ := p
    have hg : g.infix = true := hps (g, c) (by simp)
    have h1 := ih c fun p hp => hps p (by simp [hp])
    refine .trans (.bin g (.refl a) h1) ?_
    cases f with
    | op o =>
      cases g with
      | op o' => exact .symm (.regroup (infix_iff.1 hg) (infix_iff.1 hf) _ _ _)
      | _ => exact absurd hg (by decide)
    | _ => exact absurd hf (by decide)

theorem rebuild_neg (a : Obj (St σ K) K) (ps : List (BinFn × Obj (St σ K) K)) (hps : ∀ p ∈ ps, p.1.infix = true) :
    PrintsAlike (.un .neg (rebuild a ps)) (rebuild (.un .neg a) ps) := by
  cases ps with
  | nil => exact .refl _
  | cons p ps =>
    obtain ⟨g, c⟩ := p
    have hg : g.infix = true := hps (g, c) (by simp)
    cases g with
    | op o => exact .negFirst (infix_iff.1 hg) _ _
    | _ => exact absurd hg (by decide)

theorem restTerms_infix (d : Obj (St σ K) K) : ∀ p ∈ restTerms d, p.1.infix = true := by
  induction d with
  | bin f l r ihl ihr =>
    intro p hp
    unfold restTerms at hp
    split_ifs at hp with hf
    · rcases List.mem_append.1 hp with h | h
      · exact ihl p h
      · rcases List.mem_cons.1 h with rfl | h
        · exact hf
        · exact ihr p h
    · cases hp
  | un f l ih =>
    cases f with
    | neg => exact ih
    | _ => intro p hp; cases hp
  | corr g m ms i ih => exact ih i
  | _ => intro p hp; cases hp

/-- Every expression prints like its reading. -/
theorem rebuild_alike (d : Obj (St σ K) K) : PrintsAlike d (rebuild (firstTerm d) (restTerms d)) := by
  induction d with
  | bin f l r ihl ihr =>
    by_cases hf : f.infix = true
    · rw [firstTerm_infix hf, restTerms_bin hf]
      exact .trans (.bin f ihl ihr) (.symm (rebuild_append _ _ hf _ _ (restTerms_infix l)))
    · rw [firstTerm_call hf, restTerms_call hf]
      exact .refl _
  | un f l ih =>
    cases f with
    | neg => exact .trans (.un .neg ih) (rebuild_neg _ _ (restTerms_infix l))
    | _ => exact .refl _
  | corr g m ms i ih => exact .trans (.corr g m ms i) (ih i)
  | _ => exact .refl _

/-- The characters of a reading. -/
def tailChars : List (BinFn × Obj (St σ K) K) → List Char
  | [] => []
  | (f, b) :: ps => ' ' :: (f.name.toList ++ ' ' :: (chars F b ++ tailChars ps))

theorem chars_rebuild (a : Obj (St σ K) K) (ps : List (BinFn × Obj (St σ K) K)) (hps : ∀ p ∈ ps, p.1.infix = true) :
    chars F (rebuild a ps) = chars F a ++ tailChars F ps := by
  induction ps generalizing a with
  | nil => simp [rebuild, tailChars]
  | cons p ps ih =>
    obtain ⟨g, c⟩ := p
    have hg : g.infix = true := hps (g, c) (by simp)
    simp only [rebuild, tailChars]
    rw [chars_infix F hg, ih c fun p hp => hps p (by simp [hp])]

theorem chars_reading (d : Obj (St σ K) K) : chars F d = chars F (firstTerm d) ++ tailChars F (restTerms d) := by
  rw [← chars_rebuild F _ _ (restTerms_infix d)]
  unfold chars
  rw [alike_str F (rebuild_alike d) true]

/-! ### Terms -/

/-- A term of a reading: a number, or `name(…)`, or such a thing with minus signs. -/
def IsTerm : Obj (St σ K) K → Prop
  | .lit v => IsNumber v
  | .leaf l lc rc => PlainLeaf l lc rc
  | .un .neg t => IsTerm t ∧ ¬ startsWithNumber t
  | .un _ x => Plain x
  | .bin f x y => f.infix = false ∧ Plain x ∧ Plain y
  | _ => False

theorem startsWithNumber_first (d : Obj (St σ K) K) : startsWithNumber (firstTerm d) ↔ startsWithNumber d := by
  induction d with
  | bin f l r ihl ihr =>
    by_cases hf : f.infix = true
    · rw [firstTerm_infix hf, ihl]
      cases f with
      | op o => cases o <;> first | (exact absurd hf (by decide)) | simp [startsWithNumber]
      | _ => exact absurd hf (by decide)
    · rw [firstTerm_call hf]
  | un f l ih => cases f <;> simp [firstTerm, startsWithNumber, ih]
  | corr g m ms i ih => simp [firstTerm, startsWithNumber, ih i]
  | _ => simp [firstTerm]

theorem plain_terms (d : Obj (St σ K) K) (hd : Plain d) :
    IsTerm (firstTerm d) ∧ ∀ p ∈ restTerms d, IsTerm p.2 := by
  induction d with
  | lit v => exact ⟨hd, fun p hp => by cases hp⟩
  | leaf l lc rc => exact ⟨hd, fun p hp => by cases hp⟩
  | bin f l r ihl ihr =>
    have hd : Plain l ∧ Plain r := hd
    by_cases hf : f.infix = true
    · rw [firstTerm_infix hf, restTerms_bin hf]
      refine ⟨(ihl hd.1).1, fun p hp => ?_⟩
      rcases List.mem_append.1 hp with h | h
      · exact (ihl hd.1).2 p h
      · rcases List.mem_cons.1 h with rfl | h
        · exact (ihr hd.2).1
        · exact (ihr hd.2).2 p h
    · rw [firstTerm_call hf, restTerms_call hf]
      exact ⟨⟨by simpa using hf, hd⟩, fun p hp => by cases hp⟩
  | un f l ih =>
    cases f with
    | neg =>
      have hd : Plain l ∧ ¬ startsWithNumber l := hd
      exact ⟨⟨(ih hd.1).1, fun h => hd.2 ((startsWithNumber_first l).1 h)⟩, (ih hd.1).2⟩
    | _ => exact ⟨hd, fun p hp => by cases hp⟩
  | corr g m ms i ih => exact ih i hd
  | _ => exact hd.elim

theorem isTerm_plain (t : Obj (St σ K) K) (ht : IsTerm t) : Plain t := by
  induction t with
  | lit v => exact ht
  | leaf l lc rc => exact ht
  | bin f l r => exact ht.2
  | un f l ih =>
    cases f with
    | neg => exact ⟨ih ht.1, ht.2⟩
    | _ => exact ht
  | _ => exact ht.elim

/-- The printed names of functions. -/
def fnNames : List String := ["floor", "ceil", "exp", "round", "lclip", "max", "min", "rclip", "log"]

/-- Name and arguments of a term. -/
def termForm : Obj (St σ K) K → String × List String
  | .leaf l lc rc => l.form F.num lc rc
  | .un f x => (f.name, [strObj F true x])
  | .bin f x y => (f.name, [strObj F true x, strObj F true y])
  | _ => ("", [])

/-- The term is `name` or `name(…)`. -/
def IsCall : Obj (St σ K) K → Prop
  | .leaf _ _ _ => True
  | .un f _ => f ≠ .neg
  | .bin _ _ _ => True
  | _ => False

theorem call_chars (t : Obj (St σ K) K) (ht : IsTerm t) (hc : IsCall t) : chars F t = formChars (termForm F t) := by
  cases t with
  | leaf l lc rc =>
    obtain ⟨s, h1, h2⟩ := leaf_form F.num ht
    simp only [chars, strObj, h1, termForm, ← h2]
    simp [distPrefix]
  | un f x =>
    cases f with
    | neg => exact absurd rfl hc
    | _ =>
      simp only [chars, strObj, termForm, formChars, List.map_cons, List.map_nil, callStr, joinArgs, UnFn.name]
      simp [distPrefix]
  | bin f x y =>
    have hf := ht.1
    cases f with
    | op o =>
      cases o <;> first
        | (exact absurd hf (by decide))
        | (simp only [chars, strObj, termForm, formChars, List.map_cons, List.map_nil, callStr, joinArgs, BinFn.name]
           simp [distPrefix])
    | _ =>
      simp only [chars, strObj, termForm, formChars, List.map_cons, List.map_nil, callStr, joinArgs, BinFn.name]
      simp [distPrefix]
  | _ => exact hc.elim

theorem call_name (t : Obj (St σ K) K) (ht : IsTerm t) (hc : IsCall t) :
    (termForm F t).1 ∈ leafNames ++ fnNames := by
  cases t with
  | leaf l lc rc => exact List.mem_append_left _ (leaf_name F.num ht)
  | un f x =>
    cases f with
    | neg => exact absurd rfl hc
    | _ => simp [termForm, UnFn.name, fnNames]
  | bin f x y =>
    have hf := ht.1
    cases f with
    | op o => cases o <;> first | (exact absurd hf (by decide)) | simp [termForm, BinFn.name, fnNames]
    | _ => simp [termForm, BinFn.name, fnNames]
  | _ => exact hc.elim

/-- A letter at the start, nothing that could be mistaken for punctuation. -/
def goodName (s : String) : Bool :=
  (match s.toList with
  | [] => false
  | c :: _ => !c.isDigit && c != '-') &&
  s.toList.all fun c => c != ' ' && c != ',' && c != '(' && c != ')' && c != '\n'

theorem names_good : ∀ s ∈ leafNames ++ fnNames, goodName s = true := by
  decide +kernel

theorem goodName_bare {s : String} (h : goodName s = true) : Bare s.toList := by
  intro c hc
  unfold goodName at h
  rw [Bool.and_eq_true, List.all_eq_true] at h
  have := h.2 c hc
  simp only [Bool.and_eq_true, bne_iff_ne] at this
  exact ⟨this.1.1.1.1, this.1.1.1.2, this.1.1.2, this.1.2, this.2⟩

theorem goodName_head {s : String} (h : goodName s = true) : ∃ c r, s.toList = c :: r ∧ c.isDigit = false ∧ c ≠ '-' := by
  unfold goodName at h
  rw [Bool.and_eq_true] at h
  cases hs : s.toList with
  | nil => rw [hs] at h; exact absurd h.1 (by simp)
  | cons c r =>
    rw [hs] at h
    have := h.1
    simp only [Bool.and_eq_true, Bool.not_eq_true', bne_iff_ne] at this
    exact ⟨c, r, rfl, this.1, this.2⟩

theorem formChars_head {f : String × List String} (h : goodName f.1 = true) :
    ∃ c r, formChars f = c :: r ∧ c.isDigit = false ∧ c ≠ '-' := by
  obtain ⟨c, r, h1, h2, h3⟩ := goodName_head h
  obtain ⟨n, as⟩ := f
  cases as with
  | nil => exact ⟨c, r, h1, h2, h3⟩
  | cons a as =>
    refine ⟨c, r ++ '(' :: (joinArgs ((a :: as).map String.toList) ++ [')']), ?_, h2, h3⟩
    show n.toList ++ _ = _
    rw [h1]
    rfl

theorem chars_neg (t : Obj (St σ K) K) : chars F (.un .neg t) = '-' :: chars F t := by
  simp [chars, strObj, distPrefix]

/-- A term either is a number, or starts with a minus sign that is not one of a number, or with a letter. -/
theorem term_cases (t : Obj (St σ K) K) (ht : IsTerm t) :
    (∃ v, t = .lit v) ∨ (∃ x, t = .un .neg x) ∨ IsCall t := by
  cases t with
  | lit v => exact Or.inl ⟨v, rfl⟩
  | leaf l lc rc => exact Or.inr (Or.inr trivial)
  | bin f x y => exact Or.inr (Or.inr trivial)
  | un f x =>
    by_cases hf : f = .neg
    · subst hf; exact Or.inr (Or.inl ⟨x, rfl⟩)
    · exact Or.inr (Or.inr hf)
  | _ => exact ht.elim

theorem call_head (t : Obj (St σ K) K) (ht : IsTerm t) (hc : IsCall t) :
    ∃ c r, chars F t = c :: r ∧ c.isDigit = false ∧ c ≠ '-' := by
  rw [call_chars F t ht hc]
  exact formChars_head (names_good _ (call_name F t ht hc))

theorem nonNumber_head (t : Obj (St σ K) K) (ht : IsTerm t) (hs : ¬ startsWithNumber t) :
    ∃ c r, chars F t = c :: r ∧ c.isDigit = false := by
  rcases term_cases t ht with ⟨v, rfl⟩ | ⟨x, rfl⟩ | hc
  · exact absurd trivial hs
  · exact ⟨'-', chars F x, chars_neg F x, by decide⟩
  · obtain ⟨c, r, h1, h2, -⟩ := call_head F t ht hc
    exact ⟨c, r, h1, h2⟩

end Verif
