import Verif.Model.SciText
import Verif.Spec.SciText
import Verif.Props.CredibleIntervals
import Mathlib.Tactic.IntervalCases

/-!
# The texts of `get_log_percentiles` (C160)
-/

namespace Verif

/-! ## Digits -/

theorem readDigits_snoc (cs : List Char) (c : Char) : readDigits (cs ++ [c]) = 10 * readDigits cs + (c.toNat - 48) := by
  simp [readDigits, List.foldl_append]

theorem digitChar_val {k : ℕ} (hk : k < 10) : (Nat.digitChar k).toNat - 48 = k := by
  interval_cases k <;> rfl

theorem digitChar_isDigit {k : ℕ} (hk : k < 10) : (Nat.digitChar k).isDigit = true := by
  interval_cases k <;> rfl

theorem fixedDigits_length (w m : ℕ) : (fixedDigits w m).length = w := by
  induction w generalizing m with
  | zero => rfl
  | succ w ih => simp [fixedDigits, ih]

theorem fixedDigits_isDigit (w m : ℕ) : ∀ c ∈ fixedDigits w m, c.isDigit = true := by
  induction w generalizing m with
  | zero => simp [fixedDigits]
  | succ w ih =>
    intro c hc
    simp only [fixedDigits, List.mem_append, List.mem_singleton] at hc
    rcases hc with hc | rfl
    · exact ih _ c hc
    · exact digitChar_isDigit (Nat.mod_lt _ (by norm_num))

theorem readDigits_fixed (w m : ℕ) (h : m < 10 ^ w) : readDigits (fixedDigits w m) = m := by
  induction w generalizing m with
  | zero =>
    simp only [pow_zero, Nat.lt_one_iff] at h
    simp [fixedDigits, readDigits, h]
  | succ w ih =>
    rw [fixedDigits, readDigits_snoc, ih _ (by rw [Nat.div_lt_iff_lt_mul (by norm_num)]; rw [pow_succ] at h; exact h),
      digitChar_val (Nat.mod_lt _ (by norm_num))]
    omega

theorem takeWhile_digits {cs rest : List Char} {c : Char} (h : ∀ x ∈ cs, x ≠ c) :
    (cs ++ c :: rest).takeWhile (· ≠ c) = cs ∧ (cs ++ c :: rest).dropWhile (· ≠ c) = c :: rest := by
  induction cs with
  | nil => simp
  | cons x cs ih =>
    have := ih fun y hy => h y (by simp [hy])
    have hx : x ≠ c := h x (by simp)
    simp only [ne_eq, decide_not] at this ⊢
    simp [hx, this]

theorem digit_ne {c x : Char} (h : c.isDigit = true) (hx : x.isDigit = false) : c ≠ x := by
  rintro rfl
  rw [h] at hx
  cases hx

/-! ## Values -/

section
variable {K : Type} [Field K] [LinearOrder K] [IsStrictOrderedRing K] [FloorRing K]

/-- `y` rounded to `d + 1` significant decimal digits. -/
def sciRound (d : ℕ) (y : K) : K :=
  if y = 0 then 0
  else (roundEven (y * (10 : K) ^ ((d : ℤ) - Int.log 10 y)) : K) * (10 : K) ^ (Int.log 10 y - d)

theorem roundEven_le {x y : K} (h : x ≤ y) : roundEven x ≤ roundEven y := by
  by_contra hc
  have hc : roundEven y + 1 ≤ roundEven x := by omega
  have hc' : (roundEven y : K) + 1 ≤ roundEven x := by exact_mod_cast hc
  have h1 := abs_le.1 (abs_roundEven_sub_le x)
  have h2 := abs_le.1 (abs_roundEven_sub_le y)
  have hxy : x = y := by linarith [h1.1, h1.2, h2.1, h2.2]
  subst hxy
  omega

theorem log10_bounds {y : K} (hy : 0 < y) :
    (10 : K) ^ Int.log 10 y ≤ y ∧ y < (10 : K) ^ (Int.log 10 y + 1) := by
  constructor
  · exact_mod_cast Int.zpow_log_le_self (b := 10) (by norm_num) hy
  · exact_mod_cast Int.lt_zpow_succ_log_self (b := 10) (by norm_num) y

omit [IsStrictOrderedRing K] in
theorem ten_ne : (10 : K) ≠ 0 := by norm_num

/-- The scaled number has `d + 1` digits before the point. -/
theorem scaled_bounds (d : ℕ) {y : K} (hy : 0 < y) :
    (10 : K) ^ d ≤ y * (10 : K) ^ ((d : ℤ) - Int.log 10 y) ∧
    y * (10 : K) ^ ((d : ℤ) - Int.log 10 y) < (10 : K) ^ (d + 1) := by
  obtain ⟨h1, h2⟩ := log10_bounds hy
  have hp : (0 : K) < (10 : K) ^ ((d : ℤ) - Int.log 10 y) := by positivity
  constructor
  · calc (10 : K) ^ d = (10 : K) ^ Int.log 10 y * (10 : K) ^ ((d : ℤ) - Int.log 10 y) := by
          rw [← zpow_add₀ ten_ne, ← zpow_natCast]; congr 1; ring
      _ ≤ _ := mul_le_mul_of_nonneg_right h1 hp.le
  · calc y * (10 : K) ^ ((d : ℤ) - Int.log 10 y)
        < (10 : K) ^ (Int.log 10 y + 1) * (10 : K) ^ ((d : ℤ) - Int.log 10 y) := mul_lt_mul_of_pos_right h2 hp
      _ = _ := by rw [← zpow_add₀ ten_ne, ← zpow_natCast]; congr 1; push_cast; ring

theorem digits_bounds (d : ℕ) {y : K} (hy : 0 < y) :
    (10 : ℤ) ^ d ≤ roundEven (y * (10 : K) ^ ((d : ℤ) - Int.log 10 y)) ∧
    roundEven (y * (10 : K) ^ ((d : ℤ) - Int.log 10 y)) ≤ 10 ^ (d + 1) := by
  obtain ⟨h1, h2⟩ := scaled_bounds d hy
  constructor
  · have := roundEven_le h1
    rwa [show ((10 : K) ^ d) = (((10 : ℤ) ^ d : ℤ) : K) by push_cast; rfl, roundEven_intCast] at this
  · have := roundEven_le h2.le
    rwa [show ((10 : K) ^ (d + 1)) = (((10 : ℤ) ^ (d + 1) : ℤ) : K) by push_cast; rfl, roundEven_intCast] at this

theorem sciParts_value (d : ℕ) {y : K} (hy : 0 ≤ y) :
    (sciParts d y).1 < 10 ^ (d + 1) ∧ (y ≠ 0 → 10 ^ d ≤ (sciParts d y).1) ∧
    ((sciParts d y).1 : K) * (10 : K) ^ ((sciParts d y).2 - d) = sciRound d y := by
  unfold sciParts sciRound
  split_ifs with h0
  · simp [h0]
  have hy' : 0 < y := lt_of_le_of_ne hy (Ne.symm h0)
  obtain ⟨b1, b2⟩ := digits_bounds d hy'
  simp only
  set m := roundEven (y * (10 : K) ^ ((d : ℤ) - Int.log 10 y))
  have hm : ((m.toNat : ℕ) : ℤ) = m := Int.toNat_of_nonneg (le_trans (by positivity) b1)
  have hmK : ((m.toNat : ℕ) : K) = m := by exact_mod_cast congrArg (Int.cast (R := K)) hm
  have hlo : 10 ^ d ≤ m.toNat := by zify; rw [hm]; exact b1
  have hhi : m.toNat ≤ 10 ^ (d + 1) := by zify; rw [hm]; exact b2
  split_ifs with hc
  · refine ⟨Nat.pow_lt_pow_right (by norm_num) (by omega), fun _ => le_rfl, ?_⟩
    rw [← hmK, hc]
    push_cast
    rw [← zpow_natCast, ← zpow_natCast, ← zpow_add₀ ten_ne, ← zpow_add₀ ten_ne]
    congr 1
    push_cast
    ring
  · exact ⟨lt_of_le_of_ne hhi hc, fun _ => hlo, by simp only [hmK]⟩

theorem sciRound_close (d : ℕ) {y : K} (hy : 0 ≤ y) : |sciRound d y - y| ≤ y / (2 * 10 ^ d) := by
  unfold sciRound
  split_ifs with h0
  · simp [h0]
  have hy' : 0 < y := lt_of_le_of_ne hy (Ne.symm h0)
  have h1 := abs_roundEven_sub_le (y * (10 : K) ^ ((d : ℤ) - Int.log 10 y))
  set m := roundEven (y * (10 : K) ^ ((d : ℤ) - Int.log 10 y))
  have hp : (0 : K) < (10 : K) ^ (Int.log 10 y - d) := by positivity
  have e1 : (10 : K) ^ ((d : ℤ) - Int.log 10 y) * (10 : K) ^ (Int.log 10 y - d) = 1 := by
    rw [← zpow_add₀ ten_ne]; simp
  have e : (m : K) * (10 : K) ^ (Int.log 10 y - d) - y
      = (m - y * (10 : K) ^ ((d : ℤ) - Int.log 10 y)) * (10 : K) ^ (Int.log 10 y - d) := by
    rw [sub_mul, mul_assoc y, e1, mul_one]
  rw [e, abs_mul, abs_of_pos hp]
  have h2 : (10 : K) ^ (Int.log 10 y - d) ≤ y / 10 ^ d := by
    rw [zpow_sub₀ ten_ne, zpow_natCast]
    exact div_le_div_of_nonneg_right (log10_bounds hy').1 (by positivity)
  calc _ ≤ 1 / 2 * (10 : K) ^ (Int.log 10 y - d) := mul_le_mul_of_nonneg_right h1 hp.le
    _ ≤ 1 / 2 * (y / 10 ^ d) := mul_le_mul_of_nonneg_left h2 (by norm_num)
    _ = _ := by field_simp

theorem sciRound_nonneg (d : ℕ) {y : K} (hy : 0 ≤ y) : 0 ≤ sciRound d y := by
  rw [← (sciParts_value d hy).2.2]
  positivity

theorem sciRound_mono (d : ℕ) {y z : K} (hy : 0 ≤ y) (hyz : y ≤ z) : sciRound d y ≤ sciRound d z := by
  rcases hy.eq_or_lt with rfl | hy'
  · have : sciRound d (0 : K) = 0 := by simp [sciRound]
    rw [this]
    exact sciRound_nonneg d hyz
  have hz : 0 < z := hy'.trans_le hyz
  unfold sciRound
  rw [if_neg hy'.ne', if_neg hz.ne']
  have hl := Int.log_mono_right (b := 10) hy' hyz
  rcases hl.eq_or_lt with he | hlt
  · rw [he]
    refine mul_le_mul_of_nonneg_right ?_ (by positivity)
    exact_mod_cast roundEven_le (mul_le_mul_of_nonneg_right hyz (by positivity))
  · have b1 : ((roundEven (y * (10 : K) ^ ((d : ℤ) - Int.log 10 y)) : ℤ) : K) ≤ 10 ^ (d + 1) := by
      exact_mod_cast (digits_bounds d hy').2
    have b2 : (10 : K) ^ d ≤ (roundEven (z * (10 : K) ^ ((d : ℤ) - Int.log 10 z)) : ℤ) := by
      exact_mod_cast (digits_bounds d hz).1
    calc _ ≤ (10 : K) ^ (d + 1) * (10 : K) ^ (Int.log 10 y - d) := mul_le_mul_of_nonneg_right b1 (by positivity)
      _ = (10 : K) ^ (Int.log 10 y + 1) := by
          rw [← zpow_natCast, ← zpow_add₀ ten_ne]; congr 1; push_cast; ring
      _ ≤ (10 : K) ^ Int.log 10 z := zpow_le_zpow_right₀ (by norm_num) (by omega)
      _ = (10 : K) ^ d * (10 : K) ^ (Int.log 10 z - d) := by
          rw [← zpow_natCast, ← zpow_add₀ ten_ne]; congr 1; ring
      _ ≤ _ := mul_le_mul_of_nonneg_right b2 (by positivity)

/-! ## Texts -/

theorem exponent_read (e : ℤ) : ∃ sign ds, sciExponent e = sign :: ds ∧ (sign = '+' ∨ sign = '-') ∧ 2 ≤ ds.length ∧
    (∀ c ∈ ds, c.isDigit = true) ∧ (if sign = '-' then -(readDigits ds : ℤ) else readDigits ds) = e := by
  refine ⟨_, _, rfl, by split <;> simp, by simp [fixedDigits_length], fixedDigits_isDigit _ _, ?_⟩
  have hlt : e.natAbs < 10 ^ (max 2 (Nat.log 10 e.natAbs + 1)) :=
    (Nat.lt_pow_succ_log_self (by norm_num) _).trans_le (Nat.pow_le_pow_right (by norm_num) (le_max_right _ _))
  rw [readDigits_fixed _ _ hlt]
  split_ifs <;> first | omega | simp_all

omit [IsStrictOrderedRing K] in
/-- The text of a number, taken apart. -/
theorem sciText_shape (d : ℕ) (x : K) : ∃ first decimals sign exponent,
    sciText d x = (if x < 0 then ['-'] else []) ++ first :: (if d = 0 then [] else '.' :: decimals) ++
      'e' :: sign :: exponent ∧
    first.isDigit = true ∧ decimals.length = d ∧ (∀ c ∈ decimals, c.isDigit = true) ∧ (sign = '+' ∨ sign = '-') ∧
    2 ≤ exponent.length ∧ (∀ c ∈ exponent, c.isDigit = true) ∧
    first :: decimals = fixedDigits (d + 1) (sciParts d |x|).1 ∧
    (if sign = '-' then -(readDigits exponent : ℤ) else readDigits exponent) = (sciParts d |x|).2 := by
  obtain ⟨sign, ds, h1, h2, h3, h4, h5⟩ := exponent_read (sciParts d |x|).2
  have hl := fixedDigits_length (d + 1) (sciParts d |x|).1
  have hd := fixedDigits_isDigit (d + 1) (sciParts d |x|).1
  cases hf : fixedDigits (d + 1) (sciParts d |x|).1 with
  | nil => rw [hf] at hl; simp at hl
  | cons first decimals =>
    rw [hf] at hl hd
    refine ⟨first, decimals, sign, ds, ?_, hd _ (by simp), by simpa using hl, fun c hc => hd c (by simp [hc]), h2, h3, h4,
      rfl, h5⟩
    unfold sciText
    simp only [hf, h1, List.take_succ_cons, List.take_zero, List.drop_succ_cons, List.drop_zero]
    simp

/-- **C160** (form): the text has the form of a number in scientific notation with `digits` decimals. -/
theorem C160_form (d : ℕ) (x : K) : IsSci d (sciText d x) := by
  obtain ⟨first, decimals, sign, ex, h1, h2, h3, h4, h5, h6, h7, -, -⟩ := sciText_shape d x
  refine ⟨decide (x < 0), first, decimals, sign, ex, ?_, h2, h3, h4, h5, h6, h7⟩
  rw [h1]
  simp

theorem readDigits_lt (cs : List Char) (h : ∀ c ∈ cs, c.isDigit = true) : readDigits cs < 10 ^ cs.length := by
  induction cs using List.reverseRecOn with
  | nil => simp [readDigits]
  | append_singleton cs c ih =>
    have h1 := ih fun x hx => h x (by simp [hx])
    have h2 := h c (by simp)
    have h3 : c.toNat ≤ 57 := by
      simp only [Char.isDigit, Bool.and_eq_true, decide_eq_true_eq] at h2
      exact UInt32.le_iff_toNat_le.1 h2.2
    rw [readDigits_snoc, List.length_append, List.length_singleton, pow_succ]
    omega

/-- **C160** (first digit): only zero is shown with the first digit 0. -/
theorem C160_first (d : ℕ) {x : K} (hx : x ≠ 0) :
    ((sciText d x).dropWhile (· = '-')).head? ≠ some '0' := by
  obtain ⟨first, decimals, sign, ex, h1, h2, h3, h4, h5, h6, h7, h8, -⟩ := sciText_shape d x
  obtain ⟨v1, v2, -⟩ := sciParts_value d (abs_nonneg x)
  have hm : first ≠ '-' := digit_ne h2 (by decide)
  have hh : ((sciText d x).dropWhile (· = '-')).head? = some first := by
    rw [h1]
    split <;> simp [hm]
  rw [hh]
  intro h0
  rw [Option.some.injEq] at h0
  have e1 : readDigits (first :: decimals) = (sciParts d |x|).1 := by rw [h8, readDigits_fixed _ _ v1]
  have e2 : readDigits (first :: decimals) = readDigits decimals := by subst h0; rfl
  have e3 := readDigits_lt decimals h4
  rw [h3] at e3
  have e4 := v2 (abs_ne_zero.2 hx)
  omega

theorem readSci_text (d : ℕ) (x : K) :
    (readSci (sciText d x) : K) = (if x < 0 then -1 else 1) * sciRound d |x| := by
  obtain ⟨first, decimals, sign, ex, h1, h2, h3, h4, h5, h6, h7, h8, h9⟩ := sciText_shape d x
  obtain ⟨v1, -, v3⟩ := sciParts_value d (abs_nonneg x)
  have hhead : ((sciText d x).head? = some '-') ↔ x < 0 := by
    rw [h1]
    by_cases hx : x < 0
    · simp [hx]
    · simp only [hx, if_false, List.nil_append, List.cons_append, List.head?_cons, Option.some.injEq, iff_false]
      exact digit_ne h2 (by decide)
  have hbody : (if (sciText d x).head? = some '-' then (sciText d x).tail else sciText d x)
      = (first :: (if d = 0 then [] else '.' :: decimals)) ++ 'e' :: sign :: ex := by
    by_cases hx : x < 0
    · rw [if_pos (hhead.2 hx), h1]; simp [hx]
    · rw [if_neg (fun h => hx (hhead.1 h)), h1]; simp [hx]
  have hne : ∀ c ∈ first :: (if d = 0 then [] else '.' :: decimals), c ≠ 'e' := by
    intro c hc
    rw [List.mem_cons] at hc
    rcases hc with rfl | hc
    · exact digit_ne h2 (by decide)
    · split at hc
      · simp at hc
      · rw [List.mem_cons] at hc
        rcases hc with rfl | hc
        · decide
        · exact digit_ne (h4 c hc) (by decide)
  obtain ⟨t1, t2⟩ := takeWhile_digits (rest := sign :: ex) hne
  have hmant : ∃ frac : List Char, frac.length = d ∧
      (first :: (if d = 0 then [] else '.' :: decimals)).takeWhile (· ≠ '.') ++ frac = first :: decimals ∧
      ((first :: (if d = 0 then [] else '.' :: decimals)).dropWhile (· ≠ '.')).tail = frac := by
    have hf : first ≠ '.' := digit_ne h2 (by decide)
    by_cases hd : d = 0
    · subst hd
      have : decimals = [] := List.length_eq_zero_iff.1 h3
      refine ⟨[], rfl, ?_, ?_⟩ <;> simp [hf, this]
    · obtain ⟨a1, a2⟩ := takeWhile_digits (cs := [first]) (c := '.') (rest := decimals) (by simpa using hf)
      refine ⟨decimals, h3, ?_, ?_⟩
      · rw [if_neg hd]
        have : (first :: '.' :: decimals) = [first] ++ '.' :: decimals := rfl
        rw [this, a1]; rfl
      · rw [if_neg hd]
        have : (first :: '.' :: decimals) = [first] ++ '.' :: decimals := rfl
        rw [this, a2]; rfl
  obtain ⟨frac, f1, f2, f3⟩ := hmant
  unfold readSci
  simp only
  rw [hbody, t1, t2, f3, f2, f1, h8, readDigits_fixed _ _ v1]
  simp only [List.tail_cons, List.head?_cons, Option.some.injEq, h9, hhead]
  rw [mul_assoc, v3]

/-- **C160** (value): read as a number, the text is the number up to half a unit of its last digit. -/
theorem C160_value (d : ℕ) (x : K) : |readSci (sciText d x) - x| ≤ |x| / (2 * 10 ^ d) := by
  rw [readSci_text]
  have h := sciRound_close d (abs_nonneg x)
  by_cases hx : x < 0
  · rw [if_pos hx]
    rw [abs_of_neg hx] at h ⊢
    rw [← abs_neg]
    convert h using 2
    ring
  · rw [if_neg hx, one_mul]
    push Not at hx
    rwa [abs_of_nonneg hx] at h ⊢

/-- **C160** (order): the texts of larger numbers do not read as smaller numbers. -/
theorem C160_mono (d : ℕ) {x y : K} (h : x ≤ y) : (readSci (sciText d x) : K) ≤ readSci (sciText d y) := by
  rw [readSci_text, readSci_text]
  by_cases hx : x < 0
  · rw [if_pos hx]
    by_cases hy : y < 0
    · rw [if_pos hy, abs_of_neg hx, abs_of_neg hy]
      have := sciRound_mono d (show 0 ≤ -y by linarith) (show -y ≤ -x by linarith)
      linarith
    · rw [if_neg hy]
      have h1 := sciRound_nonneg d (abs_nonneg x)
      have h2 := sciRound_nonneg d (abs_nonneg y)
      linarith
  · push Not at hx
    rw [if_neg hx.not_gt, if_neg (hx.trans h).not_gt, abs_of_nonneg hx, abs_of_nonneg (hx.trans h), one_mul, one_mul]
    exact sciRound_mono d hx h

end

/-! ## `get_log_percentiles` -/

theorem dictOf_mapVal {α β γ : Type} [DecidableEq α] (g : β → γ) (ps : List (α × β)) :
    dictOf (ps.map fun p => (p.1, g p.2)) = (dictOf ps).map fun p => (p.1, g p.2) := by
  induction ps using List.reverseRecOn with
  | nil => rfl
  | append_singleton ps q ih =>
    rw [List.map_append, List.map_singleton, dictOf_append, dictOf_append, ih]
    unfold dictSet
    have hk : ((dictOf ps).map fun p => (p.1, g p.2)).map Prod.fst = (dictOf ps).map Prod.fst := by
      rw [List.map_map]; rfl
    rw [hk]
    split
    · rw [List.map_map, List.map_map]
      refine List.map_congr_left fun p _ => ?_
      simp only [Function.comp]
      split <;> rfl
    · simp

/-- **C160** (several percentiles with `display=True`): the labels are those of `get_percentiles`, and read as a number
the text of each is the percentile up to half a unit of the last digit; in addition the percentile was rounded to
`digits` decimals before. -/
theorem C160_display (argsort : List ℝ → List ℕ) (data ps : List ℝ) (ws : Option (List ℝ)) (rev : Bool) (d : ℕ)
    (e : List (ℝ × Scalar ℝ)) (h : getPercentiles argsort data (.list ps) ws rev none = .ok (.dict e)) :
    ∃ texts : List (ℝ × Scalar ℝ),
      getLogPercentiles sciFormat argsort data (.list ps) ws rev true (some (d : ℤ)) = .ok (.dict texts) ∧
      texts.map Prod.fst = e.map Prod.fst ∧
      ∀ (i : ℕ) (v : ℝ), (e[i]?).map Prod.snd = some (Scalar.flt v) →
        ∃ t, (texts[i]?).map Prod.snd = some (Scalar.str (String.ofList t)) ∧ IsSci d t ∧ |readSci t - v| ≤ (|v| + 1 + 1 / (2 * 10 ^ d)) / (2 * 10 ^ d) := by
  obtain ⟨vs, rs, h1, h2, h3⟩ := (getPercentiles_eq ..).1 h
  have hl : ps.length ≠ 1 := by
    intro hl
    rw [if_pos (by simpa [PctArg.toList] using hl)] at h3
    obtain ⟨x, xs, -, h3⟩ := h3
    cases h3
  rw [if_neg (by simpa [PctArg.toList] using hl)] at h3
  have hrs : rs = vs.map .flt := by
    rw [mapExcept_ok] at h2
    have : List.Forall₂ (fun a b => (b : Scalar ℝ) = .flt a) vs rs := h2.imp fun a b hab => by
      simp only [roundOpt, Except.ok.injEq] at hab
      exact hab.symm
    clear h h1 h2 h3
    induction this with
    | nil => rfl
    | cons hab _ ih => rw [hab, ih]; rfl
  subst hrs
  choose rnd val hrnd hval hclose _ using fun x : ℝ => roundScalar_close (d : ℤ) x
  set g : Scalar ℝ → Scalar ℝ := fun s => match s with | .flt x => rnd x | s => s with hg
  set labels := (if rev = true then (PctArg.list ps).toList.reverse else (PctArg.list ps).toList) with hlab
  have hrounded : getPercentiles argsort data (.list ps) ws rev (some (d : ℤ)) =
      .ok (.dict ((dictOf (labels.zip (vs.map Scalar.flt))).map fun p => (p.1, g p.2))) := by
    refine (getPercentiles_eq ..).2 ⟨vs, vs.map rnd, h1, ?_, ?_⟩
    · rw [mapExcept_ok, List.forall₂_map_right_iff, List.forall₂_same]
      intro x _
      exact hrnd x
    · rw [if_neg (by simpa [PctArg.toList] using hl), ← dictOf_mapVal]
      congr 2
      rw [List.map_zip_eq_zipWith]
      have : vs.map rnd = (vs.map Scalar.flt).map g := by rw [List.map_map]; rfl
      rw [this, List.zip_map_right, List.map_zip_eq_zipWith]
      rfl
  cases h3
  refine ⟨_, C66_display_partial sciFormat argsort data ps ws rev d _ hrounded, ?_, ?_⟩
  · rw [List.map_map, List.map_map]; rfl
  intro i v hv
  simp only [List.map_map, List.getElem?_map]
  cases hi : (dictOf (labels.zip (vs.map Scalar.flt)))[i]? with
  | none => rw [hi] at hv; simp at hv
  | some p =>
    rw [hi] at hv
    simp only [Option.map_some, Option.some.injEq] at hv
    refine ⟨sciText d (val v), ?_, C160_form d _, ?_⟩
    · simp only [Option.map_some, Function.comp, hv, hg, sciFormat, hval]
    · have c1 := C160_value d (val v)
      have c2 := hclose v
      have hp : (0 : ℝ) < 10 ^ d := by positivity
      rw [zpow_neg, zpow_natCast] at c2
      have c3 : |val v| ≤ |v| + 1 / (2 * 10 ^ d) := by
        have := abs_sub_abs_le_abs_sub (val v) v
        have e : 1 / 2 * ((10 : ℝ) ^ d)⁻¹ = 1 / (2 * 10 ^ d) := by field_simp
        linarith
      have c4 : |val v| / (2 * 10 ^ d) ≤ (|v| + 1 / (2 * 10 ^ d)) / (2 * 10 ^ d) :=
        div_le_div_of_nonneg_right c3 (by positivity)
      have e : 1 / 2 * ((10 : ℝ) ^ d)⁻¹ = 1 / (2 * 10 ^ d) := by field_simp
      rw [e] at c2
      calc |readSci (sciText d (val v)) - v| ≤ |readSci (sciText d (val v)) - val v| + |val v - v| :=
            abs_sub_le _ _ _
        _ ≤ (|v| + 1 / (2 * 10 ^ d)) / (2 * 10 ^ d) + 1 / (2 * 10 ^ d) := by linarith
        _ = _ := by ring

/-- What Python prints. -/
theorem sciText_examples : sciText 1 (1 / 100 : ℚ) = "1.0e-02".toList ∧ sciText 2 (-99999 / 10 : ℚ) = "-1.00e+04".toList ∧
    sciText 0 (123456 : ℚ) = "1e+05".toList ∧ sciText 1 (0 : ℚ) = "0.0e+00".toList ∧
    sciText 3 (10 ^ 120 : ℚ) = "1.000e+120".toList := by
  decide +kernel

/-- **C160 is violated by the code**: with the default number of digits, percentiles of 0.01 are shown as `0.0e+00`, not
as `1.0e-02`: they are rounded to one decimal before they are formatted. -/
theorem C160_small_fails (argsort : List ℝ → List ℕ) :
    getLogPercentiles sciFormat argsort [1 / 100, 1 / 100] (.list [25, 75]) =
      .ok (.dict [(25, .str "0.0e+00"), (75, .str "0.0e+00")]) ∧
    sciFormat 1 (.flt (1 / 100 : ℚ)) = "1.0e-02" := by
  constructor
  · have hraw : npPercentile ([1 / 100, 1 / 100] : List ℝ) [25, 75] = .ok [1 / 100, 1 / 100] := by
      refine npPercentile_ok.2 ⟨by simp, by norm_num, ?_⟩
      have hs : ([1 / 100, 1 / 100] : List ℝ).insertionSort (· ≤ ·) = [1 / 100, 1 / 100] := by simp [List.insertionSort]
      rw [hs]
      have f1 : ⌊((([1 / 100, 1 / 100] : List ℝ).length : ℝ) - 1) * (25 / 100)⌋ = 0 := by
        rw [Int.floor_eq_iff]; norm_num
      have f2 : ⌊((([1 / 100, 1 / 100] : List ℝ).length : ℝ) - 1) * (75 / 100)⌋ = 0 := by
        rw [Int.floor_eq_iff]; norm_num
      simp only [List.map_cons, List.map_nil, percentileAt, f1, f2]
      simp
    have hr : roundScalar 1 (.flt (1 / 100 : ℝ)) = .ok (.flt 0) := by
      have : roundEven ((1 / 100 : ℝ) * 10) = 0 := by
        have f : ⌊((1 / 100 : ℝ) * 10)⌋ = 0 := by rw [Int.floor_eq_iff]; norm_num
        unfold roundEven
        rw [f]
        norm_num
      simp only [roundScalar, Scalar.num?, Num.val, zpow_one, this]
      norm_num
    have hp : getPercentiles argsort [1 / 100, 1 / 100] (.list [(25 : ℝ), 75]) none false (some 1) =
        .ok (.dict [(25, .flt 0), (75, .flt 0)]) := by
      refine (getPercentiles_eq ..).2 ⟨[1 / 100, 1 / 100], [.flt 0, .flt 0], hraw, ?_, ?_⟩
      · rw [mapExcept_ok]
        exact .cons hr (.cons hr .nil)
      · rw [if_neg (by simp [PctArg.toList])]
        simp [PctArg.toList, dictOf, dictSet]
    have hd := C66_display_partial sciFormat argsort [1 / 100, 1 / 100] [25, 75] none false 1 _ hp
    have ht : sciFormat 1 (.flt (0 : ℝ)) = "0.0e+00" := by
      have hv : (Scalar.flt (0 : ℝ)).val? = some 0 := rfl
      have hx : ¬ ((0 : ℝ) < 0) := lt_irrefl 0
      simp only [sciFormat, hv, sciText, sciParts, abs_zero, if_true, if_neg hx]
      decide
    rw [Nat.cast_one] at hd
    rw [hd]
    simp only [List.map_cons, List.map_nil, ht]
  · decide +kernel

/-- The hypotheses of `C160_display` are met. -/
example (argsort : List ℝ → List ℕ) : ∃ e, getPercentiles argsort [1, 2, 3] (.list [(25 : ℝ), 75]) none false none =
    .ok (.dict e) := by
  obtain ⟨vs, hvs⟩ : ∃ vs, npPercentile ([1, 2, 3] : List ℝ) [25, 75] = .ok vs :=
    ⟨_, npPercentile_ok.2 ⟨by simp, by norm_num, rfl⟩⟩
  refine ⟨dictOf ([25, 75].zip (vs.map .flt)), (getPercentiles_eq ..).2 ⟨vs, vs.map .flt, hvs, ?_, ?_⟩⟩
  · rw [mapExcept_ok, List.forall₂_map_right_iff, List.forall₂_same]
    intro x _
    rfl
  · rw [if_neg (by simp [PctArg.toList])]
    rfl

end Verif
