import Verif.Lemmas.PrintingUnique
import Verif.Lemmas.PrintingMix
import Verif.Props.SampleCache
import Mathlib.Data.Fin.VecNotation

/-!
# C21: which distributions share a cache entry

`sample(..., memcache=True)` caches under `str(dist)`.  For expressions built from numbers, basic
distributions, operators and the library's functions, the distributions that share an entry are exactly those
described by `Spec.PrintsAlike`, a relation that does not mention text.
-/

namespace Verif

open Spec

variable {σ K : Type} [Field K] [LinearOrder K] [FloorRing K] [IsStrictOrderedRing K]

omit [IsStrictOrderedRing K] in
theorem Spec.Plain.printable {d : Obj (St σ K) K} (h : Plain d) : Printable d := by
  cases d with
  | mix => exact h.elim
  | _ => exact h

/-- Plain expressions have the same key exactly if they print alike. -/
theorem plain_key_iff (F : StrEnv σ K) (hnum : PrintsNumbers F.num) (d e : Obj (St σ K) K) (hd : Plain d)
    (he : Plain e) : strObj F false d = strObj F false e ↔ PrintsAlike d e := by
  constructor
  · intro h
    refine print_unique hnum (osize d) d e (le_refl _) hd he ?_
    have hstrip : ∀ x : Obj (St σ K) K, Plain x → (strObj F true x = strObj F false x ∧ ∃ v, x = .lit v ∧ IsNumber v) ∨
        (strObj F false x = "<Distribution> " ++ strObj F true x) ∨
        (∃ y, Plain y ∧ (∃ v, y = .lit v ∧ IsNumber v) ∧ strObj F true x = strObj F true y ∧
          strObj F false x = strObj F false y) := by
      intro x hx
      induction x with
      | lit v => exact Or.inl ⟨by simp [strObj], v, rfl, hx⟩
      | leaf l lc rc =>
        refine Or.inr (Or.inl ?_)
        simp only [strObj]
        cases l.str? F.num lc rc <;> simp [distPrefix]
      | un f x => refine Or.inr (Or.inl ?_); simp [strObj, distPrefix]
      | bin f x y => refine Or.inr (Or.inl ?_); simp [strObj, distPrefix]
      | corr g m ms i ih =>
        rcases ih i hx with ⟨h1, v, h2, h3⟩ | h1 | ⟨y, h1, h2, h3, h4⟩
        · exact Or.inr (Or.inr ⟨ms i, hx, ⟨v, h2, h3⟩, by simp [strObj], by simp [strObj]⟩)
        · refine Or.inr (Or.inl ?_); simpa [strObj] using h1
        · exact Or.inr (Or.inr ⟨y, h1, h2, by simpa [strObj] using h3, by simpa [strObj] using h4⟩)
      | _ => exact hx.elim
    -- text of a number, or the prefix followed by the stripped text
    have hform : ∀ x : Obj (St σ K) K, Plain x →
        (strObj F false x = strObj F true x ∧ Numeric (strObj F false x).toList) ∨
        strObj F false x = "<Distribution> " ++ strObj F true x := by
      intro x hx
      have hlit : ∀ v : Scalar K, IsNumber v → strObj F false (.lit v : Obj (St σ K) K) = strObj F true (.lit v) ∧
          Numeric (strObj F false (.lit v : Obj (St σ K) K)).toList := by
        intro v hv
        simp only [strObj]
        exact ⟨trivial, pstr_numeric hnum hv⟩
      rcases hstrip x hx with ⟨h1, v, rfl, hv⟩ | h1 | ⟨y, h1, ⟨v, rfl, hv⟩, h3, h4⟩
      · exact Or.inl (hlit v hv)
      · exact Or.inr h1
      · rw [h3, h4]; exact Or.inl (hlit v hv)
    have hpre : ∀ s : String, ¬ Numeric ("<Distribution> " ++ s).toList := by
      intro s hN
      rw [String.toList_append] at hN
      rcases hN with h | ⟨h, -⟩
      · exact absurd h (by decide)
      · exact absurd h (by decide)
    unfold chars
    rcases hform d hd with ⟨h1, n1⟩ | h1 <;> rcases hform e he with ⟨h2, n2⟩ | h2
    · rw [← h1, ← h2, h]
    · rw [h, h2] at n1; exact absurd n1 (hpre _)
    · rw [← h, h1] at n2; exact absurd n2 (hpre _)
    · rw [h1, h2] at h
      rw [(String.append_right_inj _).1 h]
  · intro h
    exact alike_str F h false

/-- **C21.** Two expressions (or mixtures of expressions) have the same cache key exactly if they differ only in
the grouping of operators, in the digits of normal parameters beyond the second, in correlation groups, or in the
bounds of the mixture.  In particular mixtures with different weights, different numbers of components or
components in another order have different keys. -/
theorem C21_same_key_iff (F : StrEnv σ K) (hnum : PrintsNumbers F.num) (d e : Obj (St σ K) K) (hd : Printable d)
    (he : Printable e) : strObj F false d = strObj F false e ↔ PrintsAlike d e := by
  refine ⟨fun h => ?_, fun h => alike_str F h false⟩
  have hmix : ∀ (k : ℕ) (ds : Fin k → Obj (St σ K) K) (ws : List K) (lc rc : Option (Scalar K)), 1 ≤ k →
      ws.length = k → '\n' ∈ (strObj F false (.mix k ds ws lc rc)).toList := by
    intro k ds ws lc rc hk hw
    obtain ⟨k, rfl⟩ : ∃ j, k = j + 1 := ⟨k - 1, by omega⟩
    cases ws with
    | nil => simp at hw
    | cons w ws => simp [strObj, List.finRange_succ, mixLines]
  have hplain : ∀ x : Obj (St σ K) K, Printable x → Plain x ∨ ∃ k ds ws lc rc, x = .mix k ds ws lc rc ∧ 1 ≤ k ∧
      ws.length = k ∧ ∀ i, Plain (ds i) := by
    intro x hx
    cases x with
    | mix k ds ws lc rc => exact Or.inr ⟨k, ds, ws, lc, rc, rfl, hx.1, hx.2.1, hx.2.2⟩
    | _ => exact Or.inl hx
  rcases hplain d hd with hd | ⟨k, ds, ws, lc, rc, rfl, hk, hw, hds⟩ <;>
    rcases hplain e he with he | ⟨k', es, ws', lc', rc', rfl, hk', hw', hes⟩
  · exact (plain_key_iff F hnum d e hd he).1 h
  · exact absurd (h ▸ hmix k' es ws' lc' rc' hk' hw') (plain_nl F hnum d hd false)
  · exact absurd (h ▸ hmix k ds ws lc rc hk hw) (plain_nl F hnum e he false)
  · simp only [strObj] at h
    have h1 := (String.append_right_inj _).1 h
    obtain ⟨rfl, e2⟩ := mixLines_inj hnum (by simp [hw]) (by simp [hw'])
      (fun x hx => by
        obtain ⟨i, -, rfl⟩ := List.mem_map.1 hx
        exact plain_nl F hnum _ (hds i) false)
      (fun x hx => by
        obtain ⟨i, -, rfl⟩ := List.mem_map.1 hx
        exact plain_nl F hnum _ (hes i) false) h1
    obtain rfl : k = k' := hw.symm.trans hw'
    refine .mix _ _ _ _ _ fun i => (plain_key_iff F hnum _ _ (hds i) (hes i)).1 ?_
    exact List.map_inj_left.1 e2 i (List.mem_finRange i)

/-- **C21.** In every history of calls for such expressions (whose `memcache=True` calls load no files), what
a call for `d` returns is a draw from an expression that differs from `d` at most in the ways listed there,
clipped to the bounds of the call. -/
theorem C21_draw_of_alike (E : Env σ K) (F : StrEnv σ K) (hnum : PrintsNumbers F.num) (d : Obj (St σ K) K)
    (hd : Printable d) (ops : List (CacheOp σ K)) (hops : ∀ op ∈ ops, Printable op.d)
    (hload : ∀ op ∈ ops, op.opts.memcache = true → truthyName op.opts.load = none)
    (c : CSt σ K) (hc : c.mem (strObj F false d) = none) (o : CacheOpts) (hl : truthyName o.load = none)
    (n : ℕ) (lc rc : Option (Scalar K)) (z : Samples K) (c' : CSt σ K)
    (h : cachedSample E (strObj F false) o d n lc rc (runCache E (strObj F false) ops c) = (.ok z, c')) :
    ∃ e, PrintsAlike d e ∧ (IsDrawOf E e z ∨ ∃ w, IsDrawOf E e w ∧ applyClips E.powf lc rc w = .ok z) := by
  have hinv := runCache_invariant E (strObj F false) (strObj F false d)
    (fun w => ∃ e, PrintsAlike d e ∧ IsDrawOf E e w) ops (fun op ho hm _ => hload op ho hm)
    (fun op ho hm hk s s' z hz =>
      ⟨op.d, (C21_same_key_iff F hnum d op.d hd (hops op ho)).1 hk.symm, _, _, _, _, _, _, _, hz⟩)
    c (by intro v hv; rw [hc] at hv; cases hv)
  rcases cachedSample_result hl h with ⟨v, -, hv, hz⟩ | ⟨s', hz⟩
  · obtain ⟨e, he, hw⟩ := hinv v hv
    exact ⟨e, he, Or.inr ⟨v, hw, hz⟩⟩
  · exact ⟨d, .refl d, Or.inl ⟨_, _, _, _, _, _, _, hz⟩⟩

/-- The infix operators of an expression and the basic distributions, numbers and functions they are applied
to, in reading order; normal parameters are rounded to two decimals and the unused credibility of a
`tdist(t=...)` is dropped. -/
inductive Word (K : Type)
  | operator (f : BinOp)
  | function (f : UnFn)
  | function2 (f : BinFn)
  | number (v : Scalar K)
  | dist (l : Leaf K) (lc rc : Option (Scalar K))
  | mixture (ws : List K)
  | other

/-- See `Word`. -/
def roundLeaf : Leaf K → Leaf K
  | .normal m s => .normal (round2 m) (round2 s)
  | .tdist none none t _ => .tdist none none t 0
  | .logtdist none none t _ => .logtdist none none t 0
  | l => l

/-- See `Word`. -/
def words : Obj (St σ K) K → List (Word K)
  | .lit v => [.number v]
  | .leaf l lc rc => [.dist (roundLeaf l) lc rc]
  | .un f d => .function f :: words d
  | .bin (.op .max) a b => .function2 (.op .max) :: (words a ++ words b)
  | .bin (.op .min) a b => .function2 (.op .min) :: (words a ++ words b)
  | .bin (.op f) a b => words a ++ .operator f :: words b
  | .bin f a b => .function2 f :: (words a ++ words b)
  | .corr _ _ ms i => words (ms i)
  | .mix k ds ws _ _ => .mixture ws :: (List.finRange k).flatMap fun i => words (ds i)
  | _ => [.other]

theorem words_alike {d e : Obj (St σ K) K} (h : PrintsAlike d e) : words d = words e := by
  have hop : ∀ {f : BinOp}, Infix f → ∀ a b : Obj (St σ K) K,
      words (.bin (.op f) a b) = words a ++ .operator f :: words b := by
    intro f hf a b
    cases f <;> first | (exact absurd rfl hf.1) | (exact absurd rfl hf.2) | rfl
  induction h with
  | refl => rfl
  | symm _ ih => exact ih.symm
  | trans _ _ h1 h2 => exact h1.trans h2
  | regroup hf hg a b c => rw [hop hg, hop hf, hop hf, hop hg]; simp
  | negFirst hf a b => rw [words, hop hf, hop hf, words]; simp
  | normal lc rc hm hs => simp [words, roundLeaf, round2_eq_iff.2 hm, round2_eq_iff.2 hs]
  | mix ws lc rc lc' rc' _ ih => simp [words, ih]
  | corr => rfl
  | tdist => rfl
  | logtdist => rfl
  | un f _ ih => simp [words, ih]
  | bin f _ _ h1 h2 =>
    cases f with
    | op o => cases o <;> simp [words, h1, h2]
    | _ => simp [words, h1, h2]

/-- **C21.** Expressions that share a cache entry consist of the same operators, functions, numbers and basic
distributions (rounded) in the same reading order; only the grouping may differ.  In particular an expression
never gets the samples of one with another operator, another operand or operands in another order. -/
theorem C21_same_key_same_words (F : StrEnv σ K) (hnum : PrintsNumbers F.num) (d e : Obj (St σ K) K)
    (hd : Printable d) (he : Printable e) (h : strObj F false d = strObj F false e) : words d = words e :=
  words_alike ((C21_same_key_iff F hnum d e hd he).1 h)

/-- **C21, how close.** Normal distributions that share a cache entry have means and standard deviations that
differ by at most a hundredth, and the same bounds. -/
theorem C21_normal_close (F : StrEnv σ K) (hnum : PrintsNumbers F.num) {m s m' s' : K}
    {lc rc lc' rc' : Option (Scalar K)} (h1 : PlainLeaf (.normal m s) lc rc)
    (h2 : PlainLeaf (.normal m' s') lc' rc')
    (h : strObj F false (.leaf (.normal m s) lc rc) = strObj F false (.leaf (.normal m' s') lc' rc')) :
    |m - m'| ≤ 1 / 100 ∧ |s - s'| ≤ 1 / 100 ∧ lc = lc' ∧ rc = rc' := by
  have key : ∀ x y : K, round2 x = round2 y → |x - y| ≤ 1 / 100 := by
    intro x y h
    obtain ⟨k, ⟨h1, -⟩, h2, -⟩ := round2_eq_iff.1 h
    rw [abs_le] at h1 h2 ⊢
    constructor <;> linarith
  have hw := C21_same_key_same_words F hnum _ _ (Plain.printable (d := .leaf _ _ _) h1)
    (Plain.printable (d := .leaf _ _ _) h2) h
  simp only [words, roundLeaf, List.cons.injEq, Word.dist.injEq, Leaf.normal.injEq, and_true] at hw
  exact ⟨key _ _ hw.1.1, key _ _ hw.1.2, hw.2.1, hw.2.2⟩

omit [IsStrictOrderedRing K] in
/-- **C21 fails**, 4: mixtures are printed without a closing mark, so below another operator
`mixture([a, b + c])` and `mixture([a, b]) + c` share a cache entry. -/
theorem C21_key_mixture_fails (F : StrEnv σ K) (a b c : Obj (St σ K) K) (p q : K)
    (lc rc lc' rc' : Option (Scalar K)) :
    strObj F false (.un .neg (.mix 2 ![a, .bin (.op .add) b c] [p, q] lc rc))
      = strObj F false (.un .neg (.bin (.op .add) (.mix 2 ![a, b] [p, q] lc' rc') c)) := by
  simp [strObj, mixLines, List.finRange_succ, distPrefix, BinOp.sym, String.append_assoc]

/-! ### The hypotheses are met -/

/-- A way to print rationals: `-3/2`. -/
def ratStr (x : ℚ) : String := toString x.num ++ "/" ++ toString x.den

theorem int_no_slash (z : ℤ) : '/' ∉ (toString z).toList := by
  intro hc
  rcases int_toString z with ⟨n, h⟩ | ⟨n, h⟩
  · rw [h] at hc; exact absurd (nat_repr_digits n _ hc) (by decide)
  · rw [h] at hc
    rcases List.mem_cons.1 hc with hc | hc
    · exact absurd hc (by decide)
    · exact absurd (nat_repr_digits n _ hc) (by decide)

theorem ratStr_toList (x : ℚ) :
    (ratStr x).toList = (toString x.num).toList ++ '/' :: (toString x.den).toList := by
  simp [ratStr]

theorem ratStr_prints : PrintsNumbers ratStr := by
  have hden : ∀ n : ℕ, toString n = toString (n : ℤ) := fun n => rfl
  refine ⟨fun x y h => ?_, fun x z h => ?_, fun x c hc => ?_, fun x => ?_⟩
  · have h' := congrArg String.toList h
    rw [ratStr_toList, ratStr_toList, List.append_cons_inj_of_notMem (int_no_slash _)
      (by rw [hden]; exact int_no_slash _)] at h'
    obtain ⟨h1, -, h2⟩ := h'
    rw [hden, hden] at h2
    refine Rat.ext (int_toString_inj (String.toList_inj.1 h1)) ?_
    exact_mod_cast int_toString_inj (String.toList_inj.1 h2)
  · refine int_no_slash z ?_
    rw [← h, ratStr_toList]; simp
  · rw [ratStr_toList] at hc
    rcases List.mem_append.1 hc with h | h
    · exact int_bare _ c h
    · rcases List.mem_cons.1 h with rfl | h
      · decide
      · rw [hden] at h; exact int_bare _ c h
  · have h := int_numeric x.num
    rw [ratStr_toList]
    cases hn : (toString x.num).toList with
    | nil => rw [hn] at h; exact h.elim
    | cons c r =>
      rw [hn] at h
      rcases h with h | ⟨rfl, c', r', rfl, h⟩
      · exact Or.inl ⟨c, _, rfl, h⟩
      · exact Or.inr ⟨c', _, rfl, h⟩

/-- `(norm(0, 1) + 2) * max(uniform(0, 1), -chisquare(3))`: an expression as described. -/
def demoPlain : Obj (St ℕ ℚ) ℚ :=
  .bin (.op .mul) (.bin (.op .add) (.leaf (.normal 0 1) none none) (.lit (.int 2)))
    (.bin (.op .max) (.leaf (.uniform 0 1) none none) (.un .neg (.leaf (.chisquare 3) none none)))

/-- `norm(0.001, 1) + 2 * max(uniform(0, 1), -chisquare(3))`: prints the same. -/
def demoPlain' : Obj (St ℕ ℚ) ℚ :=
  .bin (.op .add) (.leaf (.normal (1 / 1000) 1) none none)
    (.bin (.op .mul) (.lit (.int 2))
      (.bin (.op .max) (.leaf (.uniform 0 1) none none) (.un .neg (.leaf (.chisquare 3) none none))))

theorem demoPlain_plain : Plain demoPlain ∧ Plain demoPlain' := by
  simp [demoPlain, demoPlain', Plain, PlainLeaf, IsNumber, startsWithNumber]

/-- The demo's way of printing. -/
def demoPrint : StrEnv ℕ ℚ := ⟨ratStr, fun _ => "?"⟩

/-- The two share a cache entry, and neither shares one with the expression with `-` in place of `+`. -/
theorem C21_same_key_example : strObj demoPrint false demoPlain = strObj demoPrint false demoPlain' ∧
    ∀ b, Plain b → strObj demoPrint false demoPlain ≠ strObj demoPrint false
      (.bin (.op .sub) (.leaf (.normal 0 1) none none) b) := by
  refine ⟨(C21_same_key_iff demoPrint ratStr_prints _ _ demoPlain_plain.1.printable
    demoPlain_plain.2.printable).2 ?_, fun b hb h => ?_⟩
  · refine .trans (.regroup ⟨by decide, by decide⟩ ⟨by decide, by decide⟩ _ _ _) (.bin _ (.normal _ _ ?_ ?_) (.refl _))
    · exact round2_eq_iff.1 (by decide +kernel)
    · exact round2_eq_iff.1 rfl
  · have h2 := C21_same_key_same_words demoPrint ratStr_prints _ _ demoPlain_plain.1.printable
      (Plain.printable (by simp [Plain, PlainLeaf, hb])) h
    simp [demoPlain, words] at h2

/-- A mixture of two such expressions. -/
def demoMix (w : ℚ) (d : Obj (St ℕ ℚ) ℚ) : Obj (St ℕ ℚ) ℚ :=
  .mix 2 ![d, .leaf (.uniform 0 1) none none] [w, 1 - w] none none

/-- Mixtures of expressions that print the same share a cache entry; mixtures with other weights do not. -/
example : strObj demoPrint false (demoMix (1 / 4) demoPlain) = strObj demoPrint false (demoMix (1 / 4) demoPlain') ∧
    strObj demoPrint false (demoMix (1 / 4) demoPlain) ≠ strObj demoPrint false (demoMix (1 / 3) demoPlain) := by
  have hP : ∀ w d, Plain d → Printable (demoMix w d) := by
    intro w d hd
    refine ⟨by norm_num, by simp, Fin.forall_fin_two.2 ⟨hd, ?_⟩⟩
    simp [Plain, PlainLeaf]
  refine ⟨(C21_same_key_iff demoPrint ratStr_prints _ _ (hP _ _ demoPlain_plain.1) (hP _ _ demoPlain_plain.2)).2 ?_,
    fun h => ?_⟩
  · exact .mix _ _ _ _ _ (Fin.forall_fin_two.2
      ⟨(plain_key_iff demoPrint ratStr_prints _ _ demoPlain_plain.1 demoPlain_plain.2).1 C21_same_key_example.1,
        .refl _⟩)
  · have h2 := C21_same_key_same_words demoPrint ratStr_prints _ _ (hP _ _ demoPlain_plain.1)
      (hP _ _ demoPlain_plain.1) h
    simp only [demoMix, words, List.cons.injEq, Word.mixture.injEq] at h2
    exact absurd h2.1.1 (by norm_num)

omit [IsStrictOrderedRing K] in
/-- **C21**: constants that are not text share a cache entry only if they are the same value of the same type:
`None`, `True`, `False`, ints and floats print differently. -/
theorem C21_constants_apart (F : StrEnv σ K) (hnum : PrintsNumbers F.num) (v w : Scalar K) (hv : ∀ s, v ≠ .str s)
    (hw : ∀ s, w ≠ .str s) :
    strObj F false (.leaf (.const v) none none : Obj (St σ K) K) = strObj F false (.leaf (.const w) none none) ↔
      v = w := by
  refine ⟨fun h => ?_, fun h => by rw [h]⟩
  have h' : v.pstr F.num = w.pstr F.num := by
    simp only [strObj, Leaf.str?, String.append_assoc, String.append_right_inj, String.append_left_inj] at h
    exact h
  have word : ∀ {v w : Scalar K}, IsNumber v → ¬ IsNumber w → (∀ s, w ≠ .str s) → v.pstr F.num ≠ w.pstr F.num := by
    intro v w hv hn hw h
    have := pstr_numeric hnum hv
    rw [h] at this
    cases w with
    | none => exact absurd this (by simp [Scalar.pstr, Numeric])
    | bool b => cases b <;> exact absurd this (by simp [Scalar.pstr, Numeric])
    | int z => exact hn trivial
    | flt x => exact hn trivial
    | str s => exact hw s rfl
  by_cases nv : IsNumber v
  · by_cases nw : IsNumber w
    · exact pstr_inj' hnum nv nw h'
    · exact absurd h' (word nv nw hw)
  · by_cases nw : IsNumber w
    · exact absurd h'.symm (word nw nv hv)
    · cases v with
      | none =>
        cases w with
        | none => rfl
        | bool b => cases b <;> exact absurd h' (by simp [Scalar.pstr])
        | int z => exact absurd trivial nw
        | flt x => exact absurd trivial nw
        | str s => exact absurd rfl (hw s)
      | bool b =>
        cases w with
        | none => cases b <;> exact absurd h' (by simp [Scalar.pstr])
        | bool b' => cases b <;> cases b' <;> first | rfl | exact absurd h' (by simp [Scalar.pstr])
        | int z => exact absurd trivial nw
        | flt x => exact absurd trivial nw
        | str s => exact absurd rfl (hw s)
      | int z => exact absurd trivial nv
      | flt x => exact absurd trivial nv
      | str s => exact absurd rfl (hv s)

omit [IsStrictOrderedRing K] in
/-- **C21 fails**, 5: text is printed without quotes, so `const(1)` and `const("1")`, or `const(None)` and
`const("None")`, share a cache entry. -/
theorem C21_key_text_fails (F : StrEnv σ K) (v : Scalar K) :
    strObj F false (.leaf (.const v) none none : Obj (St σ K) K)
      = strObj F false (.leaf (.const (.str (v.pstr F.num))) none none) := by
  simp [strObj, Leaf.str?, Scalar.pstr]

end Verif
