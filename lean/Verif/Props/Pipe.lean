import Verif.Model.Pipe
import Verif.Lemmas.Sample

/-! # C15: piping is the same as calling -/

namespace Verif

variable {S K : Type}

/-- An `int` or `float` value. -/
def IsNumber (v : Scalar K) : Prop := (∃ z, v = .int z) ∨ (∃ x, v = .flt x)

theorem isNum_of {v : Scalar K} (h : IsNumber v) : (PyArg.num v : PyArg S K).isNum = true := by
  rcases h with ⟨z, rfl⟩ | ⟨x, rfl⟩ <;> rfl

/-- **C15.** `d >> lclip(v)` builds the same distribution as `lclip(d, v)`, for every number `v`. -/
theorem C15_lclip (d : Obj S K) (v : Scalar K) (hv : IsNumber v) :
    rshift d (clipOne .lclip (.num v) .none) = clipOne .lclip (.dist d) (.num v) := by
  simp only [clipOne, isNum_of hv, if_true]; rfl

/-- **C15.** `d >> rclip(v)` builds the same distribution as `rclip(d, v)`. -/
theorem C15_rclip (d : Obj S K) (v : Scalar K) (hv : IsNumber v) :
    rshift d (clipOne .rclip (.num v) .none) = clipOne .rclip (.dist d) (.num v) := by
  simp only [clipOne, isNum_of hv, if_true]; rfl

/-- **C15.** `d >> clip(l, r)` builds the same distribution as `clip(d, l, r)` for two numbers, and
that is `rclip(lclip(d, l), r)`. -/
theorem C15_clip (d : Obj S K) (a b : Scalar K) (ha : IsNumber a) (hb : IsNumber b) :
    rshift d (clipBoth (.num a) (.num b) .none) = clipBoth (.dist d) (.num a) (.num b) ∧
    clipBoth (.dist d) (.num a) (.num b)
      = .ok (.cplx ⟨Cplx.toObj ⟨d, some (.lit a), .lclip⟩, some (.lit b), .rclip⟩) := by
  constructor
  · simp only [clipBoth, isNum_of ha, isNum_of hb, and_self, if_true]; rfl
  · rfl

/-- **C15.** A bound that is itself a distribution can be piped as well: `d >> lclip(e)` is
`lclip(d, e)`. -/
theorem C15_lclip_dist (d e : Obj S K) :
    rshift d (clipOne .lclip (.dist e) .none) = clipOne .lclip (.dist d) (.dist e) ∧
    rshift d (clipOne .rclip (.dist e) .none) = clipOne .rclip (.dist d) (.dist e) := ⟨rfl, rfl⟩

/-- **C15.** `d >> dist_max(e)` is `dist_max(d, e)` and `d >> dist_min(e)` is `dist_min(d, e)`, for a
distribution or a number `e`. -/
theorem C15_max_min (d : Obj S K) (o : BinOp) (e : Obj S K) (v : Scalar K) :
    rshift d (distMaxMin o (.dist e) .none) = distMaxMin o (.dist d) (.dist e) ∧
    rshift d (distMaxMin o (.num v) .none) = distMaxMin o (.dist d) (.num v) := by
  constructor <;> rfl

/-- **C15.** `d >> dist_fn(f)` is `dist_fn(d, f)`, which is `dist_fn(d, fn=f)`. -/
theorem C15_dist_fn (d : Obj S K) (f : Fn S K) :
    rshift d (distFn (.fn f) .none .none) = distFn (.dist d) (.fn f) .none ∧
    distFn (.dist d) (.fn f) .none = distFn (.dist d) .none (.fn f) ∧
    distFn (.dist d) (.fn f) .none = .ok (.cplx ⟨d, none, f⟩) := ⟨rfl, rfl, rfl⟩

/-- `dist_fn(dist_fn(... dist_fn(d, f1) ..., fk), f)`: applying the wrappers one at a time. -/
def distFnChain (d : Obj S K) : List (Fn S K) → Except PyErr (PyRes S K)
  | [] => .ok (.cplx ⟨d, none, .neg⟩)   -- not used: lists are non-empty
  | [f] => distFn (.dist d) (.fn f) .none
  | f :: g :: fs => match distFn (.dist d) (.fn f) .none with
    | .ok (.cplx c) => distFnChain c.toObj (g :: fs)
    | r => r

/-- **C15.** For a non-empty list of functions of any length, `d >> dist_fn([f1, ..., fk])` is
`dist_fn(d, [f1, ..., fk])`, and both are `dist_fn(...dist_fn(dist_fn(d, f1), f2)..., fk)`: the
functions are applied left to right. -/
theorem C15_dist_fn_list (d : Obj S K) (f : Fn S K) (fs : List (Fn S K)) :
    rshift d (distFn (.fns (f :: fs)) .none .none) = distFn (.dist d) (.fns (f :: fs)) .none ∧
    distFn (.dist d) (.fns (f :: fs)) .none = distFnChain d (f :: fs) := by
  constructor
  · simp only [distFn, rshift, PyArg.operand]
    cases h : wrapAll none d (f :: fs) <;> simp [bind, Except.bind, h]
  · simp only [distFn, PyArg.operand]
    induction fs generalizing d f with
    | nil => rfl
    | cons g fs ih => exact ih (Cplx.toObj ⟨d, none, f⟩) g

/-- **C15.** `d >> dist_round(k)` is `dist_round(d, k)` for every integer `k`. -/
theorem C15_round (d : Obj S K) (k : ℤ) :
    rshift d (distRound (.num (.int k)) (.num (.int 0)) true)
      = distRound (.dist d) (.num (.int k)) (k = 0) := rfl

/-- **C15 fails** for one-sided clips: although `None` is documented for either bound and
`clip(d, None, r)`, `clip(d, l, None)` work, `d >> clip(None, r)` raises `TypeError` and
`d >> clip(l, None)` raises `ValueError`. -/
theorem C15_one_sided_clip_fails (d : Obj S K) (v : Scalar K) (hv : IsNumber v) :
    (∃ c, clipBoth (.dist d) .none (.num v) = .ok (.cplx c)) ∧
    (∃ c, clipBoth (.dist d) (.num v) .none = .ok (.cplx c)) ∧
    rshift d (clipBoth .none (.num v) .none) = .error .typeError ∧
    rshift d (clipBoth (.num v) .none .none) = .error .valueError := by
  refine ⟨⟨_, rfl⟩, ⟨_, rfl⟩, rfl, ?_⟩
  simp only [clipBoth, clipOne, isNum_of hv, if_true]
  rfl

/-- **C15 fails** for clips with distributions as bounds: `d >> clip(e1, e2)` silently builds
`rclip(d, lclip(e1, e2))` instead of `clip(d, e1, e2)`. -/
theorem C15_dist_clip_fails (d e1 e2 : Obj S K) :
    rshift d (clipBoth (.dist e1) (.dist e2) .none)
      = .ok (.cplx ⟨d, some (Cplx.toObj ⟨e1, some e2, .lclip⟩), .rclip⟩) ∧
    clipBoth (.dist d) (.dist e1) (.dist e2)
      = .ok (.cplx ⟨Cplx.toObj ⟨d, some e1, .lclip⟩, some e2, .rclip⟩) := ⟨rfl, rfl⟩

/-- The hypotheses are met. -/
example : IsNumber (.int 3 : Scalar ℚ) ∧ IsNumber (.flt (1 / 2) : Scalar ℚ) :=
  ⟨Or.inl ⟨3, rfl⟩, Or.inr ⟨1 / 2, rfl⟩⟩

end Verif
