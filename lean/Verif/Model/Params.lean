import Verif.Model.Py
import Mathlib.Analysis.SpecialFunctions.Pow.Real
import Mathlib.Analysis.SpecialFunctions.Log.Basic
import Mathlib.Analysis.SpecialFunctions.Exp
import Mathlib.Analysis.SpecialFunctions.Sqrt

/-!
# Constructors of the normal family (`squigglepy/distributions.py:686-1117`)

Keyword arguments that are `None` are `none`.  Arithmetic is exact over the reals; `np.exp`, `np.log`,
`np.sqrt` are the real functions, `scipy.stats.norm.ppf` is the parameter `ppf`.  The stored fields stay
optional, as in Python, so that a half-defined object can be observed.
-/

namespace Verif

/-- `mean` and `sd` of a `NormalDistribution`. -/
structure NormalFields where
  mean : Option ℝ
  sd : Option ℝ

/-- `cdf_value`, `normed_sigma` (distributions.py:709-710, 818-819, 902-903).  For a credibility of 0 or 100 scipy
returns 0 and infinity; the theorems ask for a credibility strictly in between. -/
noncomputable def normedSigma (ppf : ℝ → ℝ) (cred : ℝ) : ℝ := ppf (0.5 + 0.5 * (cred / 100))

/-- `x is not None and y is not None and x > y` (distributions.py:697, 790, 873). -/
noncomputable def outOfOrder (x y : Option ℝ) : Bool :=
  match x, y with
  | some a, some b => decide (a > b)
  | _, _ => false

/-- `NormalDistribution.__init__` (distributions.py:687-711). -/
noncomputable def normalInit (ppf : ℝ → ℝ) (x y mean sd : Option ℝ) (cred : ℝ) :
    Except PyErr NormalFields :=
  if outOfOrder x y then .error .valueError
  else if (x.isNone || y.isNone) && sd.isNone then .error .valueError
  else if (x.isSome || y.isSome) && sd.isSome then .error .valueError
  else
    let mean1 := if sd.isSome && mean.isNone then some 0 else mean
    if mean1.isNone && sd.isNone then
      match x, y with
      | some a, some b =>
        let m := (a + b) / 2
        .ok ⟨some m, some ((b - m) / normedSigma ppf cred)⟩
      | _, _ => .error .typeError
    else .ok ⟨mean1, sd⟩

/-- Arguments of `lognorm` and `invlognorm` (distributions.py:943-953, 1010-1020). -/
structure LogArgs where
  x : Option ℝ := none
  y : Option ℝ := none
  normMean : Option ℝ := none
  normSd : Option ℝ := none
  lognormMean : Option ℝ := none
  lognormSd : Option ℝ := none
  cred : ℝ := 90

/-- The four fields of a `LognormalDistribution` or `InverseLognormalDistribution`. -/
structure LogFields where
  normMean : Option ℝ
  normSd : Option ℝ
  lognormMean : Option ℝ
  lognormSd : Option ℝ

/-- The checks and defaults common to both constructors (distributions.py:790-814 and 873-897). -/
noncomputable def logChecks (a : LogArgs) : Except PyErr LogFields :=
  if outOfOrder a.x a.y then .error .valueError
  else if (match a.x with
    | some v => decide (v ≤ 0)
    | none => false) then .error .valueError
  else if (a.x.isNone || a.y.isNone) && a.normSd.isNone && a.lognormSd.isNone then .error .valueError
  else if (a.x.isSome || a.y.isSome) && (a.normSd.isSome || a.lognormSd.isSome) then
    .error .valueError
  else if (a.normSd.isSome || a.normMean.isSome) && (a.lognormSd.isSome || a.lognormMean.isSome) then
    .error .valueError
  else if a.normSd.isSome && a.normMean.isNone then
    .ok ⟨some 0, a.normSd, a.lognormMean, a.lognormSd⟩
  else if a.lognormSd.isSome && a.lognormMean.isNone then
    .ok ⟨a.normMean, a.normSd, some 1, a.lognormSd⟩
  else .ok ⟨a.normMean, a.normSd, a.lognormMean, a.lognormSd⟩

/-- `LognormalDistribution.__init__` (distributions.py:767-831).  With `lognorm_mean = 0` the division
in line 831 raises (for a Python number). -/
noncomputable def lognormInit (ppf : ℝ → ℝ) (a : LogArgs) : Except PyErr LogFields := do
  let f ← logChecks a
  -- distributions.py:816-820
  let f1 ← (match a.x, a.y with
    | some x, some y =>
      let m := (Real.log x + Real.log y) / 2
      Except.ok { f with normMean := some m
                         normSd := some ((Real.log y - m) / normedSigma ppf a.cred) }
    | some _, none => .error .typeError
    | none, _ => .ok f)
  -- distributions.py:822-831
  match f1.lognormSd with
  | none => (match f1.normMean, f1.normSd with
    | some m, some s =>
      .ok { f1 with lognormMean := some (Real.exp (m + s ^ 2 / 2))
                    lognormSd := some
                      (((Real.exp (s ^ 2) - 1) * Real.exp (2 * m + s ^ 2)) ^ (0.5 : ℝ)) }
    | _, _ => .error .typeError)
  | some ls => (match f1.normSd with
    | some _ => .ok f1
    | none => (match f1.lognormMean with
      | some lm =>
        if lm = 0 then .error .zeroDivisionError
        else .ok { f1 with normMean := some (Real.log (lm ^ 2 / Real.sqrt (ls ^ 2 + lm ^ 2)))
                           normSd := some (Real.sqrt (Real.log (1 + ls ^ 2 / lm ^ 2))) }
      | none => .error .typeError))

/-- `InverseLognormalDistribution.__init__` (distributions.py:850-925).  `np.log` of a negative
`lognorm_mean` (line 925) is `nan`: not modelled. -/
noncomputable def invlognormInit (ppf : ℝ → ℝ) (a : LogArgs) : Except PyErr LogFields := do
  let f ← logChecks a
  -- distributions.py:899-904
  let f1 ← (match a.x, a.y with
    | some x, some y =>
      let m := (Real.log (1 / y) + Real.log (1 / x)) / 2
      Except.ok { f with normMean := some m
                         normSd := some ((Real.log (1 / x) - m) / normedSigma ppf a.cred) }
    | some _, none => .error .typeError
    | none, _ => .ok f)
  -- distributions.py:906-925
  match f1.lognormSd with
  | none => (match f1.normMean, f1.normSd with
    | some m, some s =>
      let lm := Real.exp (m + s ^ 2 / 2)
      let lv := (Real.exp (s ^ 2) - 1) * Real.exp (2 * m + s ^ 2)
      let lognormMean := 1 / Real.sqrt (lv + lm ^ 2) * Real.exp (-m + s ^ 2 / 2)
      .ok { f1 with lognormMean := some lognormMean
                    lognormSd := some (lognormMean * Real.sqrt (Real.exp (s ^ 2) - 1)) }
    | _, _ => .error .typeError)
  | some ls => (match f1.normSd with
    | some _ => .ok f1
    | none => (match f1.lognormMean with
      | some lm =>
        if lm = 0 then .error .zeroDivisionError
        else if lm < 0 then .error .unmodelled
        else
          let s := Real.sqrt (Real.log (1 + ls ^ 2 / lm ^ 2))
          .ok { f1 with normSd := some s, normMean := some (-Real.log lm - s ^ 2 / 2) }
      | none => .error .typeError))

/-- What `to` returns. -/
inductive ToDist where
  | lognorm (f : LogFields)
  | norm (f : NormalFields)

/-- `to(x, y, credibility)` (distributions.py:1114-1117). -/
noncomputable def toInit (ppf : ℝ → ℝ) (x y cred : ℝ) : Except PyErr ToDist :=
  if x > 0 then do .ok (.lognorm (← lognormInit ppf { x := some x, y := some y, cred := cred }))
  else do .ok (.norm (← normalInit ppf (some x) (some y) none none cred))

end Verif
