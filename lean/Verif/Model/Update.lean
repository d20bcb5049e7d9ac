import Verif.Model.Params
import Verif.Model.ZeroInflated

/-!
# `simple_bayes`, `update` and `average` (`squigglepy/bayes.py:28-60, 313-446`)

Exact real arithmetic.  Dividing by zero raises `ZeroDivisionError` (simplification: numpy numbers would
give `nan` or `inf` with a warning instead).
-/

namespace Verif

/-- `a / b` on Python numbers. -/
noncomputable def pyDiv (a b : ℝ) : Except PyErr ℝ :=
  if b = 0 then .error .zeroDivisionError else .ok (a / b)

/-- `math.sqrt`: raises `ValueError` (math domain error) for negative numbers. -/
noncomputable def mathSqrt (a : ℝ) : Except PyErr ℝ :=
  if a < 0 then .error .valueError else .ok (Real.sqrt a)

/-- `simple_bayes` (bayes.py:60). -/
noncomputable def simpleBayes (likelihoodH likelihoodNotH prior : ℝ) : Except PyErr ℝ :=
  pyDiv (likelihoodH * prior) (likelihoodH * prior + likelihoodNotH * (1 - prior))

/-- The distributions `update` looks at.  `other c` is an object of a class `c` it does not know. -/
inductive PDist where
  | norm (f : NormalFields) (lclip rclip : Option ℝ)
  | lognorm (f : LogFields) (lclip rclip : Option ℝ)
  | beta (a b : ℝ)
  | gamma (shape scale : ℝ) (lclip rclip : Option ℝ)
  | other (cls : ℕ)

/-- The normal formula, used for means and standard deviations in lines 354-366 and again, in log space,
in lines 369-382. -/
noncomputable def normalUpdate (priorMean priorSd evidenceMean evidenceSd w : ℝ) :
    Except PyErr (ℝ × ℝ) := do
  let priorVar := priorSd ^ 2
  let evidenceVar := evidenceSd ^ 2
  let mean ← pyDiv (evidenceVar * priorMean + w * (priorVar * evidenceMean))
    (w * priorVar + evidenceVar)
  let sd ← mathSqrt (← pyDiv (evidenceVar * priorVar) (w * priorVar + evidenceVar))
  .ok (mean, sd)

/-- `update(prior, evidence, evidence_weight)` (bayes.py:313-413).  Fields that are `None` make the
arithmetic raise `TypeError`.  The bounds of the arguments are not passed on.  The last two branches both
raise `ValueError`. -/
noncomputable def update (ppf : ℝ → ℝ) (prior evidence : PDist) (w : ℝ) : Except PyErr PDist :=
  match prior, evidence with
  | .norm p _ _, .norm e _ _ =>
    match p.mean, p.sd, e.mean, e.sd with
    | some pm, some ps, some em, some es => do
      let (mean, sd) ← normalUpdate pm ps em es w
      let f ← normalInit ppf none none (some mean) (some sd) 90
      .ok (.norm f none none)
    | _, _, _, _ => .error .typeError
  | .lognorm p _ _, .lognorm e _ _ =>
    match p.normMean, p.normSd, e.normMean, e.normSd with
    | some pm, some ps, some em, some es => do
      let (mean, sd) ← normalUpdate pm ps em es w
      let f ← lognormInit ppf { normMean := some mean, normSd := some sd }
      .ok (.lognorm f none none)
    | _, _, _, _ => .error .typeError
  | .beta a b, .beta a' b' => .ok (.beta (a + a') (b + b'))
  | .gamma shape scale _ _, .gamma shape' scale' _ _ => do
    let evidenceShape := shape' * w
    let posteriorShape := shape + evidenceShape
    let priorRate ← pyDiv 1 scale
    let evidenceRate ← pyDiv 1 scale'
    let posteriorRate ← pyDiv (shape * priorRate + evidenceShape * evidenceRate)
      (shape + evidenceShape)
    let posteriorScale ← pyDiv 1 posteriorRate
    .ok (.gamma posteriorShape posteriorScale none none)
  | _, _ => .error .valueError

/-- Several updates in a row. -/
noncomputable def updateAll (ppf : ℝ → ℝ) : PDist → List (PDist × ℝ) → Except PyErr PDist
  | prior, [] => .ok prior
  | prior, (e, w) :: rest => do
    let posterior ← update ppf prior e w
    updateAll ppf posterior rest

/-- `average(prior, evidence, weights=[0.5, 0.5], relative_weights=None)` (bayes.py:446); the result is
described by the weights and components of the mixture. -/
def averageDists {K : Type} [Field K] [LinearOrder K] {α : Type} (prior evidence : α)
    (weights : WArg K := .list [some (1 / 2), some (1 / 2)]) (relativeWeights : WArg K := .absent) :
    Except PyErr (List K × List (VItem K α)) :=
  mixtureInit weights relativeWeights (.list [.plain prior, .plain evidence])

end Verif
