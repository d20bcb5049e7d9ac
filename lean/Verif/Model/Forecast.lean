import Verif.Model.Sample
import Mathlib.Analysis.SpecialFunctions.Pow.Real
import Mathlib.Analysis.SpecialFunctions.Log.Basic
import Mathlib.Analysis.SpecialFunctions.Sqrt

/-!
# Forecasting helpers (`squigglepy/utils.py:335-427, 753-1305`)

Numbers are exact reals.  Where Python would produce `nan`, `inf` or a complex number the model
raises `unmodelled`.
-/

namespace Verif

/-! ### `event_occurs` -/

section Event
variable {σ K : Type} [Field K] [LinearOrder K] [FloorRing K]

/-- `uniform(0, 1) < p` (utils.py:354-356). -/
def drawBelow (E : Env σ K) (p : Scalar K) : SM σ K Bool :=
  SM.bind (drawSM E (.uniform 0 1) 1) fun us => SM.lift (
    match us, p.num? with
    | [.flt u], some x => .ok (decide (u < x.val))
    | [_], none => .error .typeError
    | _, _ => .error .unmodelled)

/-- `event_occurs(p)` (utils.py:350-356); `event_happens` and `event` return it (utils.py:376, 400).
A distribution or a function is sampled once first. -/
def eventOccurs (E : Env σ K) (p : Obj (St σ K) K) : SM σ K Bool :=
  match p with
  | .lit v => drawBelow E v
  | d => SM.bind (sampleObj E d 1 none none) fun x =>
      match x with
      | .scalar v => drawBelow E v
      | .arr [v] => drawBelow E v
      | .arr _ => SM.throw .unmodelled

end Event

/-- `one_in(p, digits, verbose=False)` (utils.py:426-427). -/
def oneIn {K : Type} [Field K] [LinearOrder K] [FloorRing K] (p : K) (digits : ℤ) :
    Except PyErr (Scalar K) :=
  if p = 0 then .error .zeroDivisionError else roundScalar digits (.flt (1 / p))

/-! ### `laplace` -/

/-- `1 - ((1 + r / t) ** -k)` (utils.py:799-809). -/
noncomputable def laplaceTime (r t k : ℝ) : Except PyErr ℝ :=
  if t = 0 then .error .zeroDivisionError
  else
    let base := 1 + r / t
    if 0 < base then .ok (1 - base ^ (-k))
    else if base = 0 then .error .zeroDivisionError
    else .error .unmodelled

/-- `laplace` (utils.py:794-815). -/
noncomputable def laplace (s : ℝ) (n timePassed timeRemaining : Option ℝ := none)
    (timeFixed : Bool := false) : Except PyErr ℝ :=
  match n, timePassed, timeRemaining with
  | some n, none, none =>
    if s > n then .error .valueError
    else if n + 2 = 0 then .error .zeroDivisionError
    else .ok ((s + 1) / (n + 2))
  | some n, some t, r =>
    if s > n then .error .valueError else timed t r
  | none, some t, r => timed t r
  | some n, none, some _ => if s > n then .error .valueError else .error .valueError
  | none, none, _ => .error .valueError
where
  /-- The branches with `time_passed` (utils.py:798-809). -/
  timed (t : ℝ) (r : Option ℝ) : Except PyErr ℝ :=
    if s = 0 then laplaceTime (r.getD 1) t 1
    else if 0 < s then
      if timeFixed then laplaceTime (r.getD 1) t (s + 1) else laplaceTime (r.getD 1) t s
    else .error .valueError

/-! ### Growth rates -/

/-- `growth_rate_to_doubling_time` of a number (utils.py:850-851): `math.log` raises ValueError at and
below 0. -/
noncomputable def growthToDoubling (g : ℝ) : Except PyErr ℝ :=
  if 1 + g ≤ 0 then .error .valueError
  else if Real.log (1 + g) = 0 then .error .zeroDivisionError
  else .ok (Real.log 2 / Real.log (1 + g))

/-- `growth_rate_to_doubling_time` of an array (utils.py:848-849); numpy returns `inf` or `nan` outside
the domain. -/
noncomputable def growthToDoublingArr : List ℝ → Except PyErr (List ℝ) :=
  mapExcept fun g =>
    if 1 + g ≤ 0 ∨ Real.log (1 + g) = 0 then .error .unmodelled
    else .ok (Real.log 2 / Real.log (1 + g))

/-- `doubling_time_to_growth_rate` of a number (utils.py:887-888). -/
noncomputable def doublingToGrowth (d : ℝ) : Except PyErr ℝ :=
  if d = 0 then .error .zeroDivisionError else .ok (Real.exp (Real.log 2 / d) - 1)

/-- `doubling_time_to_growth_rate` of an array (utils.py:885-886). -/
noncomputable def doublingToGrowthArr : List ℝ → Except PyErr (List ℝ) :=
  mapExcept fun d => if d = 0 then .error .unmodelled else .ok (Real.exp (Real.log 2 / d) - 1)

/-! ### `kelly` -/

/-- `round(x, d)` of Python and numpy floats: nearest, ties to even. -/
noncomputable def roundTo (d : ℕ) (x : ℝ) : ℝ := (roundEven (x * 10 ^ d) : ℝ) / 10 ^ d

/-- The dictionary returned by `kelly` (utils.py:970-986), without the parsed date. -/
structure KellyBet where
  myPrice : ℝ
  marketPrice : ℝ
  deference : ℝ
  adjPrice : ℝ
  deltaPrice : ℝ
  adjDeltaPrice : ℝ
  kelly : ℝ
  target : ℝ
  current : ℝ
  delta : ℝ
  maxGain : ℝ
  modeledGain : ℝ
  expectedRoi : ℝ
  expectedArr : Option ℝ

/-- `kelly` (utils.py:951-986).  `days` is the number of days between now and `resolve_date`
(simplification: the date is parsed by the caller of the model). -/
noncomputable def kelly (my market : ℝ) (deference : ℝ := 0) (bankroll : ℝ := 1)
    (days : Option ℤ := none) (current : ℝ := 0) (error : Bool := true) : Except PyErr KellyBet :=
  if market ≥ 1 ∨ market ≤ 0 then .error .valueError
  else if my ≥ 1 ∨ my ≤ 0 then .error .valueError
  else if deference > 1 ∨ deference < 0 then .error .valueError
  else if my < market ∧ error = true then .error .valueError
  else
    let adj := my * (1 - deference) + market * deference
    let k := |adj - (1 - adj) * (market / (1 - market))|
    let target := bankroll * k
    let roi := |adj / market - 1|
    let arr : Except PyErr (Option ℝ) := match days with
      | none => .ok none
      | some n => if n = 0 then .error .zeroDivisionError
        else .ok (some ((roi + 1) ^ (365 / (n : ℝ)) - 1))
    match arr with
    | .error e => .error e
    | .ok arr => .ok
      { myPrice := roundTo 2 my
        marketPrice := roundTo 2 market
        deference := roundTo 3 deference
        adjPrice := roundTo 2 adj
        deltaPrice := roundTo 2 |market - my|
        adjDeltaPrice := roundTo 2 |market - adj|
        kelly := roundTo 3 k
        target := roundTo 2 target
        current := roundTo 2 current
        delta := roundTo 2 (target - current)
        maxGain := roundTo 2 (target / market - target)
        modeledGain := roundTo 2 (adj * (target / market) - target)
        expectedRoi := roundTo 3 roi
        expectedArr := arr.map (roundTo 3) }

/-- `full_kelly` (utils.py:1044-1052). -/
noncomputable def fullKelly (my market : ℝ) (bankroll : ℝ := 1) (days : Option ℤ := none)
    (current : ℝ := 0) (error : Bool := true) : Except PyErr KellyBet :=
  kelly my market 0 bankroll days current error

/-- `half_kelly` (utils.py:1110-1118). -/
noncomputable def halfKelly (my market : ℝ) (bankroll : ℝ := 1) (days : Option ℤ := none)
    (current : ℝ := 0) (error : Bool := true) : Except PyErr KellyBet :=
  kelly my market (1 / 2) bankroll days current error

/-- `third_kelly` (utils.py:1176-1184). -/
noncomputable def thirdKelly (my market : ℝ) (bankroll : ℝ := 1) (days : Option ℤ := none)
    (current : ℝ := 0) (error : Bool := true) : Except PyErr KellyBet :=
  kelly my market (6666 / 10000) bankroll days current error

/-- `quarter_kelly` (utils.py:1242-1250). -/
noncomputable def quarterKelly (my market : ℝ) (bankroll : ℝ := 1) (days : Option ℤ := none)
    (current : ℝ := 0) (error : Bool := true) : Except PyErr KellyBet :=
  kelly my market (3 / 4) bankroll days current error

/-! ### `extremize`, `sharpe_ratio` -/

/-- `extremize` (utils.py:1275-1281). -/
noncomputable def extremize (p e : ℝ) : Except PyErr ℝ :=
  if p ≤ 0 ∨ p ≥ 1 then .error .valueError
  else if p > 1 / 2 then .ok (1 - (1 - p) ^ e)
  else .ok (p ^ e)

/-- `np.mean`. -/
noncomputable def meanR (xs : List ℝ) : ℝ := xs.sum / xs.length

/-- `np.std`: the population standard deviation. -/
noncomputable def stdR (xs : List ℝ) : ℝ :=
  Real.sqrt (meanR (xs.map fun x => (x - meanR xs) ^ 2))

/-- `sharpe_ratio` (utils.py:1305). -/
noncomputable def sharpeRatio (returns : List ℝ) (riskFree : ℝ := 0) : Except PyErr ℝ :=
  if returns = [] ∨ stdR returns = 0 then .error .unmodelled
  else .ok ((meanR returns - riskFree) / stdR returns)

end Verif
