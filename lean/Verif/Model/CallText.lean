import Verif.Spec.PrintedCall
import Verif.Model.Constructors
import Verif.Model.Params

/-!
# Calling the constructor functions by name

The functions of `squigglepy/distributions.py` and `squigglepy/dice.py` that build basic distributions, with
their signatures, called with literals the way Python binds arguments.
-/

namespace Verif

open Spec

/-- Parameters of a function in order, with their defaults. -/
abbrev Signature := List (String × Option (Scalar ℝ))

/-- The keyword arguments fill the remaining parameters, defaults the rest; `none` is Python's `TypeError` (an
unknown or repeated keyword, a missing argument). -/
def bindKeywords (ps : Signature) (as : List Arg) : Option (List (Scalar ℝ)) :=
  if as.all (fun a => match a.key with
      | some k => ps.any fun p => p.1 == k
      | none => false) && decide ((as.map Arg.key).Nodup) then
    ps.mapM fun p => match as.find? fun a => a.key == some p.1 with
      | some a => some a.val
      | none => p.2
  else none

/-- Python's binding of arguments: positional ones first. -/
def bindArgs : Signature → List Arg → Option (List (Scalar ℝ))
  | p :: ps, a :: as => match a.key with
    | none => (bindArgs ps as).map (a.val :: ·)
    | some _ => bindKeywords (p :: ps) (a :: as)
  | ps, as => bindKeywords ps as

/-- A number (`int` or `float`). -/
def asNum : Scalar ℝ → Option ℝ
  | .int z => some z
  | .flt x => some x
  | _ => none

/-- A number or `None`. -/
def asOpt : Scalar ℝ → Option (Option ℝ)
  | .none => some none
  | v => (asNum v).map some

/-- A bound: `None` or a value. -/
def asBound : Scalar ℝ → Option (Scalar ℝ)
  | .none => none
  | v => some v

/-- A required parameter. -/
def req (s : String) : String × Option (Scalar ℝ) := (s, none)

/-- A parameter whose default is `None`. -/
def optNone (s : String) : String × Option (Scalar ℝ) := (s, some .none)

/-- A parameter with a whole number as default. -/
def optInt (s : String) (z : ℤ) : String × Option (Scalar ℝ) := (s, some (.int z))

/-- `lclip=None, rclip=None`. -/
def clipSig : Signature := [optNone "lclip", optNone "rclip"]

/-- The signatures, with the line of each `def` in distributions.py (`Die`, `die`, `coin`: dice.py).  `None` for names that
are not functions or classes building a basic distribution; the long names of the classes
(`PoissonDistribution`) are left out. -/
def signature? : String → Option Signature
  | "const" => some [req "x"]                                                     -- 629
  | "uniform" => some [req "x", req "y"]                                          -- 663
  | "norm" => some ([optNone "x", optNone "y", optInt "credibility" 90, optNone "mean", optNone "sd"] ++
      clipSig)                                                                    -- 723-725
  | "lognorm" | "invlognorm" => some ([optNone "x", optNone "y", optInt "credibility" 90,
      optNone "norm_mean", optNone "norm_sd", optNone "lognorm_mean", optNone "lognorm_sd"] ++
      clipSig)                                                                    -- 943-953, 1010-1020
  | "binomial" => some [req "n", req "p"]                                         -- 1132
  | "beta" => some [req "a", req "b"]                                             -- 1165
  | "bernoulli" => some [req "p"]                                                 -- 1203
  | "tdist" => some ([optNone "x", optNone "y", optInt "t" 20, optInt "credibility" 90] ++
      clipSig)                                                                    -- 1298
  | "log_tdist" => some ([optNone "x", optNone "y", optInt "t" 1, optInt "credibility" 90] ++
      clipSig)                                                                    -- 1374
  | "triangular" => some ([req "left", req "mode", req "right"] ++ clipSig)       -- 1432
  | "pert" => some ([req "left", req "mode", req "right", optInt "lam" 4] ++ clipSig)  -- 1488
  | "poisson" => some (req "lam" :: clipSig)                                      -- 1536
  | "chisquare" => some [req "df"]                                                -- 1572
  | "exponential" => some (req "scale" :: clipSig)                                -- 1613
  | "gamma" => some (req "shape" :: optInt "scale" 1 :: clipSig)                  -- 1656
  | "pareto" => some [req "shape"]                                                -- 1692
  | "geometric" => some [req "p"]                                                 -- 1849
  | "Die" => some [optNone "sides", optNone "explode_on"]                         -- dice.py:12
  | "die" => some [req "sides", optNone "explode_on"]                             -- dice.py:45
  | "coin" => some []                                                             -- dice.py:88
  | _ => none

/-- The body of the named function on its bound arguments (the `return` lines 649, 683, 761-763, 997-1007,
1065-1075, 1152, 1187, 1221, 1335, 1412, 1454, 1516, 1558, 1590, 1635, 1680, 1710, 1867; dice.py:70, 105): the
constructors of `Model/Constructors.lean` and `Model/Params.lean`.  Arguments of other types than numbers are
not modelled. -/
noncomputable def callBody {S : Type} (ppf : ℝ → ℝ) : String → List (Scalar ℝ) → Except PyErr (Obj S ℝ)
  | "const", [x] => construct (.const x)
  | "uniform", [x, y] => (match asNum x, asNum y with
    | some x, some y => construct (.uniform x y)
    | _, _ => .error .unmodelled)
  | "norm", [x, y, cred, mean, sd, lc, rc] => (match asOpt x, asOpt y, asNum cred, asOpt mean, asOpt sd with
    | some x, some y, some cred, some mean, some sd => (match normalInit ppf x y mean sd cred with
      | .error e => .error e
      | .ok f => (match f.mean, f.sd with
        | some m, some s => .ok (.leaf (.normal m s) (asBound lc) (asBound rc))
        | _, _ => .error .unmodelled))
    | _, _, _, _, _ => .error .unmodelled)
  | "lognorm", [x, y, cred, nm, ns, lm, ls, lc, rc] =>
    (match asOpt x, asOpt y, asNum cred, asOpt nm, asOpt ns, asOpt lm, asOpt ls with
    | some x, some y, some cred, some nm, some ns, some lm, some ls =>
      (match lognormInit ppf ⟨x, y, nm, ns, lm, ls, cred⟩ with
      | .error e => .error e
      | .ok f => (match f.normMean, f.normSd with
        | some m, some s => .ok (.leaf (.lognormal m s) (asBound lc) (asBound rc))
        | _, _ => .error .unmodelled))
    | _, _, _, _, _, _, _ => .error .unmodelled)
  | "invlognorm", [x, y, cred, nm, ns, lm, ls, lc, rc] =>
    (match asOpt x, asOpt y, asNum cred, asOpt nm, asOpt ns, asOpt lm, asOpt ls with
    | some x, some y, some cred, some nm, some ns, some lm, some ls =>
      (match invlognormInit ppf ⟨x, y, nm, ns, lm, ls, cred⟩ with
      | .error e => .error e
      | .ok f => (match f.normMean, f.normSd with
        | some m, some s => .ok (.leaf (.invlognormal m s) (asBound lc) (asBound rc))
        | _, _ => .error .unmodelled))
    | _, _, _, _, _, _, _ => .error .unmodelled)
  | "binomial", [n, p] => (match n, asNum p with
    | .int n, some p => construct (.binomial n p)
    | _, _ => .error .unmodelled)
  | "beta", [a, b] => (match asNum a, asNum b with
    | some a, some b => construct (.beta a b)
    | _, _ => .error .unmodelled)
  | "bernoulli", [p] => construct (.bernoulli (asNum p))
  | "tdist", [x, y, t, cred, lc, rc] => (match asOpt x, asOpt y, asNum t, asNum cred with
    | some x, some y, some t, some cred => construct (.tdist x y t cred (asBound lc) (asBound rc))
    | _, _, _, _ => .error .unmodelled)
  | "log_tdist", [x, y, t, cred, lc, rc] => (match asOpt x, asOpt y, asNum t, asNum cred with
    | some x, some y, some t, some cred => construct (.logTdist x y t cred (asBound lc) (asBound rc))
    | _, _, _, _ => .error .unmodelled)
  | "triangular", [l, m, r, lc, rc] => (match asNum l, asNum m, asNum r with
    | some l, some m, some r => construct (.triangular l m r (asBound lc) (asBound rc))
    | _, _, _ => .error .unmodelled)
  | "pert", [l, m, r, lam, lc, rc] => (match asNum l, asNum m, asNum r, asNum lam with
    | some l, some m, some r, some lam => construct (.pert l m r lam (asBound lc) (asBound rc))
    | _, _, _, _ => .error .unmodelled)
  | "poisson", [lam, lc, rc] => (match asNum lam with
    | some lam => construct (.poisson lam (asBound lc) (asBound rc))
    | none => .error .unmodelled)
  | "chisquare", [df] => (match asNum df with
    | some df => construct (.chisquare df)
    | none => .error .unmodelled)
  | "exponential", [sc, lc, rc] => (match asNum sc with
    | some sc => construct (.exponential sc (asBound lc) (asBound rc))
    | none => .error .unmodelled)
  | "gamma", [sh, sc, lc, rc] => (match asNum sh, asNum sc with
    | some sh, some sc => construct (.gamma sh sc (asBound lc) (asBound rc))
    | _, _ => .error .unmodelled)
  | "pareto", [sh] => (match asNum sh with
    | some sh => construct (.pareto sh)
    | none => .error .unmodelled)
  | "geometric", [p] => (match asNum p with
    | some p => construct (.geometric p)
    | none => .error .unmodelled)
  | "Die", [sides, explode] => dieCall sides explode
  | "die", [sides, explode] => dieCall sides explode
  | "coin", [] => construct .coin
  | _, _ => .error .unmodelled
where
  /-- `Die(sides, explode_on)` with literals (dice.py:12-35). -/
  dieCall : Scalar ℝ → Scalar ℝ → Except PyErr (Obj S ℝ)
    | .none, .none => construct (.die none .absent)
    | .int s, .none => construct (.die (some s) .absent)
    | .int s, .int v => construct (.die (some s) (.one (some v)))
    | _, _ => .error .unmodelled

/-- Evaluating a call.  An unknown name is Python's `NameError`, shown as `none`. -/
noncomputable def evalCall {S : Type} (ppf : ℝ → ℝ) (c : Call) : Option (Except PyErr (Obj S ℝ)) :=
  match signature? c.name with
  | none => none
  | some sig => match bindArgs sig c.args with
    | none => some (.error .typeError)
    | some vs => some (callBody ppf c.name vs)

/-- `LognormalDistribution.__str__`, `InverseLognormalDistribution.__str__` after `"<Distribution> "`
(distributions.py:833-846, 927-940): `name` is `lognorm` or `invlognorm`. -/
noncomputable def logStr (num : ℝ → String) (name : String) (lm ls nm ns : ℝ) (lc rc : Option (Scalar ℝ)) :
    String :=
  name ++ "(lognorm_mean=" ++ num (round2 lm) ++ ", lognorm_sd=" ++ num (round2 ls) ++ ", norm_mean=" ++
    num (round2 nm) ++ ", norm_sd=" ++ num (round2 ns) ++ clipStr num lc rc ++ ")"

end Verif
